import Verif.Model.CommandLine
import Verif.Model.LoadMessage
/-
From the command line to the exit status: cmd/root.go 44-58 and main.go 29-54. The notice about updates has no part in it.
-/

namespace Bab.CmdLine

/-- what the messages depend on besides the error -/
structure AllTexts where
  run : Texts
  load : LoadTexts
  /-- the texts of the errors of pflag and cobra (root.go 49) -/
  usage : Bad → Str
  /-- errs.ErrBabfileNotFound, errs.ErrNoTasks (errs/errs.go 9-20), completion.go 21, errors of the picker (tui.go 24) -/
  other : Cli.CliErr → Str

/-- the Go error behind an error before anything is run (finder.go 44, runner.go 72-75, completion.go 21, tui.go 15-24) -/
def cliErr (x : AllTexts) : Cli.CliErr → GoErr
  | .killed => .canceled
  | .load e => e.toGo x.load
  | .globals e => .wrap "resolving global variables: ".toList (e.toGo x.run)
  | e => .plain (x.other e)

/-- the error that `ExecuteContext` returns (main.go 46, cmd/root.go 44-58); `r` is what `RunWithTasks` has returned, if it was called -/
def returned (x : AllTexts) (r : Option Err) : Answer → Option GoErr
  | .usage e => some (.plain (x.usage e))
  | .help => none
  | .version => none
  | .did (.failed e) => some (cliErr x e)
  | .did (.run ..) => r.map (Err.toGo x.run)
  | .did _ => none

/-- main.go 29-54 `run` for an invocation -/
def status (x : AllTexts) (r : Option Err) (a : Answer) : Nat := (exitStatus (returned x r a)).1

end Bab.CmdLine
