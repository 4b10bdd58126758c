import Verif.Model.Finder
import Verif.Model.Listing
import Verif.Model.Parser
import Verif.Model.Picker
import Verif.Model.ResolveVars
import Verif.Model.Runner
/-
Model of the command line: cmd/root.go, cmd/validate.go, cmd/list.go, cmd/interactive.go, cmd/completion.go and the
entry of the runner. The model starts with the values of the flags; how they are read from the arguments, and `--help` and
`--version`, are in Model/CommandLine. The update notice (Model/Update) is left out.
-/

namespace Bab.Cli
open Bab

/-- what one invocation finds on the machine (read in runner.go 49-85 and cmd/root.go 91-110) -/
structure World where
  /-- what reading and unmarshalling files gives -/
  files : Files
  /-- for which paths `os.Stat` succeeds -/
  ex : Str → Bool
  /-- the working directory -/
  cwd : Str
  /-- everything else the runner asks for: environment, platform, directories, terminals -/
  base : Cfg
  /-- `fuzzy.Find` -/
  find : Str → List Str → List Picker.Hit

/-- the orders in which maps are visited during one call of `LoadTasks`, and how slices grow during it
(the `range` loops of parser.go 89-101, 116-126 and validate.go 24, 58, 78, 161) -/
structure Visit where
  orders : Orders
  grow : Nat → Nat
  v1 : TaskMap → TaskMap
  v2 : TaskMap → TaskMap
  v3 : TaskMap → TaskMap
  v4 : TaskMap → TaskMap

/-- cmd/root.go 26-34 `CLI`, without context and `verbose`, which only changes logging -/
structure Flags where
  dryRun : Bool := false
  listTasks : Bool := false
  validate : Bool := false
  completion : Str := []
  babfile : Str := []

/-- how the picker ends (tui.go 19-31): an error, or after these messages -/
inductive Pick
  | killed
  | failed
  | msgs (l : List Picker.Msg)

/-- the errors before anything is run (parser.go 26-47, finder.go 20-45, runner.go 72-75, cmd/completion.go 10-23) -/
inductive CliErr
  /-- errs.ErrBabfileNotFound (finder.go 44) -/
  | noBabfile
  /-- an error of `parser.Parse` -/
  | load (e : PErr)
  /-- `resolving global variables` (runner.go 74) -/
  | globals (e : Err)
  /-- `invalid shell` (completion.go 21) -/
  | badShell (shell : Str)
  /-- errs.ErrNoTasks (tui.go 16) -/
  | noTasks
  /-- context.Canceled (tui.go 22) -/
  | killed
  /-- another error of the picker -/
  | picker

/-- what an invocation does (cmd/root.go 91-110) -/
inductive Outcome
  | failed (e : CliErr)
  /-- a completion script for this shell is printed -/
  | script (shell : Str)
  /-- `Babfile is valid` with the number of tasks (validate.go 13) -/
  | valid (n : Nat)
  /-- the lines printed by `--list` -/
  | listed (rows : List LRow)
  /-- `No tasks found` (list.go 28) -/
  | emptyList
  /-- the picker was left without a choice (interactive.go 20-23) -/
  | nothing
  /-- `RunWithTasks` is called (runner.go 84) with this runner, on these tasks, with these global variables -/
  | run (c : Cfg) (tasks : TaskMap) (gvars : GoMap Str) (name : Str)

/-- runner.go 49-61 `LoadTasks` -/
def loadTasks (w : World) (v : Visit) (customPath : Str) : Except CliErr ParseResult :=
  let go := fun path =>
    match parse w.files v.orders v.grow v.v1 v.v2 v.v3 v.v4 w.cwd path with
    | .ok r => .ok r
    | .error e => .error (.load e)
  if customPath ≠ [] then go customPath
  else match findBabfile w.ex w.cwd with
    | none => .error .noBabfile
    | some p => go p

/-- runner.go 45-47 `New` with runner.go 63-85 `Run`, up to the call of `RunWithTasks` -/
def runTask (w : World) (v : Visit) (fl : Flags) (taskName : Str) : Outcome :=
  match loadTasks w v fl.babfile with
  | .error e => .failed e
  | .ok r =>
    match placed 0 (resolveVars r.vars [] w.base.env) with
    | .error e => .failed (.globals e)
    | .ok gvars =>
      let c := { w.base with dry := fl.dryRun, globalEnv := r.env, globalSilent := r.silent, globalOutput := r.output, globalDir := r.dir }
      .run c r.tasks gvars (resolveTaskName r.aliases taskName)

/-- validate.go 8-15 `runValidate` -/
def runValidate (w : World) (v : Visit) (fl : Flags) : Outcome :=
  match loadTasks w v fl.babfile with
  | .error e => .failed e
  | .ok r => .valid r.tasks.length

/-- list.go 21-76 `runList` -/
def runList (w : World) (v : Visit) (fl : Flags) : Outcome :=
  match loadTasks w v fl.babfile with
  | .error e => .failed e
  | .ok r => if r.tasks.length = 0 then .emptyList else .listed (Bab.listTasks r.tasks)

/-- completion.go 10-23 `runCompletion` -/
def runCompletion (fl : Flags) : Outcome :=
  if fl.completion = "bash".toList then .script fl.completion
  else if fl.completion = "zsh".toList then .script fl.completion
  else if fl.completion = "fish".toList then .script fl.completion
  else if fl.completion = "powershell".toList then .script fl.completion
  else .failed (.badShell fl.completion)

/-- tui.go 14-32 `PickTask` -/
def pickTask (w : World) (tasks : TaskMap) (pick : Pick) : Except CliErr (Option Task) :=
  if tasks.length = 0 then .error .noTasks
  else match pick with
    | .killed => .error .killed
    | .failed => .error .picker
    | .msgs l => .ok (l.foldl (Picker.Model.update w.find) (Picker.new w.find tasks)).selected

/-- interactive.go 9-27 `runInteractive`. The Babfile is loaded a second time to run the task; `w'` and `v'` are for
this second time. -/
def runInteractive (w w' : World) (v v' : Visit) (fl : Flags) (pick : Pick) : Outcome :=
  match loadTasks w v fl.babfile with
  | .error e => .failed e
  | .ok r =>
    match pickTask w r.tasks pick with
    | .error e => .failed e
    | .ok none => .nothing
    | .ok (some t) => runTask w' v' fl t.name

/-- root.go 91-105 `run` -/
def run (w w' : World) (v v' : Visit) (fl : Flags) (args : List Str) (pick : Pick) : Outcome :=
  if fl.completion ≠ [] then runCompletion fl
  else if fl.validate then runValidate w v fl
  else if fl.listTasks then runList w v fl
  else match args with
    | a :: _ => runTask w v fl a
    | [] => runInteractive w w' v v' fl pick

/-- complete.go 11-49 `completeTaskNames` -/
def complete (w : World) (v : Visit) (babfile : Str) (args : List Str) (toComplete : Str) : List Str :=
  if args ≠ [] then []
  else match loadTasks w v babfile with
    | .error _ => []
    | .ok r => completeTaskNames r.tasks r.aliases toComplete

end Bab.Cli
