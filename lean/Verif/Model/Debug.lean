import Verif.Model.Runner
/-
The debug messages of the runner (`log.Debug` in internal/runner/runner.go), which `--verbose` shows (cmd/root.go 68-72), as far as
they belong to an event of the trace. Left out: 188 (before a dependency), 221 and 286 (counts), parallel.go 107, the messages of the parser
and the finder, and the reason given with a condition.
-/

namespace Bab

/-- the debug messages of runner.go 165, 231, 259, 358, with what they contain -/
inductive DebugMsg
  /-- runner.go 165: "Skipping task" -/
  | skipTask (task : Str)
  /-- runner.go 231: "Skipping run item", because of the platform -/
  | skipPlatform (task : Str) (index : Nat)
  /-- runner.go 358: "Skipping run item", because of its condition -/
  | skipCond (task : Str) (index : Nat)
  /-- runner.go 259: "Prompt result stored" with the variable and its value -/
  | stored (var value : Str)
  deriving DecidableEq, Repr

/-- the debug message that goes with an event (runner.go 165, 231, 259, 358) -/
def debugOf : Ev → Option DebugMsg
  | .taskSkip n _ => some (.skipTask n)
  | .itemSkip n i .platform => some (.skipPlatform n (i + 1))
  | .itemSkip n i (.cond _) => some (.skipCond n (i + 1))
  | .answered _ x (.ok v) => some (.stored x v)
  | _ => none

/-- the debug messages that are shown; `verbose` is the flag (cmd/root.go 69-71) -/
def debugLines (verbose : Bool) (trace : List Ev) : List DebugMsg :=
  if verbose then trace.filterMap debugOf else []

end Bab
