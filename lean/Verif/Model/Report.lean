import Verif.Model.Main
import Verif.Model.CommandLine
/-
Model of what a user gets to see of the messages of `log` items (main.go 30-34, cmd/root.go 66-70, runner.go 536-549,
parallel.go 312-326, output/output.go 72-85) and of the line that sums up a parallel block (output/output.go 87-111). Colours
and styles are left out.
-/

namespace Bab.Report

/-- the value of a level in charmbracelet/log: `executeLog` calls `log.Debug`, `log.Info`, `log.Warn` or `log.Error`, and `log.Info`
for any other level (runner.go 536-549) -/
def rank (level : Str) : Int :=
  if level = "debug".toList then -4
  else if level = "info".toList then 0
  else if level = "warn".toList then 4
  else if level = "error".toList then 8
  else 0

/-- the least level that is printed: set in main.go 30-34 and, for `--verbose`, in cmd/root.go 66-70 -/
def threshold (verbose : Bool) : Int := if verbose then -4 else 0

/-- Is a message printed? Outside of parallel blocks it goes to the logger, which drops what is below its level; inside it is
written to the writer of the item (parallel.go 318-325). -/
def shows (verbose : Bool) (level : Str) : Option Sink → Bool
  | none => decide (threshold verbose ≤ rank level)
  | some _ => true

/-- the messages that are printed, in order -/
def printed (verbose : Bool) (t : List Ev) : List (Loc × Str) :=
  t.filterMap fun
    | .logged loc text level out => if shows verbose level out then some (loc, text) else none
    | _ => none

/-- output/output.go 92-102: what follows the label of an item -/
inductive Mark
  | done | cancelled | failed
  deriving DecidableEq, Repr

/-- output/output.go 92-102 -/
def markOf (x : Texts) : Option Err → Mark
  | none => .done
  | some e => if (e.toGo x).isCanceled then .cancelled else .failed

/-- output/output.go 95, 97, 100 -/
def Mark.sign : Mark → Char
  | .done => '✓'
  | .cancelled => '⊘'
  | .failed => '✗'

/-- the writes to `itemErrs[j]` of the block that is item `i` of task `n`: when the item ends, and when it is dropped while it waits
for the limit (parallel.go 240, 260) -/
def writeErr (n : Str) (i j : Nat) (r : Option Err) : Ev → Option Err
  | .subEnd n' i' j' r' => if n' = n ∧ i' = i ∧ j' = j then r' else r
  | .subAbort n' i' j' => if n' = n ∧ i' = i ∧ j' = j then some .canceled else r
  | _ => r

/-- `itemErrs[j]` after these events; it starts as nil (parallel.go 225) -/
def itemErr (n : Str) (i j : Nat) (t : List Ev) : Option Err := t.foldl (writeErr n i j) none

/-- `strings.Join(parts, "  ")` (output/output.go 108) -/
def join : List Str → Str
  | [] => []
  | [p] => p
  | p :: ps => p ++ ' ' :: ' ' :: join ps

/-- output/output.go 87-111 `RenderParallelDone` -/
def renderParallelDone (x : Texts) (labels : List Str) (errs : List (Option Err)) : Str :=
  if errs.length ≠ labels.length then []
  else "● Parallel [".toList ++ join (List.zipWith (fun l e => l ++ [' ', (markOf x e).sign]) labels errs) ++ "]".toList

/-- parallel.go 282-292: the line for a block of the view that has been joined after the events `t` -/
def summary (x : Texts) (n : Str) (i : Nat) (items : List RunItem) (labels : List Str) (t : List Ev) : Str :=
  renderParallelDone x ((List.range items.length).map (itemLabel items labels)) ((List.range items.length).map (itemErr n i · t))

end Bab.Report
