import Verif.Spec.Runner
/-
Which variables the items of a task are supposed to see.
-/

namespace Bab.Spec

/-- the answer to a prompt of task `n` -/
def answerOf (n : Str) : Ev → Option (Str × Str)
  | .answered loc x (.ok v) => if loc.task = n ∧ loc.sub = none then some (x, v) else none
  | _ => none

/-- the latest answer to a prompt of task `n` for the variable `k` in a history -/
def lastAnswer (n k : Str) : List Ev → Option Str
  | [] => none
  | e :: a => (lastAnswer n k a).or ((answerOf n e).bind fun p => if p.1 = k then some p.2 else none)

/-- the task that uses its variables in an event, and the variables; items of parallel blocks use those
the block has begun with and are left out -/
def uses : Ev → Option (Str × GoMap Str)
  | .sees loc m => if loc.sub = none then some (loc.task, m) else none
  | .parBegin n _ m => some (n, m)
  | .itemSkip n _ (.cond m) => some (n, m)
  | .itemStart n _ (some m) => some (n, m)
  | _ => none

end Bab.Spec
