import Verif.Spec.Due
/-
C113: a parallel block is replaced by its items, one after the other.
-/

namespace Bab.Spec

/-- the task `n` has the items of the block at the place of the block -/
def inSequence (tasks : TaskMap) (n : Str) (T : Task) (pre items post : List RunItem) : TaskMap :=
  tasks.set n { T with run := pre ++ items ++ post }

/-- An item that may stand in a block and means the same outside: a command, a call or a message, for this platform and without a
condition (inside a block neither is looked at). -/
def Plain (c : Cfg) (it : RunItem) : Prop :=
  (match it with
    | .command _ => True
    | .task _ => True
    | .log _ => True
    | _ => False) ∧ it.onPlatform c.platform = true ∧ it.cond = []

/-- where an item was before; `a` items stand before the block, which has `b` items -/
def blockPlace (n : Str) (a b : Nat) (l : Loc) : Loc :=
  if l.task ≠ n ∨ l.item < a then l
  else if l.item < a + b then ⟨n, a, some (l.item - a)⟩
  else ⟨n, l.item - b + 1, l.sub⟩

/-- the entry, at the place before -/
def blockEntry (n : Str) (a b : Nat) : PlanEntry → PlanEntry
  | .cmd l t => .cmd (blockPlace n a b l) t
  | .log l t v => .log (blockPlace n a b l) t v
  | .task l k => .task (blockPlace n a b l) k

end Bab.Spec
