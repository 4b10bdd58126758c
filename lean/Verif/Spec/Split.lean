import Verif.Spec.Due
/-
C112: items of a task are moved to a task of their own.
-/

namespace Bab.Spec

/-- the new task: it has the settings of the task that the items come from, and no condition and no dependencies -/
def ownTask (T : Task) (x : Str) (mid : List RunItem) : Task :=
  { name := x, sourcePath := T.sourcePath, vars := T.vars, env := T.env, silent := T.silent, output := T.output, dir := T.dir, run := mid }

/-- the task `n`, with the items `mid` between `pre` and `post`, has given them to the new task `x`, which it calls at their place -/
def moveItems (tasks : TaskMap) (n : Str) (T : Task) (x : Str) (pre mid post : List RunItem) : TaskMap :=
  (tasks.set n { T with run := pre ++ .task { task := x } :: post }).set x (ownTask T x mid)

/-- where an item was before the move; `a` items stand before those that are moved, and `b` items are moved -/
def oldPlace (n x : Str) (a b : Nat) (l : Loc) : Loc :=
  if l.task = x then ⟨n, a + l.item, l.sub⟩
  else if l.task = n ∧ a < l.item then ⟨n, l.item - 1 + b, l.sub⟩
  else l

/-- the entry, at the place before the move -/
def oldEntry (n x : Str) (a b : Nat) : PlanEntry → PlanEntry
  | .cmd l t => .cmd (oldPlace n x a b l) t
  | .log l t v => .log (oldPlace n x a b l) t v
  | .task l k => .task (oldPlace n x a b l) k

end Bab.Spec
