import Verif.Spec.Due
/-
C123: items that are never executed are left out.
-/

namespace Bab.Spec

/-- the item is never executed: it is for other platforms, or its condition is false whatever the variables are -/
def Never (c : Cfg) (it : RunItem) : Prop := it.onPlatform c.platform = false ∨ ∀ m, CondFalse c it.cond m

/-- the task with some of its items; what is inside of parallel blocks stays as it is -/
def keptTask (keep : RunItem → Bool) (T : Task) : Task := { T with run := T.run.filter keep }

/-- the tasks with some of their items -/
def keptTasks (keep : RunItem → Bool) (tasks : TaskMap) : TaskMap := tasks.map fun q => (q.1, keptTask keep q.2)

/-- where an item is afterwards: as many items are before it as were before and are kept -/
def keptPlace (keep : RunItem → Bool) (tasks : TaskMap) (l : Loc) : Loc :=
  match tasks.get? l.task with
  | none => l
  | some T => { l with item := ((T.run.take l.item).filter keep).length }

/-- the entry, at the place afterwards -/
def keptEntry (keep : RunItem → Bool) (tasks : TaskMap) : PlanEntry → PlanEntry
  | .cmd l t => .cmd (keptPlace keep tasks l) t
  | .log l t v => .log (keptPlace keep tasks l) t v
  | .task l k => .task (keptPlace keep tasks l) k

end Bab.Spec
