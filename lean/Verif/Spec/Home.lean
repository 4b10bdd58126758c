import Verif.Spec.Due
/-
C117: what is for other platforms is left out.
-/

namespace Bab.Spec

/-- the task without the items for other platforms; what is inside of parallel blocks stays as it is -/
def homeTask (c : Cfg) (T : Task) : Task := { T with run := T.run.filter (·.onPlatform c.platform) }

/-- the tasks without the items for other platforms -/
def homeTasks (c : Cfg) (tasks : TaskMap) : TaskMap := tasks.map fun q => (q.1, homeTask c q.2)

/-- where an item is afterwards: as many items are before it as were before and are for this platform -/
def homePlace (c : Cfg) (tasks : TaskMap) (l : Loc) : Loc :=
  match tasks.get? l.task with
  | none => l
  | some T => { l with item := ((T.run.take l.item).filter (·.onPlatform c.platform)).length }

/-- the entry, at the place afterwards -/
def homeEntry (c : Cfg) (tasks : TaskMap) : PlanEntry → PlanEntry
  | .cmd l t => .cmd (homePlace c tasks l) t
  | .log l t v => .log (homePlace c tasks l) t v
  | .task l k => .task (homePlace c tasks l) k

end Bab.Spec
