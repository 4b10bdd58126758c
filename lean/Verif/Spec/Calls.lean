import Verif.Spec.Due
/-
C122: dependencies written as calls.
-/

namespace Bab.Spec

/-- the task with its dependencies as calls before its items -/
def callTask (T : Task) : Task := { T with deps := [], run := T.deps.map (fun d => .task { task := d }) ++ T.run }

/-- all tasks with their dependencies as calls -/
def callTasks (tasks : TaskMap) : TaskMap := tasks.map fun q => (q.1, callTask q.2)

/-- where an item is afterwards: the calls are before it -/
def callPlace (tasks : TaskMap) (l : Loc) : Loc :=
  match tasks.get? l.task with
  | none => l
  | some T => { l with item := T.deps.length + l.item }

/-- the entry, at the place afterwards -/
def callEntry (tasks : TaskMap) : PlanEntry → PlanEntry
  | .cmd l t => .cmd (callPlace tasks l) t
  | .log l t v => .log (callPlace tasks l) t v
  | .task l k => .task (callPlace tasks l) k

/-- Dependencies can be written as calls: the variables and the environment of a task with dependencies that is run make sense, and the
condition of one that is called in a parallel block holds. -/
structure Callable (c : Cfg) (tasks : TaskMap) (g : GoMap Str) (main : Str) : Prop where
  body : ∀ k U, Due c tasks g main (.task k) → tasks.get? k = some U → U.deps ≠ [] → CondTrue c U.cond g →
    ∃ m tenv, resolveVars U.vars g c.env = .ok m ∧ interpolateEnv ⟨m, c.env⟩ (mergeEnvMaps [c.globalEnv, U.env]) = .ok tenv
  ahead : ∀ n i j t m U, Due c tasks g main (.item ⟨n, i, some j⟩ (.task t) m) → tasks.get? t.task = some U → U.deps ≠ [] → CondTrue c U.cond g

end Bab.Spec
