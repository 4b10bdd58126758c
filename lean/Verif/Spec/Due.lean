import Verif.Spec.Plan
import Verif.Spec.Runner
/-
C78: what is due when a task is run, whatever the order in which it happens.
-/

namespace Bab.Spec

/-- a task, or an item at a place with the variables it is executed with -/
inductive Thing
  | task (n : Str)
  | item (loc : Loc) (it : RunItem) (m : GoMap Str)

/-- What is due when the task `main` is run with the global variables `g`: the dependencies of a task that is due, and the items for this
platform, each if the condition holds; all items of a parallel block; the tasks that items call, and the dependencies of tasks that
items of blocks call. -/
inductive Due (c : Cfg) (tasks : TaskMap) (g : GoMap Str) (main : Str) : Thing → Prop
  | main : Due c tasks g main (.task main)
  | dep {n T d} : Due c tasks g main (.task n) → tasks.get? n = some T → CondTrue c T.cond g → d ∈ T.deps → Due c tasks g main (.task d)
  | item {n T m i it} : Due c tasks g main (.task n) → tasks.get? n = some T → CondTrue c T.cond g →
      resolveVars T.vars g c.env = .ok m → T.run[i]? = some it → it.onPlatform c.platform = true → CondTrue c it.cond m →
      Due c tasks g main (.item ⟨n, i, none⟩ it m)
  | sub {n i items labels mode lim color bs bo pl w ln m j it} :
      Due c tasks g main (.item ⟨n, i, none⟩ (.parallel items labels mode lim color bs bo pl w ln) m) → items[j]? = some it →
      Due c tasks g main (.item ⟨n, i, some j⟩ it m)
  | call {loc t m} : Due c tasks g main (.item loc (.task t) m) → Due c tasks g main (.task t.task)
  | ahead {n i j t m T d} : Due c tasks g main (.item ⟨n, i, some j⟩ (.task t) m) → tasks.get? t.task = some T → d ∈ T.deps →
      Due c tasks g main (.task d)

/-- the command or message is due, with this text -/
inductive DueEntry (c : Cfg) (tasks : TaskMap) (g : GoMap Str) (main : Str) : PlanEntry → Prop
  | cmd {loc v m text} : Due c tasks g main (.item loc (.command v) m) → interpolate v.cmd ⟨m, c.env⟩ = .ok text →
      DueEntry c tasks g main (.cmd loc text)
  | log {loc l m text} : Due c tasks g main (.item loc (.log l) m) → interpolate l.log ⟨m, c.env⟩ = .ok text →
      DueEntry c tasks g main (.log loc text l.level)

/-- no task that is due asks for anything -/
def Unasked (c : Cfg) (tasks : TaskMap) (g : GoMap Str) (main : Str) : Prop :=
  ∀ n T p, Due c tasks g main (.task n) → tasks.get? n = some T → .prompt p ∉ T.run

end Bab.Spec
