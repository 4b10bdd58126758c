import Verif.Spec.Due
/-
C79: what must hold of what is due for a run to end with success.
-/

namespace Bab.Spec

/-- nothing outside the Babfile went wrong: no command failed or could not be started, the view could be shown, nothing was interrupted -/
def Calm : Ev → Prop
  | .cancel _ => False
  | .tuiStart false => False
  | e => ¬ Fails e

/-- The task can be run: its condition makes sense; and if it holds and there are items, then the variables and the environment can be
worked out, one of the items is for this platform, and the conditions of those items make sense. -/
structure TaskWorks (c : Cfg) (g : GoMap Str) (T : Task) : Prop where
  cond : ¬ CondWrong c T.cond g
  body : CondTrue c T.cond g → T.run ≠ [] → ∃ m tenv, resolveVars T.vars g c.env = .ok m ∧
    interpolateEnv ⟨m, c.env⟩ (mergeEnvMaps [c.globalEnv, T.env]) = .ok tenv ∧ (∃ it ∈ T.run, it.onPlatform c.platform = true) ∧
    ∀ it ∈ T.run, it.onPlatform c.platform = true → ¬ CondWrong c it.cond m

/-- The item can be executed: a command is not blank, and its text, environment and directory can be worked out; the text of a message
can; and an item of a parallel block is neither a prompt nor a block. -/
def ItemWorks (c : Cfg) (tasks : TaskMap) (loc : Loc) (m : GoMap Str) : RunItem → Prop
  | .command v => ∃ T tenv text, tasks.get? loc.task = some T ∧
      interpolateEnv ⟨m, c.env⟩ (mergeEnvMaps [c.globalEnv, T.env]) = .ok tenv ∧ CmdReady c T v tenv m text
  | .log l => ∃ text, interpolate l.log ⟨m, c.env⟩ = .ok text
  | .task _ => True
  | .prompt _ => loc.sub = none
  | .parallel _ _ _ _ _ _ _ _ _ _ => loc.sub = none

/-- the task exists and can be run; the item can be executed -/
def Works (c : Cfg) (tasks : TaskMap) (g : GoMap Str) : Thing → Prop
  | .task n => ∃ T, tasks.get? n = some T ∧ TaskWorks c g T
  | .item loc it m => ItemWorks c tasks loc m it

end Bab.Spec
