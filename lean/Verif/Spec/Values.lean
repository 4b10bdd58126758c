import Verif.Spec.ResolveVars
import Verif.Spec.Work
/-
C116: where variables are defined does not matter, as long as the texts see the same values.
-/

namespace Bab.Spec.Values

/-- the two have the same values for what the text mentions -/
def On (m m' : GoMap Str) (t : Str) : Prop := ∀ x, Mentions t x → ¬ IsEnv x → m.get? x = m'.get? x

/-- the same for all texts of a command -/
def OnCommand (m m' : GoMap Str) (v : CommandRun) : Prop := On m m' v.cmd ∧ On m m' v.dir ∧ ∀ p ∈ v.env, On m m' p.2

/-- the same for all texts of an item that are used -/
def OnItem (m m' : GoMap Str) (it : RunItem) : Prop :=
  On m m' it.cond ∧
  match it with
  | .command v => OnCommand m m' v
  | .log l => On m m' l.log
  | .parallel items _ _ _ _ _ _ _ _ _ => (∀ v, .command v ∈ items → OnCommand m m' v) ∧ ∀ l, .log l ∈ items → On m m' l.log
  | _ => True

/-- The same for all texts of a task. The values of `env` are expanded, and what comes out is expanded again with those of a command. -/
structure OnTask (c : Cfg) (T : Task) (m m' : GoMap Str) : Prop where
  globalDir : On m m' c.globalDir
  dir : On m m' T.dir
  env : ∀ p ∈ mergeEnvMaps [c.globalEnv, T.env], On m m' p.2
  again : ∀ tenv, interpolateEnv ⟨m, c.env⟩ (mergeEnvMaps [c.globalEnv, T.env]) = .ok tenv → ∀ p ∈ tenv, On m m' p.2
  run : ∀ it ∈ T.run, OnItem m m' it

/-- the tasks are the same but for the definitions of variables, and where those can be worked out, the others can too, with the same values for
what the texts mention -/
def Follows (c : Cfg) (g g' : GoMap Str) (tasks tasks' : TaskMap) : Prop :=
  ∀ k U, tasks.get? k = some U → ∃ vs, tasks'.get? k = some { U with vars := vs } ∧ On g g' U.cond ∧
    ∀ m, resolveVars U.vars g c.env = .ok m → ∃ m', resolveVars vs g' c.env = .ok m' ∧ OnTask c U m m'

/-- The definitions of variables differ, in the tasks and for all tasks, but the texts see the same values. -/
def Same (c : Cfg) (g g' : GoMap Str) (tasks tasks' : TaskMap) : Prop := Follows c g g' tasks tasks' ∧ Follows c g' g tasks' tasks

/-- the definition of `x` is moved from those for all tasks to those of the task `n` -/
def moved (tasks : TaskMap) (n : Str) (T : Task) (x raw : Str) : TaskMap :=
  tasks.set n { T with vars := some ((T.vars.getD []).set x raw) }

/-- no text of the task says anything of `x`, apart from its definitions of variables -/
structure Without (T : Task) (x : Str) : Prop where
  cond : ¬ Mentions T.cond x
  dir : ¬ Mentions T.dir x
  env : ∀ p ∈ T.env, ¬ Mentions p.2 x
  vars : ∀ k raw, (T.vars.getD []).get? k = some raw → ¬ Mentions raw x
  run : ∀ it ∈ T.run, ¬ Mentions it.cond x ∧
    match it with
    | .command v => ¬ Mentions v.cmd x ∧ ¬ Mentions v.dir x ∧ ∀ p ∈ v.env, ¬ Mentions p.2 x
    | .log l => ¬ Mentions l.log x
    | .parallel items _ _ _ _ _ _ _ _ _ => (∀ v, .command v ∈ items → ¬ Mentions v.cmd x ∧ ¬ Mentions v.dir x ∧ ∀ p ∈ v.env, ¬ Mentions p.2 x) ∧
        ∀ l, .log l ∈ items → ¬ Mentions l.log x
    | _ => True

end Bab.Spec.Values
