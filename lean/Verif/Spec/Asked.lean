import Verif.Spec.ResolveVars
import Verif.Model.Runner
/-
Which variables of the process environment a Babfile names.
-/

namespace Bab.Spec.Asked

/-- the text refers to environment variables from this set only -/
def Names (N : Str → Prop) (t : Str) : Prop := ∀ x, Uses t ("env.".toList ++ x) → N x

/-- No text of the item that is used refers to another environment variable. -/
def NamesItem (N : Str → Prop) : RunItem → Prop
  | .command v => Names N v.cond ∧ Names N v.cmd ∧ Names N v.dir ∧ ∀ p ∈ v.env, Names N p.2
  | .task t => Names N t.cond
  | .log l => Names N l.cond ∧ Names N l.log
  | .prompt p => Names N p.cond ∧ Names N p.message ∧ Names N p.default ∧ Names N p.placeholder ∧
      (∀ t ∈ p.options, Names N t) ∧ ∀ t ∈ p.defaults, Names N t
  | .parallel items _ _ _ _ _ _ _ w _ => Names N w ∧
      (∀ v, .command v ∈ items → Names N v.cmd ∧ Names N v.dir ∧ ∀ p ∈ v.env, Names N p.2) ∧ ∀ l, .log l ∈ items → Names N l.log

/-- no text of the task refers to another environment variable -/
structure NamesTask (N : Str → Prop) (T : Task) : Prop where
  cond : Names N T.cond
  dir : Names N T.dir
  env : ∀ p ∈ T.env, Names N p.2
  vars : ∀ k raw, (T.vars.getD []).get? k = some raw → Names N raw
  run : ∀ i ∈ T.run, NamesItem N i

/-- nothing that the Babfile says about running tasks refers to another environment variable -/
structure NamesAll (N : Str → Prop) (c : Cfg) (tasks : TaskMap) : Prop where
  dir : Names N c.globalDir
  env : ∀ p ∈ c.globalEnv, Names N p.2
  tasks : ∀ n T, tasks.get? n = some T → NamesTask N T

/-- nothing in the text can be taken for a reference or an escape -/
def Inert (t : Str) : Prop := '$' ∉ t ∧ NoNul t

/-- The text is made of plain characters and of environment variables that contain nothing like a reference. -/
def Settled (env : Str → Option Str) (t : Str) : Prop :=
  NoNul t ∧ ∃ ts, Reads t ts ∧ ∀ k ∈ ts, (∃ c, k = .chr c ∧ c ≠ '$') ∨ ∃ x, k = .ref ("env.".toList ++ x) ∧ Inert ((env x).getD [])

/-- the values of `env` for all tasks and for single tasks are such texts -/
structure SettledAll (env : Str → Option Str) (c : Cfg) (tasks : TaskMap) : Prop where
  all : ∀ p ∈ c.globalEnv, Settled env p.2
  tasks : ∀ n T, tasks.get? n = some T → ∀ p ∈ T.env, Settled env p.2

end Bab.Spec.Asked
