import Mathlib.Data.List.Forall2
import Verif.Spec.Inline
import Verif.Spec.Values
/-
C127: a variable can be renamed, one of a task or one for all tasks.
-/

namespace Bab.Spec.RenameVar
open Inline

/-- the second text is the first one with `y` instead of `x` in some references -/
def Text (x y : Str) (t t' : Str) : Prop := NoNul t ∧ Renamed x y t t'

structure Command (x y : Str) (v v' : CommandRun) : Prop where
  rest : v' = { v with cmd := v'.cmd, dir := v'.dir, env := v'.env, cond := v'.cond }
  cmd : Text x y v.cmd v'.cmd
  dir : Text x y v.dir v'.dir
  env : List.Forall₂ (fun p q => p.1 = q.1 ∧ Text x y p.2 q.2) v.env v'.env
  cond : Text x y v.cond v'.cond

structure Message (x y : Str) (l l' : LogRun) : Prop where
  rest : l' = { l with log := l'.log, cond := l'.cond }
  log : Text x y l.log l'.log
  cond : Text x y l.cond l'.cond

/-- the same in all texts of items -/
inductive Items (x y : Str) : List RunItem → List RunItem → Prop
  | nil : Items x y [] []
  | command {v v' r r'} : Command x y v v' → Items x y r r' → Items x y (.command v :: r) (.command v' :: r')
  | task {t r r'} {w : Str} : Text x y t.cond w → Items x y r r' → Items x y (.task t :: r) (.task { t with cond := w } :: r')
  | log {l l' r r'} : Message x y l l' → Items x y r r' → Items x y (.log l :: r) (.log l' :: r')
  | parallel {its its' labels mode lim color s o pl w w' ln r r'} : Items x y its its' → Text x y w w' → Items x y r r' →
      Items x y (.parallel its labels mode lim color s o pl w ln :: r) (.parallel its' labels mode lim color s o pl w' ln :: r')

/-- The task `T'` is `T` with the variable `x`, which is defined as `raw`, renamed to `y`. Other definitions of the task mention neither, and
its condition is not affected: it is worked out before the variables of the task. -/
structure Task (x y raw : Str) (T T' : Bab.Task) : Prop where
  ne : x ≠ y
  own : (T.vars.getD []).get? x = some raw
  own' : (T'.vars.getD []).get? y = some raw
  others : ∀ k, k ≠ x → k ≠ y → (T'.vars.getD []).get? k = (T.vars.getD []).get? k
  fresh : (T.vars.getD []).get? y = none
  gone : (T'.vars.getD []).get? x = none
  rest : T' = { T with vars := T'.vars, dir := T'.dir, env := T'.env, run := T'.run }
  dir : Text x y T.dir T'.dir
  env : List.Forall₂ (fun p q => p.1 = q.1 ∧ Text x y p.2 q.2) T.env T'.env
  run : Items x y T.run T'.run
  /-- `y` is not mentioned before, and `x` is not mentioned after -/
  before : Values.Without T y
  after : Values.Without T' x

/-- The variable `x` of the task `n` is renamed to `y`, in this task and nowhere else. Its definition must make sense. Settings for all tasks
mention neither name, nor do the values that come out of `env` (those are expanded again). -/
structure Renaming (c : Cfg) (g : GoMap Str) (n x y raw : Str) (tasks tasks' : TaskMap) (T T' : Bab.Task) : Prop where
  renamed : Task x y raw T T'
  here : tasks.get? n = some T
  there : tasks'.get? n = some T'
  same : ∀ k, k ≠ n → tasks'.get? k = tasks.get? k
  notEnv : ¬ IsEnv x
  notEnv' : ¬ IsEnv y
  known : ∀ z, Uses raw z → ¬ IsEnv z → (T.vars.getD []).get? z ≠ none ∨ g.get? z ≠ none
  globalDir : ¬ Mentions c.globalDir x ∧ ¬ Mentions c.globalDir y
  globalEnv : ∀ p ∈ c.globalEnv, ¬ Mentions p.2 x ∧ ¬ Mentions p.2 y
  again : ∀ m tenv, resolveVars T.vars g c.env = .ok m →
    interpolateEnv ⟨m, c.env⟩ (mergeEnvMaps [c.globalEnv, T.env]) = .ok tenv → ∀ p ∈ tenv, ¬ Mentions p.2 y
  again' : ∀ m tenv, resolveVars T'.vars g c.env = .ok m →
    interpolateEnv ⟨m, c.env⟩ (mergeEnvMaps [c.globalEnv, T'.env]) = .ok tenv → ∀ p ∈ tenv, ¬ Mentions p.2 x
  clean : ∀ m, resolveVars T.vars g c.env = .ok m → ∀ k w, value m.get? c.env k = some w → NoNul w

/-- The task `T'` is `T` with references to `x` renamed to `y`, neither of which it defines. Its own definitions mention neither. -/
structure User (x y : Str) (T T' : Bab.Task) : Prop where
  own : (T.vars.getD []).get? x = none
  own' : (T.vars.getD []).get? y = none
  rest : T' = { T with cond := T'.cond, dir := T'.dir, env := T'.env, run := T'.run }
  cond : Text x y T.cond T'.cond
  dir : Text x y T.dir T'.dir
  env : List.Forall₂ (fun p q => p.1 = q.1 ∧ Text x y p.2 q.2) T.env T'.env
  run : Items x y T.run T'.run
  before : Values.Without T y
  after : Values.Without T' x

/-- The variable `x`, which is defined for all tasks and has the value `v`, is renamed to `y` in all tasks. The directory and `env` for all
tasks mention neither name, nor do the values that come out of `env`. -/
structure Everywhere (c : Cfg) (g g' : GoMap Str) (x y v : Str) (tasks tasks' : TaskMap) : Prop where
  ne : x ≠ y
  value : g.get? x = some v
  value' : g'.get? y = some v
  others : ∀ k, k ≠ x → k ≠ y → g'.get? k = g.get? k
  users : ∀ k T, tasks.get? k = some T → ∃ T', tasks'.get? k = some T' ∧ User x y T T'
  only : ∀ k, tasks.get? k = none → tasks'.get? k = none
  notEnv : ¬ IsEnv x
  notEnv' : ¬ IsEnv y
  globalDir : ¬ Mentions c.globalDir x ∧ ¬ Mentions c.globalDir y
  globalEnv : ∀ p ∈ c.globalEnv, ¬ Mentions p.2 x ∧ ¬ Mentions p.2 y
  again : ∀ k T m tenv, tasks.get? k = some T → resolveVars T.vars g c.env = .ok m →
    interpolateEnv ⟨m, c.env⟩ (mergeEnvMaps [c.globalEnv, T.env]) = .ok tenv → ∀ p ∈ tenv, ¬ Mentions p.2 y
  again' : ∀ k T m tenv, tasks'.get? k = some T → resolveVars T.vars g' c.env = .ok m →
    interpolateEnv ⟨m, c.env⟩ (mergeEnvMaps [c.globalEnv, T.env]) = .ok tenv → ∀ p ∈ tenv, ¬ Mentions p.2 x
  clean : ∀ k w, Spec.value g.get? c.env k = some w → NoNul w
  cleanTask : ∀ n T m, tasks.get? n = some T → resolveVars T.vars g c.env = .ok m → ∀ k w, Spec.value m.get? c.env k = some w → NoNul w

end Bab.Spec.RenameVar
