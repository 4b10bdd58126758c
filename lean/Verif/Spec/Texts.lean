import Mathlib.Data.List.Forall2
import Verif.Spec.Work
/-
C125: a text can be replaced by any other that expands to the same.
-/

namespace Bab.Spec.Texts

/-- the two texts expand to the same with all variables that are possible -/
def Says (c : Cfg) (M : GoMap Str → Prop) (t t' : Str) : Prop := ∀ m, M m → interpolate t ⟨m, c.env⟩ = interpolate t' ⟨m, c.env⟩

/-- the two conditions come out the same -/
def Decides (c : Cfg) (M : GoMap Str → Prop) (t t' : Str) : Prop := ∀ m, M m → evaluate t ⟨m, c.env⟩ = evaluate t' ⟨m, c.env⟩

/-- the two give the same directory, or both none -/
def SameDir (c : Cfg) (M : GoMap Str → Prop) (t t' : Str) : Prop := (t = [] ↔ t' = []) ∧ Says c M t t'

/-- the same names, with texts that expand to the same -/
def SameEnv (c : Cfg) (M : GoMap Str → Prop) (l l' : GoMap Str) : Prop := List.Forall₂ (fun p q => p.1 = q.1 ∧ Says c M p.2 q.2) l l'

/-- the commands differ in texts that expand to the same -/
structure SameCommand (c : Cfg) (M : GoMap Str → Prop) (v v' : CommandRun) : Prop where
  rest : v' = { v with cmd := v'.cmd, dir := v'.dir, env := v'.env, cond := v'.cond }
  blank : trimSpace v.cmd = [] ↔ trimSpace v'.cmd = []
  cmd : Says c M v.cmd v'.cmd
  dir : SameDir c M v.dir v'.dir
  env : SameEnv c M v.env v'.env
  cond : Decides c M v.cond v'.cond

/-- The messages differ in texts of which both can be expanded or none; if it is `strict`, they expand to the same. -/
structure SameMessage (c : Cfg) (M : GoMap Str → Prop) (strict : Bool) (l l' : LogRun) : Prop where
  rest : l' = { l with log := l'.log, level := l'.level, cond := l'.cond }
  log : ∀ m, M m → ((∃ t, interpolate l.log ⟨m, c.env⟩ = .ok t) ↔ ∃ t, interpolate l'.log ⟨m, c.env⟩ = .ok t)
  strict : strict = true → Says c M l.log l'.log ∧ l.level = l'.level
  cond : Decides c M l.cond l'.cond

/-- the items differ in texts that expand to the same -/
inductive SameItems (c : Cfg) (M : GoMap Str → Prop) (strict : Bool) : List RunItem → List RunItem → Prop
  | nil : SameItems c M strict [] []
  | command {v v' r r'} : SameCommand c M v v' → SameItems c M strict r r' → SameItems c M strict (.command v :: r) (.command v' :: r')
  | task {t r r'} {w : Str} : Decides c M t.cond w → SameItems c M strict r r' →
      SameItems c M strict (.task t :: r) (.task { t with cond := w } :: r')
  | log {l l' r r'} : SameMessage c M strict l l' → SameItems c M strict r r' → SameItems c M strict (.log l :: r) (.log l' :: r')
  | prompt {p r r'} : SameItems c M strict r r' → SameItems c M strict (.prompt p :: r) (.prompt p :: r')
  | parallel {its its' labels mode lim color s o pl w w' ln r r'} : SameItems c M strict its its' → Decides c M w w' →
      SameItems c M strict r r' →
      SameItems c M strict (.parallel its labels mode lim color s o pl w ln :: r) (.parallel its' labels mode lim color s o pl w' ln :: r')

/-- the variables the items of a task are executed with -/
def Resolved (c : Cfg) (g : GoMap Str) (T : Task) (m : GoMap Str) : Prop := resolveVars T.vars g c.env = .ok m

/-- the tasks differ in texts that expand to the same -/
structure SameTask (c : Cfg) (g : GoMap Str) (strict : Bool) (T T' : Task) : Prop where
  rest : T' = { T with cond := T'.cond, dir := T'.dir, env := T'.env, run := T'.run }
  cond : Decides c (· = g) T.cond T'.cond
  dir : SameDir c (Resolved c g T) T.dir T'.dir
  env : SameEnv c (Resolved c g T) T.env T'.env
  run : SameItems c (Resolved c g T) strict T.run T'.run

/-- the same tasks, but for texts that expand to the same -/
def Same (c : Cfg) (g : GoMap Str) (strict : Bool) (tasks tasks' : TaskMap) : Prop :=
  (∀ k T, tasks.get? k = some T → ∃ T', tasks'.get? k = some T' ∧ SameTask c g strict T T') ∧ ∀ k, tasks.get? k = none → tasks'.get? k = none

/-- the commands among what is done -/
def commands (l : List PlanEntry) : List PlanEntry :=
  l.filter fun e => match e with
    | .cmd _ _ => true
    | _ => false

end Bab.Spec.Texts
