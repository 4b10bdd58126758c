import Verif.Spec.ResolveVars
import Verif.Model.Runner
/-
What is shown of an invocation, what the user answered, and which texts keep the value of a variable to themselves.
-/

namespace Bab.Spec.Secret

/-- the text refers to none of the variables -/
def Clear (S : Str → Prop) (t : Str) : Prop := ∀ x, Uses t x → ¬ IsEnv x → ¬ S x

/-- No text of the item that is shown or that decides anything refers to the variables. A command may use them in the values of its
environment, and nowhere else. -/
def ClearItem (S : Str → Prop) : RunItem → Prop
  | .command v => Clear S v.cond ∧ Clear S v.cmd ∧ Clear S v.dir
  | .task t => Clear S t.cond
  | .log l => Clear S l.cond ∧ Clear S l.log
  | .prompt p => Clear S p.cond ∧ Clear S p.message ∧ Clear S p.default ∧ Clear S p.placeholder ∧
      (∀ t ∈ p.options, Clear S t) ∧ ∀ t ∈ p.defaults, Clear S t
  | .parallel items _ _ _ _ _ _ _ w _ => Clear S w ∧
      (∀ v, .command v ∈ items → Clear S v.cmd ∧ Clear S v.dir) ∧ ∀ l, .log l ∈ items → Clear S l.log

/-- the texts of a task keep the variables to themselves; a variable defined by means of one of them is one of them -/
structure ClearTask (S : Str → Prop) (T : Task) : Prop where
  cond : Clear S T.cond
  dir : Clear S T.dir
  env : ∀ p ∈ T.env, Clear S p.2
  vars : ∀ k raw, (T.vars.getD []).get? k = some raw → ¬ S k → Clear S raw
  run : ∀ i ∈ T.run, ClearItem S i

/-- the Babfile keeps the variables to itself -/
structure Keeps (S : Str → Prop) (c : Cfg) (tasks : TaskMap) : Prop where
  dir : Clear S c.globalDir
  env : ∀ p ∈ c.globalEnv, Clear S p.2
  tasks : ∀ n T, tasks.get? n = some T → ClearTask S T

/-- What can be noticed of an event: announcements, messages of the Babfile, what would be done, what is skipped, the view; and the
processes with everything given to them except the values of the environment. -/
def onScreen : Ev → Option Ev
  | .echoTask n b o => some (.echoTask n b o)
  | .echoCmd l t o => some (.echoCmd l t o)
  | .logged l t v o => some (.logged l t v o)
  | .wouldRun l t => some (.wouldRun l t)
  | .wouldTask l t => some (.wouldTask l t)
  | .wouldLog l t v => some (.wouldLog l t v)
  | .wouldPrompt l n => some (.wouldPrompt l n)
  | .wouldParallel l => some (.wouldParallel l)
  | .tuiStart b => some (.tuiStart b)
  | .procStart l p => some (.procStart l { p with env := p.env.map (·.map fun q => (q.1, [])) })
  | .procFail l => some (.procFail l)
  | .procEnd l r => some (.procEnd l r)
  | .taskSkip n _ => some (.taskSkip n [])
  | .itemSkip n i .platform => some (.itemSkip n i .platform)
  | .itemSkip n i (.cond _) => some (.itemSkip n i (.cond []))
  | _ => none

/-- what the user answered -/
def answer : Ev → Option (Str × Except Err Str)
  | .answered _ x r => some (x, r)
  | _ => none

/-- another answer to the questions for these variables -/
noncomputable def other (S : Str → Prop) (alt : Str → Str → Str) (x : Str) (r : Except Err Str) : Except Err Str :=
  open Classical in if S x then r.map (alt x) else r

end Bab.Spec.Secret
