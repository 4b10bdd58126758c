import Verif.Spec.Validate
import Verif.Spec.Life
/-
C62: what a task needs, and which task an event is about.
-/

namespace Bab.Spec

/-- `b` is `a`, or can be reached from it by references -/
def Needs (tasks : TaskMap) (a b : Str) : Prop := a = b ∨ Reaches tasks a b

/-- the task an event is about -/
def about : Ev → Option Str
  | .claimed n => some n
  | e => (key e).map (·.1)

/-- two task maps have the same definitions of everything `main` needs -/
def SameFor (main : Str) (tasks tasks' : TaskMap) : Prop :=
  ∀ n, Needs tasks main n → tasks.get? n = tasks'.get? n

end Bab.Spec
