import Verif.Model.Prog
import Verif.Spec.Validate
/-
C18 and C19: errors about circular dependencies, and when the items of a parallel block keep out of each other's way.
-/

namespace Bab.Spec

/-- the error is not about a circular dependency -/
def NoCycle : Err → Prop
  | .circularDep _ => False
  | .wrap _ e => NoCycle e
  | _ => True

/-- a result that is not such an error -/
def Acyclic (r : Option Err) : Prop := ∀ e, r = some e → NoCycle e

/-- an event that does not tell of such an error -/
def EvAcyclic : Ev → Prop
  | .taskEnd _ r => Acyclic r
  | .depFail _ _ e => NoCycle e
  | .itemEnd _ _ r => Acyclic r
  | .subEnd _ _ _ r => Acyclic r
  | .parEnd _ _ r => Acyclic r
  | .answered _ _ (.error e) => NoCycle e
  | _ => True

/-- `d` is a dependency of a task that is called in the block -/
def Prior (tasks : TaskMap) (items : List RunItem) (d : Str) : Prop :=
  ∃ t T, .task t ∈ items ∧ tasks.get? t.task = some T ∧ d ∈ T.deps

/-- what task `a` may run: its dependencies, the tasks it calls, and the dependencies of those called in its blocks -/
def MayRun (tasks : TaskMap) (a b : Str) : Prop :=
  Refers tasks a b ∨ ∃ T items labels mode lim color s o pl w ln, tasks.get? a = some T ∧
    .parallel items labels mode lim color s o pl w ln ∈ T.run ∧ Prior tasks items b

/-- `b` may be run by `a`, on a path that does not go through `P` -/
inductive Leads (tasks : TaskMap) (P : Str → Prop) (a : Str) : Str → Prop
  | self : Leads tasks P a a
  | step {b c} (h : Leads tasks P a b) (hb : ¬ P b) (hu : MayRun tasks b c) : Leads tasks P a c

/-- Two items of a block run the same task only if it is a direct dependency of an item of the block (these are run
before the block starts). -/
def Separate (tasks : TaskMap) : Prop :=
  ∀ n T items labels mode lim color s o pl w ln, tasks.get? n = some T → .parallel items labels mode lim color s o pl w ln ∈ T.run →
    ∀ (i j : Nat) t u, i ≠ j → items[i]? = some (.task t) → items[j]? = some (.task u) →
      ∀ x, Leads tasks (Prior tasks items) t.task x → Leads tasks (Prior tasks items) u.task x → Prior tasks items x

end Bab.Spec
