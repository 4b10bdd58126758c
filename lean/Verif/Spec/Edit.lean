import Verif.Spec.Cli
import Verif.Spec.Confine
import Mathlib.Data.List.Forall2
/-
C100: what of a task counts when it is run, and what it means that two runs are the same apart from line numbers.
-/

namespace Bab.Spec

mutual
/-- an item without its line -/
def unlinedItem : RunItem → RunItem
  | .command v => .command { v with line := 0 }
  | .task v => .task { v with line := 0 }
  | .log v => .log { v with line := 0 }
  | .prompt v => .prompt { v with line := 0 }
  | .parallel items labels mode limit color silent output platforms cond _ =>
    .parallel (unlinedItems items) labels mode limit color silent output platforms cond 0
/-- items without their lines -/
def unlinedItems : List RunItem → List RunItem
  | [] => []
  | item :: items => unlinedItem item :: unlinedItems items
end

/-- what counts of a task when it is run: not the lines, the description and the other names -/
def core (T : Task) : Task := { T with desc := [], «alias» := [], aliases := [], run := unlinedItems T.run, line := 0, depsLine := 0 }

/-- an error without the line in front of it -/
def unlinedErr : Err → Err
  | .wrap (.place _) e => .wrap (.place 0) (unlinedErr e)
  | .wrap w e => .wrap w (unlinedErr e)
  | e => e

/-- an event without the lines in its errors -/
def unlinedEv : Ev → Ev
  | .taskEnd n r => .taskEnd n (r.map unlinedErr)
  | .depFail n k e => .depFail n k (unlinedErr e)
  | .itemEnd n i r => .itemEnd n i (r.map unlinedErr)
  | .subEnd n i j r => .subEnd n i j (r.map unlinedErr)
  | .parEnd n i r => .parEnd n i (r.map unlinedErr)
  | e => e

/-- the same has happened, apart from the lines in errors -/
structure SameButLines (σ τ : Shared) : Prop where
  status : τ.status = σ.status
  gvars : τ.gvars = σ.gvars
  cancelled : τ.cancelled = σ.cancelled
  ctxs : τ.ctxs = σ.ctxs
  trace : τ.trace.map unlinedEv = σ.trace.map unlinedEv

/-- whatever can happen from `s` on can happen from `t` on, with the same results, apart from the lines in errors -/
def CanAll (s t : State) : Prop :=
  ∀ s', Reach s s' → ∃ t', Reach t t' ∧ SameButLines s'.sh t'.sh ∧
    (∀ r, s'.prog = .ret r → ∃ r', t'.prog = .ret r' ∧ r'.map unlinedErr = r.map unlinedErr)

/-- the settings of the two files are the same -/
structure SameSettings (b b2 : Schema) : Prop where
  vars : b2.vars = b.vars
  env : b2.env = b.env
  silent : b2.silent = b.silent
  output : b2.output = b.output
  dir : b2.dir = b.dir

/-- the task `a` is `name`, or `name` leads to it by references -/
def FileNeeds (files : Files) (p name a : Str) : Prop := a = name ∨ Relation.TransGen (FileRefers files p) name a

/-- What `name` needs is there after the edit as before: the files it comes from have the same settings, and what counts of the
tasks is the same. Nothing is said about other tasks, or about other files. -/
def Kept (files files2 : Files) (p name : Str) : Prop :=
  (∀ b, files.get? p = some (some b) → ∃ b2, files2.get? p = some (some b2) ∧ SameSettings b b2) ∧
  ∀ nss bs n f T, Provides files p nss bs n f T → FileNeeds files p name (fullName nss n) →
    ∃ bs2 T2, Provides files2 p nss bs2 n f T2 ∧ List.Forall₂ SameSettings bs bs2 ∧ core T2 = core T

/-- the word `x` stands for the task `a` -/
def Means (files : Files) (p x a : Str) : Prop := (FileHas files p x ∧ a = x) ∨ FileAlias files p x a

end Bab.Spec
