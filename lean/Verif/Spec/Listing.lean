import Verif.Model.Listing
/-
What completion and the task list should show.
-/

namespace Bab.Spec
open Bab

/-- the part of a completion before the tab, which is the name offered -/
def offered (entry : Str) : Str := entry.takeWhile (· ≠ '\t')

/-- `ps` are the parts of `name` between colons -/
def Parts (name : Str) (ps : List Str) : Prop :=
  (∀ p ∈ ps, ':' ∉ p) ∧ ∃ p qs, ps = p :: qs ∧ name = p ++ qs.flatMap (':' :: ·)

/-- the line for place `p` of the list: a task shows its description and aliases, a namespace only its name -/
def RowAt (tasks : TaskMap) (p : List Str) (desc : Str) (aliases : List Str) : Prop :=
  (∃ name T, tasks.get? name = some T ∧ Parts name p ∧ desc = T.desc ∧
    aliases = (if T.alias = [] then [] else [T.alias]) ++ T.aliases) ∨
  ((∀ name T, tasks.get? name = some T → ¬ Parts name p) ∧ desc = [] ∧ aliases = [] ∧ p ≠ [] ∧
    ∃ name T ps, tasks.get? name = some T ∧ Parts name ps ∧ p <+: ps)

/-- alphabetical order of places, a namespace before what is in it -/
def Before : List Str → List Str → Prop
  | _, [] => False
  | [], _ :: _ => True
  | a :: x, b :: y => (a ≠ b ∧ strLe a b = true) ∨ (a = b ∧ Before x y)

end Bab.Spec
