import Verif.Model.Fuzzy
import Mathlib.Data.List.Forall2
/-
What it means that a query is found in a text, without a matcher.
-/

namespace Bab.Picker.Spec
open Bab Picker.Fuzzy

/-- what is expected of the comparison of letters: upper and lower case may be the same, the rune 0 is like itself only -/
structure LettersOK (u : Letters) : Prop where
  refl : ∀ c, u.same c c = true
  symm : ∀ a b, u.same a b = true → u.same b a = true
  zero : ∀ c, u.same nul c = true → c = nul

/-- the characters of the query stand in the text in this order, perhaps with others between them -/
inductive Within (u : Letters) : Str → Str → Prop
  | nil (t : Str) : Within u [] t
  | take {a c : Char} {q t : Str} (h : u.same c a = true) (hr : Within u q t) : Within u (a :: q) (c :: t)
  | skip {c : Char} {q t : Str} (hr : Within u q t) : Within u q (c :: t)

/-- at this position in bytes the text has a character like this one -/
def Fits (u : Letters) (text : Str) (m : Nat) (a : Char) : Prop :=
  ∃ pre c post, text = pre ++ c :: post ∧ (pre.map Char.utf8Size).sum = m ∧ u.same c a = true

/-- the positions are those of the characters of the query, from left to right -/
def Spells (u : Letters) (text : Str) (positions : List Nat) (query : Str) : Prop :=
  List.Forall₂ (fun m a => Fits u text m a) positions query ∧ positions.Pairwise (· < ·)

/-- a task that fits a query: its name or one of its aliases contains it -/
def Answers (u : Letters) (query : Str) (t : Task) : Prop :=
  Within u query t.name ∨ ∃ a ∈ (if t.alias = [] then [] else [t.alias]) ++ t.aliases, Within u query a

/-- no name and no alias contains the rune 0 -/
def Plain (tasks : List Task) : Prop :=
  ∀ t ∈ tasks, nul ∉ t.name ∧ ∀ a ∈ (if t.alias = [] then [] else [t.alias]) ++ t.aliases, nul ∉ a

end Bab.Picker.Spec
