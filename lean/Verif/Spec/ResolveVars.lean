import Verif.Spec.Interpolate
/-
What a `vars` block means: a system of equations, and its reference graph.
-/

namespace Bab.Spec

/-- the definition text contains a reference to `n` somewhere (escaped or not) -/
def Mentions (raw n : Str) : Prop := ∃ a t b, raw = a ++ t ++ b ∧ IsRef t n

/-- the definition text refers to `n` outside escapes -/
def Uses (raw n : Str) : Prop := ∃ ts, Reads raw ts ∧ n ∈ refs ts

def IsEnv (n : Str) : Prop := ∃ x, n = "env.".toList ++ x

/-- edge of the reference graph: the definition of `a` mentions the defined variable `b` -/
def DependsOn (vars : Str → Option Str) (a b : Str) : Prop :=
  ∃ raw, vars a = some raw ∧ Mentions raw b ∧ ¬ IsEnv b ∧ vars b ≠ none

/-- a path along the edges of a graph -/
inductive Path {α : Type} (E : α → α → Prop) : List α → Prop where
  | one (a) : Path E [a]
  | cons {a b l} : E a b → Path E (b :: l) → Path E (a :: b :: l)

/-- a non-empty path from a node to itself -/
def HasCycle {α : Type} (E : α → α → Prop) : Prop :=
  ∃ a l, Path E (a :: (l ++ [a]))

/-- the result assigns to every defined variable the rendering of its definition under the result
itself, and to every other name the parent's value -/
def Solution (vars parent env m : Str → Option Str) : Prop :=
  (∀ k raw, vars k = some raw → ∃ ts v, Reads raw ts ∧ render (value m env) ts = some v ∧
    m k = some v) ∧
  (∀ k, vars k = none → m k = parent k)

/-- some definition refers, outside escapes, to a name that is defined nowhere -/
def Undefined (vars parent : Str → Option Str) (n : Str) : Prop :=
  (∃ k raw, vars k = some raw ∧ Uses raw n) ∧ ¬ IsEnv n ∧ vars n = none ∧ parent n = none

end Bab.Spec
