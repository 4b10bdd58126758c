import Verif.Spec.ResolveVars
/-
How long texts become when references are replaced.
-/

namespace Bab.Spec.Size

/-- every definition has at most `L` characters and at most `R` references -/
def Sized (vars : Str → Option Str) (L R : Nat) : Prop :=
  ∀ k raw, vars k = some raw → raw.length ≤ L ∧ ∀ ts, Reads raw ts → (refs ts).length ≤ R

/-- the length of the longest text that `n` such definitions can make of values with at most `P` characters -/
def longest (n L R P : Nat) : Nat := max 1 R ^ n * (P + n * L)

end Bab.Spec.Size
