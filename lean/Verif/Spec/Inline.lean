import Verif.Spec.ResolveVars
/-
C124: a reference to a variable can be replaced by its value. C127: or by one to a variable with the same value.
-/

namespace Bab.Spec.Inline

/-- The second text is the first one with some references to `x` replaced by texts of a kind. Each `$` in the first begins a reference or
an escape, or is followed by something that cannot belong to one, as in `$HOME` and `${HOME}`. -/
inductive Replaced (x : Str) (by' : Str → Prop) : Str → Str → Prop where
  | nil : Replaced x by' [] []
  | chr {c : Char} {r r' : Str} : c ≠ '$' → Replaced x by' r r' → Replaced x by' (c :: r) (c :: r')
  | last : Replaced x by' ['$'] ['$']
  | dollar {d : Char} {r r' : Str} : d ≠ '$' → d ≠ '{' → Replaced x by' r r' → Replaced x by' ('$' :: d :: r) ('$' :: d :: r')
  | brace {d : Char} {r r' : Str} : d ≠ '$' → d ≠ '{' → Replaced x by' r r' → Replaced x by' ('$' :: '{' :: d :: r) ('$' :: '{' :: d :: r')
  | esc {r r' : Str} : Replaced x by' r r' → Replaced x by' (escape ++ r) (escape ++ r')
  | keep {t n r r' : Str} : IsRef t n → Replaced x by' r r' → Replaced x by' (t ++ r) (t ++ r')
  | put {t u r r' : Str} : IsRef t x → by' u → Replaced x by' r r' → Replaced x by' (t ++ r) (u ++ r')

/-- some references to `x` are replaced by `v` -/
def Inlined (x v : Str) : Str → Str → Prop := Replaced x (· = v)

/-- some references to `x` are replaced by references to `y` -/
def Renamed (x y : Str) : Str → Str → Prop := Replaced x (IsRef · y)

end Bab.Spec.Inline
