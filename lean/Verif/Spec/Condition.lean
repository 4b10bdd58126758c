import Verif.Spec.Interpolate
/-
What a condition means.
-/

namespace Bab.Spec

/-- Unicode white space (property White_Space) -/
def WhiteSpace (c : Char) : Prop :=
  c ∈ ['\t', '\n', '\x0b', '\x0c', '\r', ' ', '\u0085', '\u00a0', '\u1680', '\u2000', '\u2001', '\u2002',
    '\u2003', '\u2004', '\u2005', '\u2006', '\u2007', '\u2008', '\u2009', '\u200a', '\u2028', '\u2029',
    '\u202f', '\u205f', '\u3000']

/-- `y` is `x` without what satisfies `p` at both ends -/
def Trimmed (p : Char → Prop) (x y : Str) : Prop :=
  ∃ a b, x = a ++ y ++ b ∧ (∀ c ∈ a, p c) ∧ (∀ c ∈ b, p c) ∧
    (∀ c, y.head? = some c → ¬ p c) ∧ (∀ c, y.getLast? = some c → ¬ p c)

def Quote (c : Char) : Prop := c = '\'' ∨ c = '"'

/-- the word `false` in any mix of cases (the long s is a case variant of s) -/
def IsFalseWord (s : Str) : Prop :=
  ∃ a b c d e, s = [a, b, c, d, e] ∧ a ∈ ['f', 'F'] ∧ b ∈ ['a', 'A'] ∧ c ∈ ['l', 'L'] ∧
    d ∈ ['s', 'S', '\u017f'] ∧ e ∈ ['e', 'E']

/-- whether the comparison holds -/
def Holds (ne : Bool) (x lit : Str) : Prop := if ne then x ≠ lit else x = lit

/-- the two operators as text -/
def opText (ne : Bool) : Str := if ne then "!=".toList else "==".toList

/-- the text after the left operand: `ws op ws q lit q` -/
def compTail (ne : Bool) (q : Char) (w1 w2 lit : Str) : Str :=
  w1 ++ opText ne ++ w2 ++ q :: lit ++ [q]

/-- `w1`, `w2` are blank, `q` is a quote character that does not occur in `lit` -/
def TailOk (q : Char) (w1 w2 lit : Str) : Prop :=
  Quote q ∧ (∀ c ∈ w1, Blank c) ∧ (∀ c ∈ w2, Blank c) ∧ q ∉ lit

/-- the text has the form of a comparison with a left operand on one line -/
def IsComparison (s : Str) : Prop :=
  ∃ ne q l w1 w2 lit, TailOk q w1 w2 lit ∧ s = l ++ compTail ne q w1 w2 lit ∧ l ≠ [] ∧ '\n' ∉ l

end Bab.Spec
