import Verif.Base
/-
What expansion means, independently of how interpolate.go does it: a text is read once from left
to right as a list of tokens, and each token is rendered.
-/

namespace Bab.Spec

/-- whitespace allowed inside a reference -/
def Blank (c : Char) : Prop := c ∈ [' ', '\t', '\n', '\r', '\x0c']

def Letter (c : Char) : Prop := ('a' ≤ c ∧ c ≤ 'z') ∨ ('A' ≤ c ∧ c ≤ 'Z') ∨ c = '_'

def NameChar (c : Char) : Prop := Letter c ∨ ('0' ≤ c ∧ c ≤ '9') ∨ c = '.'

/-- a variable name: a letter or underscore, then letters, digits, underscores, dots -/
def IsName (n : Str) : Prop := ∃ c r, n = c :: r ∧ Letter c ∧ ∀ x ∈ r, NameChar x

/-- `t` is the text of one reference to `name` -/
def IsRef (t name : Str) : Prop :=
  ∃ ws1 ws2 : Str, t = "${{".toList ++ ws1 ++ name ++ ws2 ++ "}}".toList ∧
    IsName name ∧ (∀ c ∈ ws1, Blank c) ∧ (∀ c ∈ ws2, Blank c)

def escape : Str := "$${{".toList

inductive Tok where
  | chr (c : Char)
  | esc
  | ref (name : Str)

/-- One left-to-right reading of a text. At each position an escape is taken if there is one, else
a reference if there is one, else a single character. -/
inductive Reads : Str → List Tok → Prop where
  | nil : Reads [] []
  | esc {r ts} : Reads r ts → Reads (escape ++ r) (.esc :: ts)
  | ref {t name r ts} : IsRef t name → Reads r ts → Reads (t ++ r) (.ref name :: ts)
  | chr {c r ts} : (¬ ∃ r', c :: r = escape ++ r') → (¬ ∃ t n r', IsRef t n ∧ c :: r = t ++ r') →
      Reads r ts → Reads (c :: r) (.chr c :: ts)

/-- value of a name: `env.X` is the environment variable X (empty if unset), anything else a
variable -/
def value (vars : Str → Option Str) (env : Str → Option Str) (name : Str) : Option Str :=
  match name with
  | 'e' :: 'n' :: 'v' :: '.' :: x => some ((env x).getD [])
  | _ => vars name

/-- rendering of a token list; `none` if some reference has no value -/
def render (val : Str → Option Str) : List Tok → Option Str
  | [] => some []
  | .chr c :: ts => (render val ts).map (c :: ·)
  | .esc :: ts => (render val ts).map ("${{".toList ++ ·)
  | .ref n :: ts =>
    match val n, render val ts with
    | some v, some o => some (v ++ o)
    | _, _ => none

/-- names referred to, in order -/
def refs : List Tok → List Str
  | [] => []
  | .ref n :: ts => n :: refs ts
  | _ :: ts => refs ts

/-- `n` is the first reference without a value -/
def FirstUndefined (val : Str → Option Str) (ts : List Tok) (n : Str) : Prop :=
  ∃ a b, refs ts = a ++ n :: b ∧ val n = none ∧ ∀ m ∈ a, val m ≠ none

def NoNul (s : Str) : Prop := '\x00' ∉ s

end Bab.Spec
