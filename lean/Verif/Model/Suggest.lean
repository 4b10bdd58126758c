import Verif.Model.Writer
/-
Model of internal/errs/suggest.go. Strings are lists of bytes; `strings.ToLower` is a parameter.
-/

namespace Bab

/-- order of Go strings: bytewise (used by parser.go 133) -/
def bytesLe : Bytes → Bytes → Bool
  | [], _ => true
  | _ :: _, [] => false
  | a :: x, b :: y => if a = b then bytesLe x y else decide (a.toNat < b.toNat)

/-- put an element into a sorted list (used for `slices.Sort`, parser.go 133) -/
def insertBy {α : Type} (le : α → α → Bool) (a : α) : List α → List α
  | [] => [a]
  | b :: l => if le a b then a :: b :: l else b :: insertBy le a l

/-- `sort.Strings`, `slices.Sort`: any way of sorting gives the same list
(parser.go 133, cmd/complete.go 47, cmd/list.go 83) -/
def sortBy {α : Type} (le : α → α → Bool) : List α → List α
  | [] => []
  | a :: l => insertBy le a (sortBy le l)

/-- `strings.HasPrefix` (used in errs/suggest.go 31-48) -/
def hasPrefixB : Bytes → Bytes → Bool
  | _, [] => true
  | [], _ :: _ => false
  | a :: x, b :: y => a = b && hasPrefixB x y

/-- `strings.Contains(s, sub)` (used in errs/suggest.go 35) -/
def containsB : Bytes → Bytes → Bool
  | [], sub => hasPrefixB [] sub
  | a :: x, sub => hasPrefixB (a :: x) sub || containsB x sub

/-- suggest.go 38-43: positions at which two strings agree -/
def matchCount : Bytes → Bytes → Nat
  | a :: x, b :: y => (if a = b then 1 else 0) + matchCount x y
  | _, _ => 0

/-- suggest.go 31-48 `similarity` -/
def similarity (a b : Bytes) : Nat :=
  if a = b then 100
  else if containsB b a || containsB a b then 80
  else if a.length = 0 ∨ b.length = 0 then 0
  else (matchCount a b * 100) / max a.length b.length

/-- suggest.go 21-27: one round of the loop over `(best, bestScore)` -/
def suggestStep (lower : Bytes → Bytes) (target : Bytes) (s : Bytes × Nat) (c : Bytes) : Bytes × Nat :=
  let score := similarity target (lower c)
  if score ≥ 50 ∧ (score > s.2 ∨ (score = s.2 ∧ c.length < s.1.length)) then (c, score) else s

/-- suggest.go 8-29 `FindSimilar`; the empty string means no suggestion -/
def findSimilar (lower : Bytes → Bytes) (target : Bytes) (candidates : List Bytes) : Bytes :=
  if candidates.length = 0 then []
  else ((sortBy bytesLe candidates).foldl (suggestStep lower (lower target)) ([], 0)).1

end Bab
