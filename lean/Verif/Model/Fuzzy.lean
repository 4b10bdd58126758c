import Verif.Model.Picker
/-
Model of the fuzzy matcher of the picker: `fuzzy.Find` (sahilm/fuzzy 0.1.1, `FindFrom` and `FindFromNoSort`), called in
internal/tui/picker/match.go 40 and 103. The library is not part of /repo; what it does follows its source. What it takes from
the package unicode is a parameter. Scores are unbounded here; in Go they overflow if more than 40 characters of the query are
found next to one another. Texts and the query are valid UTF-8.
-/

namespace Bab.Picker.Fuzzy
open Bab

/-- `equalFold` of the library, `unicode.IsLower` and `unicode.IsUpper` (used by `fuzzy.Find`, match.go 40) -/
structure Letters where
  same : Char → Char → Bool
  lower : Char → Bool
  upper : Char → Bool

/-- the rune 0 -/
def nul : Char := Char.ofNat 0

/-- the separators of the library (match.go 40: `fuzzy.Find`) -/
def separators : List Char := ['/', '-', '_', ' ', '.', '\\']

/-- the variables of the loop over the characters of a text (match.go 40: `fuzzy.Find`) -/
structure Scan where
  /-- `match.MatchedIndexes` -/
  positions : List Nat := []
  /-- `match.Score` -/
  total : Int := 0
  /-- `patternIndex` -/
  pattern : Nat := 0
  /-- `bestScore` -/
  best : Int := -1
  /-- `matchedIndex`, where `none` stands for -1 -/
  place : Option Nat := none
  /-- `currAdjacentMatchBonus` -/
  adjacent : Int := 0
  last : Char := nul
  lastIndex : Nat := 0

/-- `adjacentCharBonus` (match.go 40: `fuzzy.Find`) for the last of the positions -/
def bonus (s : Scan) : Int :=
  match s.positions.getLast? with
  | some m => if s.lastIndex = m then s.adjacent * 2 + 5 else 0
  | none => 0

/-- the score of a character that fits (match.go 40: `fuzzy.Find`) -/
def score (u : Letters) (j : Nat) (c : Char) (s : Scan) : Int :=
  (if j = 0 then 10 else 0) + (if u.lower s.last ∧ u.upper c then 20 else 0) + (if j ≠ 0 ∧ s.last ∈ separators then 20 else 0) + bonus s

/-- comparing a character with that of the query; `p` is the current one (match.go 40: `fuzzy.Find`) -/
def consider (u : Letters) (p : Char) (j : Nat) (c : Char) (s : Scan) : Scan :=
  if u.same c p then
    let s' := { s with adjacent := s.adjacent + bonus s }
    if score u j c s > s.best then { s' with best := score u j c s, place := some j } else s'
  else s

/-- taking the best place for the current character of the query, if the next one comes up or the text ends
(match.go 40: `fuzzy.Find`) -/
def commit (u : Letters) (nextp nextc : Char) (s : Scan) : Scan :=
  if u.same nextp nextc ∨ nextc = nul then
    match s.place with
    | some m =>
      let best := if s.positions = [] then s.best + max (-5 * (m : Int)) (-15) else s.best
      { s with total := s.total + best, positions := s.positions ++ [m], best := -1, pattern := s.pattern + 1 }
    | none => s
  else s

/-- the loop over the characters of a text; `none` if the query is indexed behind its end, which is a panic
(match.go 40: `fuzzy.Find`) -/
def scan (u : Letters) (query : Str) : Nat → Str → Scan → Option Scan
  | _, [], s => some s
  | j, c :: rest, s =>
    match query[s.pattern]? with
    | none => none
    | some p =>
      let s := consider u p j c s
      let s := commit u ((query[s.pattern + 1]?).getD nul) (rest.head?.getD nul) s
      scan u query (j + c.utf8Size) rest { s with last := c, lastIndex := j }

/-- the length in bytes -/
def size (s : Str) : Nat := (s.map Char.utf8Size).sum

/-- the result for one text: the outer `none` is a panic, the inner one means that the text does not match
(match.go 40: `fuzzy.Find`) -/
def matchOne (u : Letters) (query : Str) (i : Nat) (text : Str) : Option (Option Hit) :=
  (scan u query 0 text {}).map (fun s =>
    if s.positions.length = query.length then
      some { index := i, positions := s.positions, score := s.total + ((s.positions.length : Int) - size text) }
    else none)

/-- match.go 40 and 103: `fuzzy.Find`. `order` is the sorting by score; the comparison the library gives to `sort.Stable` is not
strict, so that the order of equal scores is left open. A text whose scan panics is left out here, see `Panics`. -/
def find (u : Letters) (order : List Hit → List Hit) (query : Str) (texts : List Str) : List Hit :=
  if query = [] then []
  else order (texts.zipIdx.filterMap (fun q => (matchOne u query q.2 q.1).getD none))

/-- match.go 40 and 103: `fuzzy.Find` panics -/
def Panics (u : Letters) (query : Str) (texts : List Str) : Prop := query ≠ [] ∧ ∃ t ∈ texts, ∃ i, matchOne u query i t = none

end Bab.Picker.Fuzzy
