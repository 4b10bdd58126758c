import Verif.Model.Interpolate
/-
Model of internal/condition/condition.go. The human-readable `Reason` is not modelled.
-/

namespace Bab

/-- `unicode.IsSpace`, used by `strings.TrimSpace` (used in condition.go 31, 78) -/
def isGoSpace (c : Char) : Bool :=
  c = '\t' || c = '\n' || c = '\x0b' || c = '\x0c' || c = '\r' || c = ' ' ||
  c = '\u0085' || c = '\u00a0' || c = '\u1680' || ('\u2000' ≤ c && c ≤ '\u200a') ||
  c = '\u2028' || c = '\u2029' || c = '\u202f' || c = '\u205f' || c = '\u3000'

/-- `strings.TrimFunc` (used in condition.go 31, 45, 53) -/
def trimFunc (p : Char → Bool) (s : Str) : Str :=
  ((s.dropWhile p).reverse.dropWhile p).reverse

/-- `strings.TrimSpace` (used in condition.go 31, 42, 50, 78) -/
def trimSpace (s : Str) : Str := trimFunc isGoSpace s

/-- `strings.Trim(left, "'\"")` (condition.go 45, 53) -/
def trimQuotes (s : Str) : Str := trimFunc (fun c => c = '\'' || c = '"') s

/-- the comparison operators of condition.go 12-13 -/
inductive CmpOp | eq | ne
  deriving DecidableEq, Repr

/-- the part `q([^q]*)q$` of the patterns (condition.go 12-13) -/
def matchLit (q : Char) : Str → Option Str
  | c :: r => if c = q ∧ r.getLast? = some q ∧ q ∉ r.dropLast then some r.dropLast else none
  | [] => none

/-- the part `\s*(==|!=)\s*q([^q]*)q$` of the patterns (condition.go 12-13). The characters after
each `\s*` are not white space, so the greedy match is the only one. -/
def matchTail (q : Char) (s : Str) : Option (CmpOp × Str) :=
  match s.dropWhile isReSpace with
  | '=' :: '=' :: r => (matchLit q (r.dropWhile isReSpace)).map (CmpOp.eq, ·)
  | '!' :: '=' :: r => (matchLit q (r.dropWhile isReSpace)).map (CmpOp.ne, ·)
  | _ => none

/-- `^(.+?)\s*(==|!=)\s*q([^q]*)q$` (condition.go 12-13): the lazy `.+?` takes one more character at
a time (never a newline) until the rest matches. `acc` is what it has taken so far. -/
def matchFrom (q : Char) : Str → Str → Option (Str × CmpOp × Str)
  | _, [] => none
  | acc, c :: r =>
    let here := if acc.isEmpty then none else matchTail q (c :: r)
    match here with
    | some (op, right) => some (acc, op, right)
    | none => if c = '\n' then none else matchFrom q (acc ++ [c]) r

/-- condition.go 60-75 `evaluateOp` (ShouldRun only; the default case is unreachable because the
patterns capture only the two operators) -/
def evaluateOp (left : Str) (op : CmpOp) (right : Str) : Bool :=
  match op with
  | .eq => left = right
  | .ne => left ≠ right

/-- condition.go 40-58 `evaluateComparison` -/
def evaluateComparison (s : Str) : Option Bool :=
  match matchFrom '\'' [] s with
  | some (l, op, r) => some (evaluateOp (trimQuotes (trimSpace l)) op r)
  | none =>
    match matchFrom '"' [] s with
    | some (l, op, r) => some (evaluateOp (trimQuotes (trimSpace l)) op r)
    | none => none

/-- `strings.EqualFold(s, "false")`: simple Unicode case folding; `ſ` (U+017F) folds to `s`. -/
def equalFoldFalse (s : Str) : Bool :=
  match s with
  | [a, b, c, d, e] =>
    (a = 'f' || a = 'F') && (b = 'a' || b = 'A') && (c = 'l' || c = 'L') &&
    (d = 's' || d = 'S' || d = '\u017f') && (e = 'e' || e = 'E')
  | _ => false

/-- condition.go 77-89 `evaluateTruthy` -/
def evaluateTruthy (s : Str) : Bool :=
  let s := trimSpace s
  if s = [] then false
  else if equalFoldFalse s then false
  else true

/-- condition.go 33-37: what happens after interpolation -/
def evaluateText (s : Str) : Bool :=
  let s := trimSpace s
  match evaluateComparison s with
  | some r => r
  | none => evaluateTruthy s

/-- condition.go 21-38 `Evaluate` -/
def evaluate (cond : Str) (ctx : Ctx) : Except Err Bool :=
  if cond = [] then .ok true
  else match interpolate cond ctx with
    | .error e => .error (.wrap .condition e)
    | .ok s => .ok (evaluateText s)

end Bab
