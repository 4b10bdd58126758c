import Verif.Model.Locate
/-
The texts of the errors of the runner: what `fmt.Errorf` puts in front of an error (runner.go, parallel.go, condition.go)
and how a chain of wrapped errors reads.
-/

namespace Bab

/-- a digit as `strconv` writes it (`lowerhex`) (used for `%q`, e.g. runner.go 335) -/
def hexDigit (n : Nat) : Char := Nat.digitChar n

/-- `%0*x` with a fixed number of digits -/
def hexFixed : Nat → Nat → Str
  | 0, _ => []
  | w + 1, n => hexFixed w (n / 16) ++ [hexDigit (n % 16)]

/-- one code point in `strconv.Quote` (`appendEscapedRune` in Go's strconv/quote.go); `isPrint` is `strconv.IsPrint`
(used for `%q`, e.g. runner.go 335) -/
def quoteChar (isPrint : Char → Bool) (x : Char) : Str :=
  if x = '"' ∨ x = '\\' then ['\\', x]
  else if isPrint x then [x]
  else if x.toNat = 7 then ['\\', 'a']
  else if x.toNat = 8 then ['\\', 'b']
  else if x.toNat = 12 then ['\\', 'f']
  else if x.toNat = 10 then ['\\', 'n']
  else if x.toNat = 13 then ['\\', 'r']
  else if x.toNat = 9 then ['\\', 't']
  else if x.toNat = 11 then ['\\', 'v']
  else if x.toNat < 32 ∨ x.toNat = 127 then '\\' :: 'x' :: hexFixed 2 x.toNat
  else if x.toNat < 65536 then '\\' :: 'u' :: hexFixed 4 x.toNat
  else '\\' :: 'U' :: hexFixed 8 x.toNat

/-- `%q` of a string: `strconv.Quote` (e.g. runner.go 335) -/
def quote (isPrint : Char → Bool) (s : Str) : Str := '"' :: (s.flatMap (quoteChar isPrint) ++ ['"'])

/-- what the texts depend on besides the error (errs/parse.go 67-84, errs/interpolate.go 15-37) -/
structure Texts where
  /-- `strconv.IsPrint` -/
  isPrint : Char → Bool
  /-- `runtime.GOOS` -/
  platform : Str
  /-- `r.BabfilePath` -/
  path : Str
  /-- `os.Getwd`, unless it fails -/
  cwd : Option Str
  /-- errs/suggest.go 8-29 `FindSimilar` with the names that are available, see C50; empty if there is no suggestion -/
  similar : Str → Str
  /-- the texts that are not modelled: errors of the operating system and of libraries, unknown tasks (errs/parse.go, see
  `PlacedErr.text`), directories (runner.go 456-461) -/
  other : Err → Str

/-- the text in front of a wrapped error
(the formats of runner.go 162, 190, 226, 256, 313, 335, 354, 444 and runner/parallel.go 158, 210, 353) -/
def Where.text (x : Texts) : Where → Str
  -- condition.go 28
  | .condition => "evaluating condition: ".toList
  -- runner.go 162
  | .taskCond t => "task ".toList ++ quote x.isPrint t ++ ": evaluating when condition: ".toList
  -- runner.go 190
  | .dep d => "dependency ".toList ++ quote x.isPrint d ++ " failed: ".toList
  -- runner.go 226
  | .cancelled => "cancelled: ".toList
  -- runner.go 256
  | .prompt t p => "task ".toList ++ quote x.isPrint t ++ ": prompt ".toList ++ quote x.isPrint p ++ ": ".toList
  -- runner.go 313
  | .dirOf t s => "task ".toList ++ quote x.isPrint t ++ ": resolving dir for ".toList ++ quote x.isPrint s ++ ": ".toList
  -- runner.go 335, 339
  | .command t s => "task ".toList ++ quote x.isPrint t ++ ": command ".toList ++ quote x.isPrint s ++ " failed: ".toList
  -- runner.go 354
  | .itemCond t i => "task ".toList ++ quote x.isPrint t ++ ": run[".toList ++ (Nat.toDigits 10 i) ++ "]: evaluating when condition: ".toList
  -- runner.go 444
  | .dirText => "interpolating dir: ".toList
  -- parallel.go 158, 267
  | .item l => "parallel item ".toList ++ quote x.isPrint l ++ " failed: ".toList
  -- parallel.go 210
  | .view => "failed to start parallel TUI: ".toList
  -- parallel.go 353
  | .preDep d => "parallel pre-dependency ".toList ++ quote x.isPrint d ++ " failed: ".toList
  -- errs/interpolate.go 21-37, 58-74
  | .place l => if x.path = [] then [] else formatLocation x.cwd { path := x.path, line := l } ++ ": ".toList

/-- `strings.Join(chain, " → ")` (errs/parse.go 48, errs/interpolate.go 53) -/
def joinArrow : List Str → Str
  | [] => []
  | [a] => a
  | a :: l => a ++ " → ".toList ++ joinArrow l

/-- the text of an error that wraps nothing
(errs/parse.go 47-84, errs/interpolate.go 15-74; runner.go 288, 297, 456-461; runner/parallel.go 329, 342) -/
def Err.leafText (x : Texts) : Err → Str
  | .canceled => "context canceled".toList
  -- errs/parse.go 47-53 with the fields of runner.go 140-143
  | .circularDep chain => "circular dependency: ".toList ++ joinArrow chain
  -- runner.go 288
  | .noItems t => "task ".toList ++ quote x.isPrint t ++ " has no run items for platform ".toList ++ quote x.isPrint x.platform
  -- runner.go 297
  | .emptyCmd t => "task ".toList ++ quote x.isPrint t ++ " has an empty command".toList
  -- errs/interpolate.go 15-26
  | .varNotFound n => "undefined variable: ".toList ++ n ++
      if x.similar n = [] then [] else " (did you mean ".toList ++ quote x.isPrint (x.similar n) ++ "?)".toList
  -- errs/interpolate.go 50-63
  | .varCycle n chain => "circular variable reference: ".toList ++ if chain = [] then n else joinArrow chain
  -- parallel.go 342
  | .parallelUnknown t => "parallel item references unknown task ".toList ++ quote x.isPrint t
  | e => x.other e

/-- `err.Error()` (main.go 65) -/
def Err.message (x : Texts) : Err → Str
  | .wrap w e => w.text x ++ e.message x
  | e => e.leafText x

end Bab
