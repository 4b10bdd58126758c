import Verif.Model.Writer
/-
Model of the cleaning of lines in internal/runner/writer.go 18-69, on bytes: a command may print anything, not only valid
UTF-8. Go iterates over a string by decoding it; a byte that does not fit is U+FFFD. The functions of the library
charmbracelet/x/ansi are parameters, except the tests for prefixes.
-/

namespace Bab.Raw

/-- a continuation byte, or what is left of them after some first bytes (`utf8.DecodeRuneInString`, writer.go 52) -/
def between (lo hi : Nat) (b : UInt8) : Bool := decide (lo ≤ b.toNat) && decide (b.toNat ≤ hi)

/-- what `utf8.DecodeRuneInString` gives for a byte that does not fit (used in writer.go 52) -/
def bad : Nat × Nat := (0xFFFD, 1)

/-- `utf8.DecodeRuneInString`: the code point and the number of bytes (the loop in writer.go 52 uses it) -/
def decodeRune : Bytes → Nat × Nat
  | [] => (0xFFFD, 0)
  | b0 :: rest =>
    let x := b0.toNat
    if x < 0x80 then (x, 1)
    else if x < 0xC2 then bad
    else if x < 0xE0 then
      match rest with
      | b1 :: _ => if between 0x80 0xBF b1 then ((x - 0xC0) * 64 + (b1.toNat - 0x80), 2) else bad
      | _ => bad
    else if x < 0xF0 then
      match rest with
      | b1 :: b2 :: _ =>
        if between (if x = 0xE0 then 0xA0 else 0x80) (if x = 0xED then 0x9F else 0xBF) b1 && between 0x80 0xBF b2 then
          ((x - 0xE0) * 4096 + (b1.toNat - 0x80) * 64 + (b2.toNat - 0x80), 3)
        else bad
      | _ => bad
    else if x < 0xF5 then
      match rest with
      | b1 :: b2 :: b3 :: _ =>
        if between (if x = 0xF0 then 0x90 else 0x80) (if x = 0xF4 then 0x8F else 0xBF) b1 && between 0x80 0xBF b2 && between 0x80 0xBF b3 then
          ((x - 0xF0) * 262144 + (b1.toNat - 0x80) * 4096 + (b2.toNat - 0x80) * 64 + (b3.toNat - 0x80), 4)
        else bad
      | _ => bad
    else bad

/-- the loop `for _, r := range s` (writer.go 52) and `strings.ContainsFunc` (writer.go 47); the first argument bounds the number of
iterations -/
def runesLoop : Nat → Bytes → List Nat
  | 0, _ => []
  | fuel + 1, s => if s = [] then [] else (decodeRune s).1 :: runesLoop fuel (s.drop (decodeRune s).2)

/-- the code points of a string (writer.go 47, 52) -/
def runes (s : Bytes) : List Nat := runesLoop s.length s

/-- `strings.Builder.WriteRune` (writer.go 54) for a code point that decoding can give -/
def encodeRune (r : Nat) : Bytes :=
  if r ≤ 0x7F then [UInt8.ofNat r]
  else if r ≤ 0x7FF then [UInt8.ofNat (0xC0 + r / 64), UInt8.ofNat (0x80 + r % 64)]
  else if r ≤ 0xFFFF then [UInt8.ofNat (0xE0 + r / 4096), UInt8.ofNat (0x80 + r / 64 % 64), UInt8.ofNat (0x80 + r % 64)]
  else [UInt8.ofNat (0xF0 + r / 262144), UInt8.ofNat (0x80 + r / 4096 % 64), UInt8.ofNat (0x80 + r / 64 % 64), UInt8.ofNat (0x80 + r % 64)]

/-- writer.go 60-62 `isUnsafeControl` -/
def isUnsafeControl (r : Nat) : Bool := decide (r < 0x20) && r != 9 && r != 0x1B

/-- writer.go 46-58 `stripControlChars` -/
def stripControlChars (s : Bytes) : Bytes :=
  if !(runes s).any isUnsafeControl then s else ((runes s).filter (fun r => !isUnsafeControl r)).flatMap encodeRune

/-- one step of `ansi.DecodeSequence`: the number of bytes of the sequence, whether the command of the parser ends in `m`,
and the new state (writer.go 28) -/
structure Decoded where
  len : Nat
  isM : Bool
  state : Nat

/-- `ansi.DecodeSequence` as a function of state and input (writer.go 28) -/
abbrev Decoder := Nat → Bytes → Decoded

/-- `ansi.HasCsiPrefix` (used in writer.go 33) -/
def hasCsiPrefix : Bytes → Bool
  | 0x9B :: _ => true
  | 0x1B :: 0x5B :: _ => true
  | _ => false

/-- `ansi.HasOscPrefix`, `HasEscPrefix`, `HasDcsPrefix` and `HasApcPrefix` together (used in writer.go 37-38) -/
def hasOtherPrefix : Bytes → Bool
  | 0x1B :: _ => true
  | b :: _ => b == 0x9D || b == 0x90 || b == 0x9F
  | [] => false

/-- writer.go 27-42: the loop of `sanitizeLine`. The first argument bounds the number of iterations. -/
def sanitizeLoop (dec : Decoder) : Nat → Nat → Bytes → Bytes
  | 0, _, _ => []
  | fuel + 1, state, input =>
    if input = [] then []
    else
      let d := dec state input
      if d.len = 0 then []
      else
        let seq := input.take d.len
        let keep :=
          if hasCsiPrefix seq then (if d.isM then seq else [])
          else if !hasOtherPrefix seq then seq
          else []
        keep ++ sanitizeLoop dec fuel d.state (input.drop d.len)

/-- `strings.ContainsRune(line, 0x9b)` (writer.go 19): a code point above `0x7f` is looked for in its encoded form -/
def contains9b : Bytes → Bool
  | [] => false
  | b :: r => (b == 0xC2 && r.head? == some 0x9B) || contains9b r

/-- writer.go 18-44 `sanitizeLine` -/
def sanitizeLine (dec : Decoder) (line : Bytes) : Bytes :=
  if !line.contains 0x1B && !contains9b line then stripControlChars line
  else stripControlChars (sanitizeLoop dec (line.length + 1) 0 line)

/-- writer.go 64-69 `cleanLine`; `strip` stands for `ansi.Strip` -/
def cleanLine (dec : Decoder) (strip : Bytes → Bytes) (noColor : Bool) (line : Bytes) : Bytes :=
  if noColor then strip line else sanitizeLine dec line

/-- writer.go 132-148: what a prefix writer sends to its destination for a command's output -/
def prefixed (clean : Bytes → Bytes) (pre : Bytes) (chunks : List Bytes) : Bytes :=
  (outputLines clean chunks).flatMap fun l => pre ++ l ++ [nl]

/-- `fmt.Sprintf("%-*s", padWidth, label)` (writer.go 122): blanks on the right, counted in characters -/
def pad (width : Nat) (label : Str) : Str := label ++ List.replicate (width - label.length) ' '

/-- writer.go 120-123: the prefix of an item's lines; `render` stands for the function `Render` of the style -/
def prefixOf (render : Str → Bytes) (width : Nat) (label : Str) : Bytes := render ('[' :: pad width label ++ [']']) ++ [0x20]

/-- parallel.go 72-79: the width to which the labels are padded. Go's `len` counts bytes. -/
def labelWidth (len : Str → Nat) : List Str → Nat
  | [] => 0
  | l :: ls => max (len l) (labelWidth len ls)

end Bab.Raw
