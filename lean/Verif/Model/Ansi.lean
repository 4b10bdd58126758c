import Verif.Model.CleanBytes
/-
Model of two functions of the library charmbracelet/x/ansi 0.11.6 (go.mod 12), which internal/runner/writer.go calls:
`DecodeSequence` (writer.go 28) and `Strip` (writer.go 66). The source of the library is not in the repository; the model follows
it as far as it is known from memory. Left out are the parameters of a sequence and the number of an OSC sequence, which the caller
does not look at. The length of the first grapheme cluster of a text is a parameter.
-/

namespace Bab.Ansi
open Bab

/-- the states of `DecodeSequence` (the variable of writer.go 24) -/
inductive State
  | normal | pre | params | inter | esc | str
  deriving DecidableEq

/-- their numbers (writer.go 24, 32) -/
def State.num : State → Nat
  | .normal => 0
  | .pre => 1
  | .params => 2
  | .inter => 3
  | .esc => 4
  | .str => 5

/-- and back (writer.go 28) -/
def State.ofNum : Nat → State
  | 0 => .normal
  | 1 => .pre
  | 2 => .params
  | 3 => .inter
  | 4 => .esc
  | _ => .str

/-- a byte in a range (of the library's tables, for writer.go 28 and 66) -/
def within (lo hi : Nat) (b : UInt8) : Bool := decide (lo ≤ b.toNat) && decide (b.toNat ≤ hi)

/-- `ansi.HasDcsPrefix` (used by the library for writer.go 28) -/
def hasDcs : Bytes → Bool
  | 0x90 :: _ => true
  | 0x1B :: 0x50 :: _ => true
  | _ => false

/-- `ansi.HasOscPrefix` (used by the library for writer.go 28) -/
def hasOsc : Bytes → Bool
  | 0x9D :: _ => true
  | 0x1B :: 0x5D :: _ => true
  | _ => false

/-- `ansi.HasStPrefix` (used by the library for writer.go 28) -/
def hasSt : Bytes → Bool
  | 0x9C :: _ => true
  | 0x1B :: 0x5C :: _ => true
  | _ => false

/-- The loop of `DecodeSequence` (called in writer.go 28) on input `b`: the state, the number of bytes read, the last byte of the
command so far (`p.Command() & 0xff`, writer.go 34), and the bytes not read yet. -/
def go (cluster : Bytes → Nat) (b : Bytes) : State → Nat → Nat → Bytes → Raw.Decoded
  | st, i, cmd, [] => ⟨i, decide (cmd = 0x6D), st.num⟩
  | st, i, cmd, c :: rest =>
    match st with
    | .normal =>
      if c = 0x1B then go cluster b .esc (i + 1) 0 rest
      else if c = 0x9B || c = 0x90 then go cluster b .pre (i + 1) 0 rest
      else if c = 0x9D || c = 0x9F || c = 0x98 || c = 0x9E then go cluster b .str (i + 1) 0xFF rest
      else if c.toNat < 0xC0 then ⟨1, false, 0⟩
      else ⟨cluster b, false, 0⟩
    | .esc =>
      if c = 0x5B || c = 0x50 then go cluster b .pre (i + 1) 0 rest
      else if c = 0x5D || c = 0x58 || c = 0x5E || c = 0x5F then go cluster b .str (i + 1) 0xFF rest
      else if within 0x20 0x2F c then go cluster b .esc (i + 1) cmd rest
      else if within 0x30 0x7E c then ⟨i + 1, decide (c = 0x6D), 0⟩
      else ⟨i, decide (cmd = 0x6D), 0⟩
    | .str =>
      if c = 0x07 && hasOsc b then ⟨i + 1, decide (cmd = 0x6D), 0⟩
      else if c = 0x18 || c = 0x1A then ⟨i, decide (cmd = 0x6D), 0⟩
      else if c = 0x9C then ⟨i + 1, decide (cmd = 0x6D), 0⟩
      else if c = 0x1B then (if hasSt (c :: rest) then ⟨i + 2, decide (cmd = 0x6D), 0⟩ else ⟨i, decide (cmd = 0x6D), 0⟩)
      else go cluster b .str (i + 1) cmd rest
    | st =>
      if decide (st = .pre) && within 0x3C 0x3F c then go cluster b .pre (i + 1) cmd rest
      else if !decide (st = .inter) && within 0x30 0x3B c then go cluster b .params (i + 1) cmd rest
      else if within 0x20 0x2F c then go cluster b .inter (i + 1) cmd rest
      else if within 0x40 0x7E c then
        (if hasDcs b then go cluster b .str (i + 1) c.toNat rest else ⟨i + 1, decide (c = 0x6D), 0⟩)
      else ⟨i, decide (cmd = 0x6D), 0⟩

/-- `ansi.DecodeSequence` (called in writer.go 28); `cluster` gives the number of bytes of the first grapheme cluster -/
def decode (cluster : Bytes → Nat) : Raw.Decoder := fun state b => go cluster b (.ofNum state) 0 0 b

/-! ### Strip -/

/-- the states of the library's table (for writer.go 66); one state stands for the three kinds of command strings that are treated alike -/
inductive TState
  | ground | esc | escInter | csiEntry | csiParam | csiInter | dcsEntry | dcsParam | dcsInter | dcsStr | osc | str
  deriving DecidableEq

/-- what `Strip` does with a byte (writer.go 66): write it, write it and what belongs to the same character, or leave it out -/
inductive Action
  | write | collect | skip
  deriving DecidableEq

/-- a control character below `0x20` that does not change the state (in the table for writer.go 66) -/
def isC0 (c : UInt8) : Bool := decide (c.toNat < 0x20) && c ≠ 0x18 && c ≠ 0x1A && c ≠ 0x1B

/-- the entries of the table that are the same for all states (for writer.go 66) -/
def anywhere (c : UInt8) : Action × TState :=
  if c = 0x18 || c = 0x1A || within 0x80 0x8F c || within 0x91 0x97 c || c = 0x99 || c = 0x9A || c = 0x9C then (.write, .ground)
  else if c = 0x1B then (.skip, .esc)
  else if c = 0x98 || c = 0x9E || c = 0x9F then (.skip, .str)
  else if c = 0x9B then (.skip, .csiEntry)
  else if c = 0x90 then (.skip, .dcsEntry)
  else if c = 0x9D then (.skip, .osc)
  else if within 0xC2 0xF4 c then (.collect, .ground)
  else (.skip, .ground)

/-- the table of the library's parser (for writer.go 66) -/
def trans : TState → UInt8 → Action × TState
  | .ground, c =>
    if within 0x00 0x7F c && c ≠ 0x1B then (.write, .ground) else anywhere c
  | .esc, c =>
    if isC0 c then (.write, .esc)
    else if c = 0x7F then (.skip, .esc)
    else if within 0x20 0x2F c then (.skip, .escInter)
    else if c = 0x58 || c = 0x5E || c = 0x5F then (.skip, .str)
    else if c = 0x50 then (.skip, .dcsEntry)
    else if c = 0x5B then (.skip, .csiEntry)
    else if c = 0x5D then (.skip, .osc)
    else if within 0x30 0x7E c then (.skip, .ground)
    else anywhere c
  | .escInter, c =>
    if isC0 c then (.write, .escInter)
    else if within 0x20 0x2F c || c = 0x7F then (.skip, .escInter)
    else if within 0x30 0x7E c then (.skip, .ground)
    else anywhere c
  | .csiEntry, c =>
    if isC0 c then (.write, .csiEntry)
    else if c = 0x7F then (.skip, .csiEntry)
    else if within 0x20 0x2F c then (.skip, .csiInter)
    else if within 0x30 0x3F c then (.skip, .csiParam)
    else if within 0x40 0x7E c then (.skip, .ground)
    else anywhere c
  | .csiParam, c =>
    if isC0 c then (.write, .csiParam)
    else if within 0x30 0x3F c || c = 0x7F then (.skip, .csiParam)
    else if within 0x20 0x2F c then (.skip, .csiInter)
    else if within 0x40 0x7E c then (.skip, .ground)
    else anywhere c
  | .csiInter, c =>
    if isC0 c then (.write, .csiInter)
    else if within 0x20 0x2F c || c = 0x7F then (.skip, .csiInter)
    else if within 0x30 0x7E c then (.skip, .ground)
    else anywhere c
  | .dcsEntry, c =>
    if within 0x08 0x0D c || c = 0x1B then (.skip, .dcsStr)
    else if isC0 c || c = 0x7F then (.skip, .dcsEntry)
    else if within 0x20 0x2F c then (.skip, .dcsInter)
    else if within 0x30 0x3F c then (.skip, .dcsParam)
    else if within 0x40 0x7E c then (.skip, .dcsStr)
    else anywhere c
  | .dcsParam, c =>
    if isC0 c || within 0x30 0x3F c || c = 0x7F then (.skip, .dcsParam)
    else if within 0x20 0x2F c then (.skip, .dcsInter)
    else if within 0x40 0x7E c then (.skip, .dcsStr)
    else anywhere c
  | .dcsInter, c =>
    if isC0 c || within 0x20 0x2F c || c = 0x7F then (.skip, .dcsInter)
    else if within 0x30 0x7E c then (.skip, .dcsStr)
    else anywhere c
  | .dcsStr, c =>
    if c = 0x1B then (.skip, .esc)
    else if c = 0x9C || c = 0x18 || c = 0x1A then (.skip, .ground)
    else (.skip, .dcsStr)
  | .osc, c =>
    if c = 0x1B then (.skip, .esc)
    else if c = 0x07 || c = 0x9C || c = 0x18 || c = 0x1A then (.skip, .ground)
    else (.skip, .osc)
  | .str, c =>
    if c = 0x1B then (.skip, .esc)
    else if c = 0x9C || c = 0x18 || c = 0x1A then (.skip, .ground)
    else if within 0x00 0x7F c then (.skip, .str)
    else anywhere c

/-- how many bytes follow the first one of a character (`utf8ByteLen` of the library, for writer.go 66) -/
def follow (c : UInt8) : Nat := if c.toNat < 0xE0 then 1 else if c.toNat < 0xF0 then 2 else 3

/-- the loop of `Strip` (called in writer.go 66): the state, the number of bytes missing of a character, and the bytes not read yet -/
def stripGo : TState → Nat → Bytes → Bytes
  | _, _, [] => []
  | _, k + 1, c :: r => c :: stripGo .ground k r
  | st, 0, c :: r =>
    match trans st c with
    | (.write, st') => c :: stripGo st' 0 r
    | (.collect, _) => c :: stripGo .ground (follow c) r
    | (.skip, st') => stripGo st' 0 r

/-- `ansi.Strip` (called in writer.go 66) -/
def strip (b : Bytes) : Bytes := stripGo .ground 0 b

end Bab.Ansi
