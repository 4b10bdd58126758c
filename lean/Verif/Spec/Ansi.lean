import Verif.Model.Ansi
import Verif.Spec.CleanBytes
/-
What a line of output is made of, as the standard (ECMA-48) has it: text, control sequences, escape sequences and command
strings; and what should be left of it. Nothing here refers to the cleaning of the code.
-/

namespace Bab.Spec.Ansi

/-- all bytes are in a range -/
def AllIn (lo hi : Nat) (bs : Bytes) : Prop := ∀ b ∈ bs, lo ≤ b.toNat ∧ b.toNat ≤ hi

/-- a piece of output -/
inductive Piece
  /-- text, with control characters in it or not -/
  | text (s : Str)
  /-- `ESC [`, private parameters, parameters, intermediate bytes, final byte -/
  | csi (priv par inter : Bytes) (fin : UInt8)
  /-- `ESC`, intermediate bytes, final byte -/
  | esc (inter : Bytes) (fin : UInt8)
  /-- `ESC ]`, data, ended by the bell or by `ESC \` -/
  | osc (data : Bytes) (bell : Bool)
  /-- `ESC X`, `ESC ^` or `ESC _`, data, `ESC \` -/
  | str (kind : UInt8) (data : Bytes)
  /-- `ESC P`, private parameters, parameters, intermediate bytes, final byte, data, `ESC \` -/
  | dcs (priv par inter : Bytes) (fin : UInt8) (data : Bytes)

/-- the bytes of a piece -/
def Piece.bytes : Piece → Bytes
  | .text s => Raw.utf8 s
  | .csi priv par inter fin => 0x1B :: 0x5B :: (priv ++ (par ++ (inter ++ [fin])))
  | .esc inter fin => 0x1B :: (inter ++ [fin])
  | .osc data bell => 0x1B :: 0x5D :: (data ++ if bell then [0x07] else [0x1B, 0x5C])
  | .str kind data => 0x1B :: kind :: (data ++ [0x1B, 0x5C])
  | .dcs priv par inter fin data => 0x1B :: 0x50 :: (priv ++ (par ++ (inter ++ (fin :: (data ++ [0x1B, 0x5C])))))

/-- data that does not end or break off the string it is in -/
def Data (data : Bytes) : Prop := ∀ b ∈ data, b ≠ 0x18 ∧ b ≠ 0x1A ∧ b ≠ 0x1B ∧ b ≠ 0x9C

/-- parameters and final byte of a control sequence -/
def Control (priv par inter : Bytes) (fin : UInt8) : Prop :=
  AllIn 0x3C 0x3F priv ∧ AllIn 0x30 0x3B par ∧ AllIn 0x20 0x2F inter ∧ 0x40 ≤ fin.toNat ∧ fin.toNat ≤ 0x7E

/-- a piece is what it is said to be -/
def Piece.OK : Piece → Prop
  | .text s => '\x1b' ∉ s
  | .csi priv par inter fin => Control priv par inter fin
  | .esc inter fin => AllIn 0x20 0x2F inter ∧ 0x30 ≤ fin.toNat ∧ fin.toNat ≤ 0x7E ∧ fin ∉ [0x5B, 0x50, 0x5D, 0x58, 0x5E, 0x5F]
  | .osc data _ => Data data ∧ 0x07 ∉ data
  | .str kind data => kind ∈ [0x58, 0x5E, 0x5F] ∧ Data data
  | .dcs priv par inter fin data => Control priv par inter fin ∧ Data data

/-- the bytes of a line -/
def bytes (ps : List Piece) : Bytes := ps.flatMap Piece.bytes

/-- a character that is shown, or moves on to the next column -/
def Visible (c : Char) : Bool := decide (0x20 ≤ c.toNat) || decide (c = '\t')

/-- what should be left of a piece: the text without control characters, and a control sequence if it sets colours, that is, if it
is ended by `m` and has neither private parameters nor intermediate bytes -/
def Piece.kept : Piece → Bytes
  | .text s => Raw.utf8 (s.filter Visible)
  | .csi [] par [] 0x6D => 0x1B :: 0x5B :: (par ++ [0x6D])
  | _ => []

/-- what should be left of a line -/
def kept (ps : List Piece) : Bytes := ps.flatMap Piece.kept

/-- a control sequence ended by `m` sets colours -/
def Piece.Ordinary : Piece → Prop
  | .csi priv _ inter fin => fin = 0x6D → priv = [] ∧ inter = []
  | _ => True

/-- the text of a line alone -/
def texts (ps : List Piece) : Str := ps.flatMap fun
  | .text s => s
  | _ => []

/-- the data of the command strings begun by `ESC X`, `ESC ^` and `ESC _` is plain -/
def Piece.Simple : Piece → Prop
  | .str _ data => ∀ b ∈ data, b.toNat < 0x80
  | _ => True

/-- the beginning of a sequence that the line does not finish -/
inductive Unfinished : Bytes → Prop
  | csi {priv par inter : Bytes} : AllIn 0x3C 0x3F priv → AllIn 0x30 0x3B par → AllIn 0x20 0x2F inter →
      Unfinished (0x1B :: 0x5B :: (priv ++ (par ++ inter)))
  | esc {inter : Bytes} : AllIn 0x20 0x2F inter → Unfinished (0x1B :: inter)
  | osc {data : Bytes} : Data data → 0x07 ∉ data → Unfinished (0x1B :: 0x5D :: data)
  | str {kind : UInt8} {data : Bytes} : kind ∈ [0x58, 0x5E, 0x5F] → Data data → Unfinished (0x1B :: kind :: data)
  | dcs {priv par inter data : Bytes} {fin : UInt8} : Control priv par inter fin → Data data →
      Unfinished (0x1B :: 0x50 :: (priv ++ (par ++ (inter ++ fin :: data))))

/-- What is known about grapheme clusters: a cluster has at least one byte; there is no escape character in it, except as the only
one; and a cluster of valid text, if an escape character or nothing follows the text, is some of its first characters. -/
structure Clusters (cluster : Bytes → Nat) : Prop where
  some : ∀ b, b ≠ [] → 1 ≤ cluster b
  alone : ∀ c r, 0xC0 ≤ c.toNat → (0x1B : UInt8) ∉ (c :: r).take (cluster (c :: r))
  whole : ∀ (c : Char) (s : Str) (rest : Bytes), 0x80 ≤ c.toNat → (rest = [] ∨ ∃ r, rest = 0x1B :: r) →
    ∃ t u, s = t ++ u ∧ cluster (Raw.utf8 (c :: s) ++ rest) = (Raw.utf8 (c :: t)).length

/-- what may follow an escape character that is left: the rest of a sequence ended by `m`, or a backslash, which ends a command
string and does nothing outside of one -/
def Harmless (after : Bytes) : Prop :=
  (∃ priv par inter more, Control priv par inter 0x6D ∧ after = 0x5B :: (priv ++ (par ++ (inter ++ (0x6D :: more))))) ∨
    ∃ more, after = 0x5C :: more

end Bab.Spec.Ansi
