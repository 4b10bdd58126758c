import Verif.Model.CleanBytes
/-
What cleaned output is, in bytes: which bytes a line must not contain, how text is written in bytes, and what it means that two
descriptions of the library, on bytes and on characters, are of the same function.
-/

namespace Bab.Raw

/-- text in UTF-8, as Lean's own library encodes characters -/
def utf8 (s : Str) : Bytes := s.flatMap String.utf8EncodeChar

end Bab.Raw

namespace Bab.Spec.RawText

/-- a byte that moves the cursor or rings the bell on its own, or that ends the line -/
def IsControl (b : UInt8) : Prop := b < 0x20 ∧ b ≠ 0x09 ∧ b ≠ 0x1B

/-- a decoder of bytes and one of characters cut valid text in the same way -/
def Agree (decB : Raw.Decoder) (dec : Decoder) : Prop :=
  ∀ state s, s ≠ [] → decB state (Raw.utf8 s) = ⟨(Raw.utf8 (dec state s).seq).length, (dec state s).isM, (dec state s).state⟩ ∧
    (dec state s).seq <+: s

/-- a function on lines that does not break a line in two -/
def KeepsLines (f : Bytes → Bytes) : Prop := ∀ l, nl ∉ l → nl ∉ f l

/-- rendering text, with colours or without, neither adds newlines to it nor removes them -/
def Renders (render : Str → Bytes) : Prop := ∀ s, nl ∈ render s ↔ '\n' ∈ s

end Bab.Spec.RawText
