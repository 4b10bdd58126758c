import Verif.Proof.Strip
import Verif.Props.CleanBytes
/-
C103: what cleaning leaves of a line with escape sequences. The library is the model of Model/Ansi.lean here, not a parameter.
-/

namespace Bab
open Bab.Spec.Ansi

/-- what is left of a line of complete sequences and perhaps a last one that is cut off -/
theorem Ansi.clean_pieces {cluster : Bytes → Nat} (hc : Clusters cluster) {ps : List Piece} (hok : ∀ p ∈ ps, p.OK) {tail : Bytes}
    (ht : tail = [] ∨ Unfinished tail) : Raw.sanitizeLine (Ansi.decode cluster) (bytes ps ++ tail) = Ansi.lefts ps := by
  rw [← Ansi.strip_rough hok, Raw.sanitizeLine]
  obtain ⟨h1, h2⟩ := Ansi.loop_unfinished (cluster := cluster) ht
  split
  · next h =>
    rw [Bool.and_eq_true, Bool.not_eq_true', ← Bool.not_eq_true, List.contains_iff_mem, List.mem_append, not_or] at h
    have : tail = [] := by
      rcases h1 with h1 | ⟨r, rfl⟩
      · exact h1
      · exact absurd List.mem_cons_self h.1.2
    rw [this, List.append_nil, Ansi.no_escape h.1.1]
  · have := Ansi.loop_pieces hc h1 h2 ps [] ((bytes ps ++ tail).length + 1) hok (by simp) (by simp [Raw.utf8])
    rw [show Raw.utf8 [] = [] from rfl, List.nil_append, List.nil_append] at this
    rw [this]

/-- C103: of a line made of text, sequences that set colours and other sequences, the text is left without control characters,
the colours are left as they are, and nothing is left of the rest. The same holds if the line ends within a sequence. Not so for
control sequences that end in `m` and do not set colours (`C103_private`), nor for command strings with the byte `0x9c` in them
(`C103_title`). -/
theorem C103_exact_partial {cluster : Bytes → Nat} (hc : Clusters cluster) (strip : Bytes → Bytes) {ps : List Piece} (hok : ∀ p ∈ ps, p.OK)
    (hord : ∀ p ∈ ps, p.Ordinary) {tail : Bytes} (ht : tail = [] ∨ Unfinished tail) :
    Raw.cleanLine (Ansi.decode cluster) strip false (bytes ps ++ tail) = kept ps := by
  rw [Raw.cleanLine, if_neg (by decide), Ansi.clean_pieces hc hok ht]
  clear hok ht
  induction ps with
  | nil => rfl
  | cons p ps ih =>
    have hp := hord p List.mem_cons_self
    have ih := ih fun q hq => hord q (List.mem_cons_of_mem _ hq)
    simp only [Ansi.lefts, kept, List.flatMap_cons] at ih ⊢
    rw [ih]
    congr 1
    cases p with
    | csi priv par inter fin =>
      rw [Ansi.leftOf]
      split
      · next h =>
        subst h
        obtain ⟨rfl, rfl⟩ := hp rfl
        rfl
      · next h =>
        unfold Piece.kept
        split
        · next e => cases e
        · next e => cases e; exact absurd rfl h
        · rfl
    | _ => rfl

/-- C103: with any bytes whatever in the line, an escape character is left only at the beginning of a sequence ended by `m`, or in front
of a backslash. -/
theorem C103_any_line {cluster : Bytes → Nat} (hc : Clusters cluster) (strip : Bytes → Bytes) (line : Bytes) {before after : Bytes}
    (h : Raw.cleanLine (Ansi.decode cluster) strip false line = before ++ 0x1B :: after) : Harmless after := by
  rw [Raw.cleanLine, if_neg (by decide), Raw.sanitizeLine] at h
  split at h
  · next hn =>
    rw [Bool.and_eq_true, Bool.not_eq_true', ← Bool.not_eq_true, List.contains_iff_mem] at hn
    exact Ansi.good_strip (r := line) (fun u v e => absurd (by rw [e]; simp) hn.1) _ _ h
  · exact Ansi.good_strip (Ansi.good_loop hc _ _) _ _ h

/-- C103: if the line is looked at because there is an escape character in it, a control sequence begun by the single byte `0x9b` is removed
as well, or kept if it is ended by `m`. (If there is none, the line is not looked at: `C94_raw_csi`.) -/
theorem C103_single_byte (cluster : Bytes → Nat) (strip : Bytes → Bytes) {priv par inter : Bytes} {fin : UInt8} (h : Control priv par inter fin) :
    Raw.cleanLine (Ansi.decode cluster) strip false (0x1B :: 0x5B :: 0x6D :: 0x9B :: (priv ++ (par ++ (inter ++ [fin])))) =
      0x1B :: 0x5B :: 0x6D :: (if fin = 0x6D then 0x9B :: (priv ++ (par ++ (inter ++ [fin]))) else []) := by
  have hb : ∀ b ∈ priv ++ (par ++ (inter ++ [fin])), 0x20 ≤ b.toNat ∧ b.toNat < 0x80 := Ansi.control_bytes h
  have hd : Ansi.decode cluster 0 (0x9B :: (priv ++ (par ++ (inter ++ [fin])))) =
      ⟨(0x9B :: (priv ++ (par ++ (inter ++ [fin]))) : Bytes).length, decide (fin = 0x6D), 0⟩ := by
    rw [Ansi.decode, Ansi.State.ofNum, Ansi.go, if_neg (by decide), if_pos (by decide), Ansi.go_priv _ _ _ _ h]
    simp [Ansi.hasDcs]; omega
  generalize hx : priv ++ (par ++ (inter ++ [fin])) = x at *
  have h1 : Ansi.decode cluster 0 (0x1B :: 0x5B :: 0x6D :: 0x9B :: x) = ⟨3, true, 0⟩ := rfl
  have h2 : Raw.sanitizeLoop (Ansi.decode cluster) (x.length + 4) 0 (0x9B :: x) = if fin = 0x6D then 0x9B :: x else [] := by
    rw [show x.length + 4 = (x.length + 3) + 1 from rfl, Ansi.loop_step _ (by simp) (by rw [hd]; simp), hd]
    simp only [List.take_length, List.drop_length]
    simp [Raw.hasCsiPrefix, Raw.sanitizeLoop]
  have h3 : Raw.sanitizeLoop (Ansi.decode cluster) (x.length + 5) 0 (0x1B :: 0x5B :: 0x6D :: 0x9B :: x) =
      0x1B :: 0x5B :: 0x6D :: (if fin = 0x6D then 0x9B :: x else []) := by
    rw [show x.length + 5 = (x.length + 4) + 1 from rfl, Ansi.loop_step _ (by simp) (by rw [h1]; simp), h1]
    simp only [List.take_succ_cons, List.take_zero, List.drop_succ_cons, List.drop_zero]
    rw [h2]; rfl
  rw [Raw.cleanLine, if_neg (by decide), Raw.sanitizeLine, if_neg (by simp)]
  rw [show (0x1B :: 0x5B :: 0x6D :: 0x9B :: x : Bytes).length + 1 = x.length + 5 by simp, h3, Raw.stripControlChars, if_pos]
  rw [Bool.not_eq_true', List.any_eq_false]
  intro r hr
  have hu : ∀ b ∈ x, Raw.isUnsafeControl b.toNat = false := fun b hm => by
    have := hb b hm
    simp [Raw.isUnsafeControl]; omega
  have h9 : Raw.runes (0x9B :: x) = 0xFFFD :: Raw.runes x := by
    rw [Ansi.runes_cons, show Raw.decodeRune (0x9B :: x) = (0xFFFD, 1) from rfl]; rfl
  rw [Ansi.runes_ascii (by decide), Ansi.runes_ascii (by decide), Ansi.runes_ascii (by decide)] at hr
  split at hr
  · rw [h9, ← List.append_nil x, Ansi.runes_asciis (fun b hm => (hb b hm).2)] at hr
    simp only [List.mem_cons, List.mem_append, List.mem_map] at hr
    rcases hr with rfl | rfl | rfl | rfl | ⟨b, hm, rfl⟩ | hr
    · decide
    · decide
    · decide
    · decide
    · rw [hu b hm]; decide
    · simp [Raw.runes, Raw.runesLoop] at hr
  · simp only [List.mem_cons] at hr
    rcases hr with rfl | rfl | rfl | hr
    · decide
    · decide
    · decide
    · simp [Raw.runes, Raw.runesLoop] at hr

-- the cursor two lines up
example : Control [] [0x32] [] 0x41 := by
  refine ⟨?_, ?_, ?_, by decide⟩ <;> (unfold AllIn; decide)

/-- C103 fails for control sequences with private parameters: if such a sequence ends in `m` it is left as it is, although it does not set
colours. `ESC [ > 4 ; 2 m` changes what the keys send, and `ESC [ ? 4 m` makes the terminal answer as if something had been typed. -/
theorem C103_private {cluster : Bytes → Nat} (hc : Clusters cluster) (strip : Bytes → Bytes) {priv par inter : Bytes}
    (h : Control priv par inter 0x6D) :
    Raw.cleanLine (Ansi.decode cluster) strip false (Piece.csi priv par inter 0x6D).bytes = (Piece.csi priv par inter 0x6D).bytes := by
  have := Ansi.clean_pieces hc (ps := [.csi priv par inter 0x6D]) (fun p hp => by rw [List.mem_singleton.mp hp]; exact h) (Or.inl rfl)
  rw [Raw.cleanLine, if_neg (by decide)]
  simpa [bytes, Ansi.lefts, Ansi.leftOf, Piece.bytes] using this

example : Control [0x3E] [0x34, 0x3B, 0x32] [] 0x6D := by
  refine ⟨?_, ?_, ?_, by decide⟩ <;> (unfold AllIn; decide)

/-- C103 fails for command strings with the byte `0x9c` in them, which characters may have, for instance the check mark `✓`: the
library takes it as the end of the string. The rest of the title of a window is then shown as text, after a character that stands for a
part of the check mark. -/
theorem C103_title {cluster : Bytes → Nat} (hc : Clusters cluster) (strip : Bytes → Bytes) (t : Str) (ht : ∀ c ∈ t, Visible c = true) :
    Raw.cleanLine (Ansi.decode cluster) strip false (Raw.utf8 ('\x1b' :: ']' :: '0' :: ';' :: '✓' :: t ++ ['\x07'])) = Raw.utf8 ('�' :: t) := by
  have hne : '\x1b' ∉ t ++ ['\x07'] := by
    intro hm
    rcases List.mem_append.mp hm with hm | hm
    · exact absurd (ht _ hm) (by decide)
    · exact absurd hm (by decide)
  have e : Raw.utf8 ('\x1b' :: ']' :: '0' :: ';' :: '✓' :: t ++ ['\x07']) =
      0x1B :: 0x5D :: 0x30 :: 0x3B :: 0xE2 :: 0x9C :: 0x93 :: Raw.utf8 (t ++ ['\x07']) := rfl
  rw [Raw.cleanLine, if_neg (by decide), Raw.sanitizeLine, e, if_neg (by simp)]
  generalize hx : t ++ ['\x07'] = x at hne
  have h1 : ∀ r, Ansi.decode cluster 0 (0x1B :: 0x5D :: 0x30 :: 0x3B :: 0xE2 :: 0x9C :: r) = ⟨6, false, 0⟩ := fun r => rfl
  have h2 : ∀ r, Ansi.decode cluster 0 (0x93 :: r) = ⟨1, false, 0⟩ := fun r => rfl
  obtain ⟨f', hf', h3⟩ := Ansi.loop_text hc (rest := []) (Or.inl rfl) _ x ((Raw.utf8 x).length + 6) (Nat.le_refl _) hne (by simp)
  rw [List.append_nil] at h3
  have h4 : Raw.sanitizeLoop (Ansi.decode cluster) f' 0 [] = [] := by cases f' <;> simp [Raw.sanitizeLoop]
  rw [h4, List.append_nil] at h3
  have h5 : Raw.sanitizeLoop (Ansi.decode cluster) ((Raw.utf8 x).length + 7) 0 (0x93 :: Raw.utf8 x) = 0x93 :: Raw.utf8 x := by
    rw [show (Raw.utf8 x).length + 7 = ((Raw.utf8 x).length + 6) + 1 from rfl, Ansi.loop_step _ (by simp) (by rw [h2]; simp), h2]
    simp [Raw.hasCsiPrefix, Raw.hasOtherPrefix, h3]
  have h6 : Raw.sanitizeLoop (Ansi.decode cluster) ((Raw.utf8 x).length + 8) 0 (0x1B :: 0x5D :: 0x30 :: 0x3B :: 0xE2 :: 0x9C :: 0x93 :: Raw.utf8 x) = 0x93 :: Raw.utf8 x := by
    rw [show (Raw.utf8 x).length + 8 = ((Raw.utf8 x).length + 7) + 1 from rfl, Ansi.loop_step _ (by simp) (by rw [h1]; simp), h1]
    simp only [List.take_succ_cons, List.take_zero, List.drop_succ_cons, List.drop_zero]
    rw [h5]
    simp [Raw.hasCsiPrefix, Raw.hasOtherPrefix]
  rw [show (0x1B :: 0x5D :: 0x30 :: 0x3B :: 0xE2 :: 0x9C :: 0x93 :: Raw.utf8 x : Bytes).length + 1 = (Raw.utf8 x).length + 8 by simp, h6]
  have hr : Raw.runes (0x93 :: Raw.utf8 x) = 0xFFFD :: x.map Char.toNat := by
    rw [Ansi.runes_cons]
    have : Raw.decodeRune (0x93 :: Raw.utf8 x) = (0xFFFD, 1) := rfl
    rw [this]
    simp [Raw.runes_utf8]
  rw [Raw.stripControlChars, hr, if_neg (by subst hx; simp [Raw.isUnsafeControl])]
  subst hx
  have hs := Raw.strip_utf8 (t ++ ['\x07'])
  rw [Raw.stripControlChars, Raw.runes_utf8, if_neg (by simp [Raw.isUnsafeControl]), stripControlChars_eq] at hs
  rw [List.filter_cons, if_pos (by decide), List.flatMap_cons, hs, List.filter_append, List.filter_eq_self.mpr]
  · rw [show (['\x07'] : Str).filter (fun r => !isUnsafeControl r) = [] from rfl, List.append_nil, Raw.utf8_cons]; rfl
  · intro c hcm
    have := ht c hcm
    rw [Visible, Bool.or_eq_true, decide_eq_true_eq, decide_eq_true_eq] at this
    rw [isUnsafeControl]
    rcases this with h | rfl
    · have : ¬ c.toNat < 0x20 := by omega
      simp [this]
    · rfl

/-- and a title with a ballot cross `✘` in it leaves an escape character: what follows the byte `0x9c` is the byte `0x98`, which begins
a command string of another kind, and those are not removed -/
theorem C103_cross (cluster strip) : Raw.cleanLine (Ansi.decode cluster) strip false (Raw.utf8 ['\x1b', ']', '0', ';', '✘', '\x1b', '\\']) =
    [0x98, 0x1B, 0x5C] := by rfl

/-- C103 fails for a command string of more than one line: from the second line on it is shown as text. -/
theorem C103_lines (cluster strip) : outputLines (Raw.cleanLine (Ansi.decode cluster) strip false)
    [[0x1B, 0x50, 0x71, 0x23, 0x30, nl, 0x21, 0x7E, 0x1B, 0x5C, nl]] = [[], [0x21, 0x7E]] := by rfl

/-! With `color: false`. -/

/-- C103: with `color: false` only the text is left. It is left with its control characters (`C47_colour_off_unsafe`). Not so if a command
string of one of three rare kinds has characters outside of ASCII in it (`C103_off_string`). -/
theorem C103_off_partial (dec : Raw.Decoder) {ps : List Piece} (hok : ∀ p ∈ ps, p.OK) (hs : ∀ p ∈ ps, p.Simple) :
    Raw.cleanLine dec Ansi.strip true (bytes ps) = Raw.utf8 (texts ps) := by
  have := Ansi.strip_pieces hok hs []
  rw [List.append_nil] at this
  rw [Raw.cleanLine, if_pos rfl, Ansi.strip, this]
  simp [Ansi.stripGo]

/-- C103: with `color: false` no escape character is left of valid text, whether its sequences are complete or not. -/
theorem C103_off_no_escape (dec : Raw.Decoder) (s : Str) : (0x1B : UInt8) ∉ Raw.cleanLine dec Ansi.strip true (Raw.utf8 s) := by
  rw [Raw.cleanLine, if_pos rfl]
  exact Ansi.strip_no_escape s .ground

/-- C103 fails with `color: false` for what is not valid text: after the first byte of a character that is cut off, a sequence is left as
it is, for instance one that sets colours. -/
theorem C103_off_cut (dec : Raw.Decoder) (t : Str) (ht : '\x1b' ∉ t) :
    Raw.cleanLine dec Ansi.strip true (0xC3 :: 0x1B :: Raw.utf8 t) = 0xC3 :: 0x1B :: Raw.utf8 t := by
  rw [Raw.cleanLine, if_pos rfl]
  have := Ansi.strip_text t [] ht
  rw [List.append_nil] at this
  show 0xC3 :: 0x1B :: Ansi.stripGo .ground 0 (Raw.utf8 t) = _
  rw [this]
  simp [Ansi.stripGo]

/-- C103 fails with `color: false` for a command string begun by `ESC _` with a character outside of ASCII in it: from this character on it
is shown. -/
theorem C103_off_string (dec : Raw.Decoder) : Raw.cleanLine dec Ansi.strip true (Raw.utf8 ['\x1b', '_', 'a', 'é', 'b', '\x1b', '\\', 'c']) =
    Raw.utf8 ['é', 'b', 'c'] := by rfl

/-- C94 with this library: the destination gets as many lines as the output has, each with its prefix, with colours or without. -/
theorem C103_own_lines {cluster : Bytes → Nat} (noColor : Bool) {pre : Bytes} (hp : nl ∉ pre) (chunks : List Bytes) :
    ∃ ls out, Spec.IsLines chunks.flatten ls ∧ Spec.IsSplit (Raw.prefixed (Raw.cleanLine (Ansi.decode cluster) Ansi.strip noColor) pre chunks) out [] ∧
      out.length = ls.length ∧ ∀ i (h : i < out.length) (h' : i < ls.length),
        out[i] = pre ++ Raw.cleanLine (Ansi.decode cluster) Ansi.strip noColor (Spec.visible ls[i]) :=
  C94_own_lines_partial (Ansi.decode cluster) noColor (fun _ _ hl hm => hl (Ansi.strip_mem _ _ _ hm)) hp chunks

/-! Cases. -/

/-- one character at a time, or one byte of what is not a character -/
def Ansi.Sample.one (b : Bytes) : Nat := (Raw.decodeRune b).2

theorem Ansi.Sample.one_clusters : Clusters Ansi.Sample.one where
  some := by
    intro b hb
    match b, hb with
    | c :: r, _ => exact (Raw.decode_ascii c r).2.2.1
  alone := by
    intro c r hc hm
    obtain ⟨-, -, h3, -, h5⟩ := Raw.decode_ascii c r
    change (0x1B : UInt8) ∈ (c :: r).take (Raw.decodeRune (c :: r)).2 at hm
    generalize (Raw.decodeRune (c :: r)).2 = d at *
    obtain ⟨k, rfl⟩ : ∃ k, d = k + 1 := ⟨d - 1, by omega⟩
    simp only [List.take_succ_cons, List.drop_succ_cons, List.drop_zero] at h5 hm
    rcases List.mem_cons.mp hm with h | h
    · subst h; exact absurd hc (by decide)
    · exact absurd (h5 _ h) (by decide)
  whole := by
    intro c s rest _ _
    refine ⟨[], s, rfl, ?_⟩
    rw [Ansi.Sample.one, Raw.utf8_cons, List.append_assoc, Raw.decode_encode (Raw.char_range c), Raw.utf8_cons]
    simp [Raw.utf8]

/-- a red word, a link, erasing the line, and a title that is not finished -/
def Ansi.Sample.line : List Piece :=
  [.csi [] [0x33, 0x31] [] 0x6D, .text ['é', '\x07', '!'], .csi [] [] [] 0x6D, .osc [0x38, 0x3B, 0x3B, 0xC3, 0xA9] false, .text ['x'],
    .osc [0x38, 0x3B, 0x3B] true, .csi [0x3F] [0x32, 0x35] [] 0x6C, .esc [0x28] 0x42, .str 0x5F [0x61], .dcs [] [] [0x2B] 0x71 [0x34]]

theorem Ansi.Sample.line_ok : (∀ p ∈ Ansi.Sample.line, p.OK) ∧ (∀ p ∈ Ansi.Sample.line, p.Ordinary) ∧ Unfinished [0x1B, 0x5D, 0x30, 0x3B, 0x68] := by
  refine ⟨?_, ?_, .osc (by unfold Data; decide) (by decide)⟩
  · intro p hp
    simp only [Ansi.Sample.line, List.mem_cons, List.not_mem_nil, or_false] at hp
    rcases hp with rfl | rfl | rfl | rfl | rfl | rfl | rfl | rfl | rfl | rfl <;>
      (simp only [Piece.OK, Control, AllIn, Data]; decide)
  · intro p hp
    simp only [Ansi.Sample.line, List.mem_cons, List.not_mem_nil, or_false] at hp
    rcases hp with rfl | rfl | rfl | rfl | rfl | rfl | rfl | rfl | rfl | rfl <;> simp [Piece.Ordinary]

/-- the word in red and the text of the link -/
example : Raw.cleanLine (Ansi.decode Ansi.Sample.one) id false (bytes Ansi.Sample.line ++ [0x1B, 0x5D, 0x30, 0x3B, 0x68]) =
    [0x1B, 0x5B, 0x33, 0x31, 0x6D, 0xC3, 0xA9, 0x21, 0x1B, 0x5B, 0x6D, 0x78] := by
  rw [C103_exact_partial Ansi.Sample.one_clusters id Ansi.Sample.line_ok.1 Ansi.Sample.line_ok.2.1 (Or.inr Ansi.Sample.line_ok.2.2)]
  decide

/-- the same computed -/
example : Raw.cleanLine (Ansi.decode Ansi.Sample.one) id false (bytes Ansi.Sample.line ++ [0x1B, 0x5D, 0x30, 0x3B, 0x68]) = kept Ansi.Sample.line := by
  decide

/-- with `color: false` the bell stays -/
example : Raw.cleanLine (Ansi.decode Ansi.Sample.one) Ansi.strip true (bytes Ansi.Sample.line) = [0xC3, 0xA9, 0x07, 0x21, 0x78] := by
  rw [C103_off_partial _ Ansi.Sample.line_ok.1]
  · decide
  · intro p hp
    simp only [Ansi.Sample.line, List.mem_cons, List.not_mem_nil, or_false] at hp
    rcases hp with rfl | rfl | rfl | rfl | rfl | rfl | rfl | rfl | rfl | rfl <;> simp [Piece.Simple]

example : '\x1b' ∉ "[31mred".toList := by decide

/-- a line with an escape character left -/
example : ∃ after, Raw.cleanLine (Ansi.decode Ansi.Sample.one) id false [0x61, 0x1B, 0x5B, 0x4B, 0x1B, 0x5B, 0x6D] = [0x61] ++ 0x1B :: after := ⟨_, rfl⟩

example : ∀ c ∈ " ok".toList, Visible c = true := by decide

end Bab
