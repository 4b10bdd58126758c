import Verif.Proof.CleanBytes
import Verif.Props.Writer
import Verif.Model.Babfile
/-
C94: whatever bytes a command prints, its output stays inside its own lines.
-/

namespace Bab
open Spec Spec.RawText

/-- C94: no line that is shown in colour has a control byte in it besides tabs and escapes, whatever bytes it was made of and
whatever the library does. -/
theorem C94_no_control (dec : Raw.Decoder) (strip : Bytes → Bytes) (line : Bytes) : ∀ b ∈ Raw.cleanLine dec strip false line, ¬ IsControl b := by
  intro b hb
  rw [Raw.cleanLine, if_neg (by decide)] at hb
  have h : Raw.isUnsafeControl b.toNat = false := by
    unfold Raw.sanitizeLine at hb
    split at hb <;> exact Raw.strip_bytes hb
  rintro ⟨h1, h2, h3⟩
  have h1' : b.toNat < 0x20 := UInt8.lt_iff_toNat_lt.mp h1
  have h2' : b.toNat ≠ 9 := fun e => h2 (UInt8.toNat_inj.mp e)
  have h3' : b.toNat ≠ 0x1B := fun e => h3 (UInt8.toNat_inj.mp e)
  simp [Raw.isUnsafeControl, h1', h2', h3'] at h

theorem C94_keeps_lines (dec : Raw.Decoder) {strip : Bytes → Bytes} (noColor : Bool) (hs : noColor = true → KeepsLines strip) :
    KeepsLines (Raw.cleanLine dec strip noColor) := by
  intro l hl
  cases noColor with
  | true => rw [Raw.cleanLine, if_pos rfl]; exact hs rfl l hl
  | false => exact fun h => C94_no_control dec strip l nl h ⟨by decide, by decide, by decide⟩

/-- C94: for every output, cut into writes in any way, the destination gets as many lines as the output has, each begins with the
prefix of the item, and nothing is left without a newline. With colours nothing is assumed about the library; without them, that
removing escape sequences does not break lines. -/
theorem C94_own_lines_partial (dec : Raw.Decoder) {strip : Bytes → Bytes} (noColor : Bool) (hs : noColor = true → KeepsLines strip)
    {pre : Bytes} (hp : nl ∉ pre) (chunks : List Bytes) :
    ∃ ls out, IsLines chunks.flatten ls ∧ IsSplit (Raw.prefixed (Raw.cleanLine dec strip noColor) pre chunks) out [] ∧
      out.length = ls.length ∧ ∀ i (h : i < out.length) (h' : i < ls.length),
        out[i] = pre ++ Raw.cleanLine dec strip noColor (visible ls[i]) := by
  obtain ⟨ls, h1, h2⟩ := C44_lines (Raw.cleanLine dec strip noColor) chunks
  refine ⟨ls, ls.map (fun l => pre ++ Raw.cleanLine dec strip noColor (visible l)), h1, ⟨?_, ?_, by simp⟩, by simp, by simp⟩
  · rw [Raw.prefixed, h2, List.flatMap_map, List.flatMap_map, List.append_nil]
  · intro l hl
    obtain ⟨m, hm, rfl⟩ := List.mem_map.mp hl
    have hn := (C44_nothing_lost h1).2 m hm
    intro h
    rcases List.mem_append.mp h with h | h
    · exact hp h
    · refine C94_keeps_lines dec noColor hs _ ?_ h
      intro hv
      rw [visible, List.mem_reverse] at hv
      exact hn (List.mem_reverse.mp (List.takeWhile_subset _ hv))

/-- the newlines of a prefix are those of the label -/
theorem nl_prefixOf {render : Str → Bytes} (hr : Renders render) (width : Nat) (label : Str) : nl ∈ Raw.prefixOf render width label ↔ '\n' ∈ label := by
  rw [Raw.prefixOf, List.mem_append, hr]
  have h1 : ¬ nl ∈ ([0x20] : Bytes) := by decide
  have h2 : '\n' ∈ '[' :: Raw.pad width label ++ [']'] ↔ '\n' ∈ label := by
    simp only [Raw.pad, List.cons_append, List.mem_cons, List.mem_append, List.mem_replicate, List.not_mem_nil, or_false]
    constructor
    · rintro (h | (h | ⟨-, h⟩) | h)
      · exact absurd h (by decide)
      · exact h
      · exact absurd h (by decide)
      · exact absurd h (by decide)
    · exact fun h => .inr (.inl (.inl h))
  rw [h2]
  exact ⟨fun h => h.resolve_right h1, .inl⟩

/-- C94: if the label of an item is one line, no output of the item can pass for the output of another one: every line in the
destination begins with the prefix. Missing: labels of several lines (`C94_label_newline`). -/
theorem C94_prefix_partial (dec : Raw.Decoder) {strip : Bytes → Bytes} (noColor : Bool) (hs : noColor = true → KeepsLines strip)
    {render : Str → Bytes} (hr : Renders render) (width : Nat) {items : List RunItem} {labels : List Str} {i : Nat}
    (hl : '\n' ∉ itemLabel items labels i) (chunks : List Bytes) {shown : List Bytes}
    (h : IsLines (Raw.prefixed (Raw.cleanLine dec strip noColor) (Raw.prefixOf render width (itemLabel items labels i)) chunks) shown) :
    ∀ l ∈ shown, Raw.prefixOf render width (itemLabel items labels i) <+: l := by
  obtain ⟨ls, out, -, h2, h3, h4⟩ := C94_own_lines_partial dec noColor hs (fun hn => hl ((nl_prefixOf hr _ _).mp hn)) chunks
  have : shown = out := C44_lines_unique h ⟨out, [], h2, by simp⟩
  subst this
  intro l hl
  obtain ⟨i, hi, rfl⟩ := List.mem_iff_getElem.mp hl
  rw [h4 i hi (h3 ▸ hi)]
  exact List.prefix_append _ _

/-- C94 fails for a command of several lines without a label: its label is the beginning of the command, newline included, so
that no line in the destination begins with the prefix. -/
theorem C94_label_newline (clean : Bytes → Bytes) {render : Str → Bytes} (hr : Renders render) (width : Nat) {items : List RunItem}
    {labels : List Str} {i : Nat} {c : CommandRun} (hi : items[i]? = some (.command c)) (hl : labels[i]? = none ∨ labels[i]? = some [])
    (hc : '\n' ∈ c.cmd.take 20) (chunks : List Bytes) {shown : List Bytes}
    (h : IsLines (Raw.prefixed clean (Raw.prefixOf render width (itemLabel items labels i)) chunks) shown) :
    ∀ l ∈ shown, ¬ Raw.prefixOf render width (itemLabel items labels i) <+: l := by
  have e : itemLabel items labels i = c.cmd.take 20 := by
    rcases hl with hl | hl <;> simp [itemLabel, hl, hi]
  have hn : nl ∈ Raw.prefixOf render width (itemLabel items labels i) := (nl_prefixOf hr _ _).mpr (e ▸ hc)
  intro l hl hpre
  exact (C44_nothing_lost h).2 l hl (hpre.subset hn)

/-- C94: the prefixes of a block are equally long, in characters, whose number is at most that of the bytes; each begins with its label,
and blanks follow. -/
theorem C94_aligned {len : Str → Nat} (hlen : ∀ l : Str, l.length ≤ len l) (labels : List Str) :
    ∀ l ∈ labels, (Raw.pad (Raw.labelWidth len labels) l).length = Raw.labelWidth len labels ∧
      ∃ blanks, Raw.pad (Raw.labelWidth len labels) l = l ++ blanks ∧ ∀ c ∈ blanks, c = ' ' := by
  have hw : ∀ ls : List Str, ∀ l ∈ ls, len l ≤ Raw.labelWidth len ls := by
    intro ls
    induction ls with
    | nil => intro l hl; cases hl
    | cons m ls ih =>
      intro l hl
      rw [Raw.labelWidth]
      rcases List.mem_cons.mp hl with rfl | hl
      · exact Nat.le_max_left _ _
      · exact Nat.le_trans (ih l hl) (Nat.le_max_right _ _)
  intro l hl
  have := hw labels l hl
  have := hlen l
  refine ⟨?_, _, rfl, fun c hc => (List.mem_replicate.mp hc).2⟩
  rw [Raw.pad, List.length_append, List.length_replicate]
  omega

/-- C94: for text the cleaning of bytes is the cleaning of characters, which C47 is about. -/
theorem C94_text {decB : Raw.Decoder} {dec : Decoder} (ha : Agree decB dec) (s : Str) :
    Raw.sanitizeLine decB (Raw.utf8 s) = Raw.utf8 (sanitizeLine dec s) := Raw.sanitize_utf8 ha s

/-- C94: a command's text arrives as it was printed, even if a character is cut in two by the way it was written. -/
theorem C94_whole_characters (dec : Raw.Decoder) (strip : Bytes → Bytes) (ts : List Str) (chunks : List Bytes)
    (h : chunks.flatten = ts.flatMap fun t => Raw.utf8 t ++ [nl])
    (ht : ∀ t ∈ ts, ∀ c ∈ t, (0x20 ≤ c.toNat ∨ c = '\t') ∧ c ≠ '\x9b') :
    outputLines (Raw.cleanLine dec strip false) chunks = ts.map Raw.utf8 := by
  have hnl : ∀ t ∈ ts, ∀ b ∈ Raw.utf8 t, 0x20 ≤ b.toNat ∨ b.toNat = 9 := by
    intro t hts b hb
    by_cases h8 : b.toNat < 0x80
    · obtain ⟨c, hc, e⟩ := Raw.mem_utf8 hb h8
      rcases (ht t hts c hc).1 with h | rfl
      · exact .inl (by omega)
      · exact .inr e.symm
    · exact .inl (by omega)
  obtain ⟨ls, h1, h2⟩ := C44_lines (Raw.cleanLine dec strip false) chunks
  have hl : IsLines chunks.flatten (ts.map Raw.utf8) := by
    refine ⟨ts.map Raw.utf8, [], ⟨?_, ?_, by simp⟩, by simp⟩
    · rw [h, List.flatMap_map, List.append_nil]
    · intro l hl hm
      obtain ⟨t, htm, rfl⟩ := List.mem_map.mp hl
      have := hnl t htm nl hm
      revert this; decide
  rw [h2, C44_lines_unique h1 hl, List.map_map]
  apply List.map_congr_left
  intro t htm
  have hcr : cr ∉ Raw.utf8 t := fun hm => by
    have := hnl t htm cr hm
    revert this; decide
  have hno : ∀ c ∈ t, c ≠ '\x1b' := by
    rintro c hc rfl
    have := (ht t htm _ hc).1
    revert this; decide
  show Raw.cleanLine dec strip false (visible (Raw.utf8 t)) = _
  rw [visible_noCR hcr, Raw.cleanLine, if_neg (by decide), Raw.sanitizeLine, Raw.contains_esc_utf8, Raw.contains9b_utf8, if_pos, Raw.strip_utf8]
  · congr 1
    rw [stripControlChars_eq, List.filter_eq_self]
    intro c hc
    rw [Bool.not_eq_true']
    rcases (ht t htm c hc).1 with h | rfl
    · simp [isUnsafeControl]; omega
    · rfl
  · have h1 : t.contains '\x1b' = false := by
      rw [← Bool.not_eq_true, List.contains_iff_mem]; exact fun hm => hno _ hm rfl
    have h2 : t.contains '\x9b' = false := by
      rw [← Bool.not_eq_true, List.contains_iff_mem]; exact fun hm => (ht t htm _ hm).2 rfl
    rw [h1, h2]; rfl

/-- C94 does not reach to the byte `0x9b` on its own, which is not UTF-8: terminals in an 8-bit mode take it as the beginning of a
control sequence. The line is looked at only if it has an escape character or the character U+009B in it, so this line, which
clears the screen there, passes as it is, whatever the library does. -/
theorem C94_raw_csi (dec : Raw.Decoder) (strip : Bytes → Bytes) : Raw.cleanLine dec strip false [0x9B, 0x32, 0x4A] = [0x9B, 0x32, 0x4A] := by
  rfl

/-! Cases. -/

/-- a decoder that takes one character at a time, and the same on bytes -/
def RawSample.one : Decoder := fun _ s => ⟨s.take 1, false, 0⟩

def RawSample.oneB : Raw.Decoder := fun _ b => ⟨(Raw.decodeRune b).2, false, 0⟩

example : Agree RawSample.oneB RawSample.one := by
  intro st s hs
  match s with
  | [] => exact absurd rfl hs
  | c :: s =>
    refine ⟨?_, List.take_prefix _ _⟩
    rw [Raw.utf8_cons]
    simp only [RawSample.oneB, RawSample.one, Raw.decode_encode (Raw.char_range c), List.take_succ_cons, List.take_zero]
    rw [Raw.utf8_cons]; simp [Raw.utf8]

/-- dropping the escape characters does not break lines -/
example : KeepsLines (fun l => l.filter (· ≠ 0x1B)) := fun _ h hm => h (List.mem_filter.mp hm).1

/-- "é" cut between its two bytes, with a line before it -/
example : ([[0x61, nl, 0xC3], [0xA9, nl]] : List Bytes).flatten = ([['a'], ['é']] : List Str).flatMap (fun t => Raw.utf8 t ++ [nl]) := by decide

/-- a bell between two bytes that are not UTF-8: the bell is gone and each byte has become U+FFFD -/
example : Raw.sanitizeLine RawSample.oneB [0xFF, 0x07, 0xC3] = [0xEF, 0xBF, 0xBD, 0xEF, 0xBF, 0xBD] := by decide

/-- without the bell they stay what they are -/
example : Raw.sanitizeLine RawSample.oneB [0xFF, 0xC3] = [0xFF, 0xC3] := by decide

/-- a line that tries to look like a line of another item -/
example : Raw.prefixed (Raw.cleanLine RawSample.oneB id false) [0x61, 0x3E] [[0x78, 0x0D, 0x62, 0x3E], [0x0B, 0x79, nl, 0x7A]] =
    [0x61, 0x3E, 0x62, 0x3E, 0x79, nl, 0x61, 0x3E, 0x7A, nl] := by decide

/-- a prefix in no colour -/
example : Renders Raw.utf8 := by
  intro s
  constructor
  · intro h
    obtain ⟨c, hc, e⟩ := Raw.mem_utf8 h (by decide)
    exact (Char.toNat_inj.mp (e.trans rfl) : c = '\n') ▸ hc
  · exact fun h => List.mem_flatMap.mpr ⟨_, h, by decide⟩

/-- a command of two lines: what one line of output becomes -/
example : Raw.prefixed id (Raw.prefixOf Raw.utf8 5 (itemLabel [.command { cmd := ['l', 's', '\n', 'w', 'c'] }] [] 0)) [[0x78, nl]] =
    [0x5B, 0x6C, 0x73, nl, 0x77, 0x63, 0x5D, 0x20, 0x78, nl] := by decide

/-- the bytes of a text are at least as many as its characters -/
example : ∀ l : Str, l.length ≤ (Raw.utf8 l).length := Raw.utf8_length

end Bab
