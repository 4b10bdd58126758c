import Verif.Spec.CleanBytes
/-
Lemmas about decoding and cleaning of bytes.
-/

namespace Bab.Raw
open Bab


theorem toNat_ofNat (n : Nat) (h : n < 256) : (UInt8.ofNat n).toNat = n := by
  simp [UInt8.toNat_ofNat', Nat.mod_eq_of_lt h]

/-- the code point of a character is not a surrogate -/
theorem char_range (c : Char) : c.toNat < 0xD800 ∨ (0xDFFF < c.toNat ∧ c.toNat < 0x110000) := c.valid

theorem encodeRune_char (c : Char) : encodeRune c.toNat = String.utf8EncodeChar c := by
  have hr := char_range c
  unfold encodeRune String.utf8EncodeChar
  show _ = if c.toNat ≤ 127 then _ else if c.toNat ≤ 2047 then _ else if c.toNat ≤ 65535 then _ else _
  generalize hn : c.toNat = n at *
  have hv : c.val.toNat = n := hn
  rw [hv]
  split
  · rfl
  · split
    · have e : 192 + n / 64 = n / 64 % 32 + 192 := by omega
      rw [e, Nat.add_comm 128]
    · split
      · have e : 224 + n / 4096 = n / 4096 % 16 + 224 := by omega
        rw [e, Nat.add_comm 128, Nat.add_comm 128]
      · have e : 240 + n / 262144 = n / 262144 % 8 + 240 := by omega
        rw [e, Nat.add_comm 128, Nat.add_comm 128, Nat.add_comm 128]

theorem between_ofNat {lo hi n : Nat} (h : n < 256) : between lo hi (UInt8.ofNat n) = true ↔ lo ≤ n ∧ n ≤ hi := by
  rw [between, toNat_ofNat n h]; simp

theorem decode_encode {n : Nat} (hr : n < 0xD800 ∨ (0xDFFF < n ∧ n < 0x110000)) (rest : Bytes) :
    decodeRune (encodeRune n ++ rest) = (n, (encodeRune n).length) := by
  unfold encodeRune
  split
  · simp only [List.cons_append, List.nil_append, decodeRune]
    rw [toNat_ofNat n (by omega), if_pos (by omega)]; rfl
  · split
    · simp only [List.cons_append, List.nil_append, decodeRune]
      rw [toNat_ofNat (0xC0 + n / 64) (by omega), if_neg (by omega), if_neg (by omega), if_pos (by omega),
        if_pos ((between_ofNat (by omega)).mpr ⟨by omega, by omega⟩), toNat_ofNat (0x80 + n % 64) (by omega)]
      exact Prod.ext (by dsimp only; omega) rfl
    · split
      · simp only [List.cons_append, List.nil_append, decodeRune]
        rw [toNat_ofNat (0xE0 + n / 4096) (by omega), if_neg (by omega), if_neg (by omega), if_neg (by omega), if_pos (by omega), if_pos,
          toNat_ofNat (0x80 + n / 64 % 64) (by omega), toNat_ofNat (0x80 + n % 64) (by omega)]
        · exact Prod.ext (by dsimp only; omega) rfl
        · rw [Bool.and_eq_true, between_ofNat (by omega), between_ofNat (by omega)]
          refine ⟨⟨?_, ?_⟩, by omega, by omega⟩ <;> split <;> omega
      · simp only [List.cons_append, List.nil_append, decodeRune]
        rw [toNat_ofNat (0xF0 + n / 262144) (by omega), if_neg (by omega), if_neg (by omega), if_neg (by omega), if_neg (by omega),
          if_pos (by omega), if_pos, toNat_ofNat (0x80 + n / 4096 % 64) (by omega), toNat_ofNat (0x80 + n / 64 % 64) (by omega),
          toNat_ofNat (0x80 + n % 64) (by omega)]
        · exact Prod.ext (by dsimp only; omega) rfl
        · rw [Bool.and_eq_true, Bool.and_eq_true, between_ofNat (by omega), between_ofNat (by omega), between_ofNat (by omega)]
          refine ⟨⟨⟨?_, ?_⟩, by omega, by omega⟩, by omega, by omega⟩ <;> split <;> omega

/-- a byte below `0x80` is decoded as itself, and alone; other code points are decoded from bytes above -/
theorem decode_ascii (b : UInt8) (rest : Bytes) :
    (b.toNat < 0x80 → decodeRune (b :: rest) = (b.toNat, 1)) ∧
    (¬ b.toNat < 0x80 → 0x80 ≤ (decodeRune (b :: rest)).1) ∧
    1 ≤ (decodeRune (b :: rest)).2 ∧ (decodeRune (b :: rest)).2 ≤ rest.length + 1 ∧
    ∀ x ∈ ((b :: rest).take (decodeRune (b :: rest)).2).drop 1, 0x80 ≤ x.toNat := by
  have hbad : 0x80 ≤ bad.1 ∧ 1 ≤ bad.2 ∧ bad.2 ≤ rest.length + 1 ∧ ∀ x ∈ ((b :: rest).take bad.2).drop 1, 0x80 ≤ x.toNat := by
    refine ⟨by decide, by decide, by simp [bad], ?_⟩
    intro x hx
    simp [bad] at hx
  refine ⟨fun h => by simp [decodeRune, h], ?_⟩
  unfold decodeRune
  dsimp only
  by_cases h0 : b.toNat < 0x80
  · rw [if_pos h0]
    exact ⟨fun h => absurd h0 h, by simp, by simp, fun x hx => by simp at hx⟩
  rw [if_neg h0]
  by_cases h1 : b.toNat < 0xC2
  · rw [if_pos h1]; exact ⟨fun _ => hbad.1, hbad.2⟩
  rw [if_neg h1]
  by_cases h2 : b.toNat < 0xE0
  · rw [if_pos h2]
    match rest with
    | [] => exact ⟨fun _ => hbad.1, hbad.2⟩
    | b1 :: r =>
      dsimp only
      by_cases hc : between 0x80 0xBF b1 = true
      · rw [if_pos hc]
        simp only [between, Bool.and_eq_true, decide_eq_true_eq] at hc
        refine ⟨fun _ => by omega, by simp, by simp, ?_⟩
        intro x hx
        simp only [List.take_succ_cons, List.take_zero, List.drop_succ_cons, List.drop_zero, List.mem_singleton] at hx
        subst hx; exact hc.1
      · rw [if_neg hc]; exact ⟨fun _ => hbad.1, hbad.2⟩
  rw [if_neg h2]
  by_cases h3 : b.toNat < 0xF0
  · rw [if_pos h3]
    match rest with
    | [] => exact ⟨fun _ => hbad.1, hbad.2⟩
    | [_] => exact ⟨fun _ => hbad.1, hbad.2⟩
    | b1 :: b2 :: r =>
      dsimp only
      by_cases hc : (between (if b.toNat = 0xE0 then 0xA0 else 0x80) (if b.toNat = 0xED then 0x9F else 0xBF) b1 && between 0x80 0xBF b2) = true
      · rw [if_pos hc]
        simp only [between, Bool.and_eq_true, decide_eq_true_eq] at hc
        obtain ⟨⟨h4, -⟩, h5, -⟩ := hc
        have h4' : 0x80 ≤ b1.toNat ∧ (b.toNat = 0xE0 → 0xA0 ≤ b1.toNat) := by
          split at h4
          · exact ⟨by omega, fun _ => h4⟩
          · next hne => exact ⟨h4, fun h => absurd h hne⟩
        refine ⟨fun _ => ?_, by simp, by simp, ?_⟩
        · have := h4'.2
          dsimp only
          omega
        · intro x hx
          simp only [List.take_succ_cons, List.take_zero, List.drop_succ_cons, List.drop_zero, List.mem_cons, List.not_mem_nil, or_false] at hx
          rcases hx with rfl | rfl
          · exact h4'.1
          · exact h5
      · rw [if_neg hc]; exact ⟨fun _ => hbad.1, hbad.2⟩
  rw [if_neg h3]
  by_cases h4 : b.toNat < 0xF5
  · rw [if_pos h4]
    match rest with
    | [] => exact ⟨fun _ => hbad.1, hbad.2⟩
    | [_] => exact ⟨fun _ => hbad.1, hbad.2⟩
    | [_, _] => exact ⟨fun _ => hbad.1, hbad.2⟩
    | b1 :: b2 :: b3 :: r =>
      dsimp only
      by_cases hc : (between (if b.toNat = 0xF0 then 0x90 else 0x80) (if b.toNat = 0xF4 then 0x8F else 0xBF) b1 && between 0x80 0xBF b2 &&
          between 0x80 0xBF b3) = true
      · rw [if_pos hc]
        simp only [between, Bool.and_eq_true, decide_eq_true_eq] at hc
        obtain ⟨⟨⟨h4, -⟩, h5, -⟩, h6, -⟩ := hc
        have h4' : 0x80 ≤ b1.toNat ∧ (b.toNat = 0xF0 → 0x90 ≤ b1.toNat) := by
          split at h4
          · exact ⟨by omega, fun _ => h4⟩
          · next hne => exact ⟨h4, fun h => absurd h hne⟩
        refine ⟨fun _ => ?_, by simp, by simp, ?_⟩
        · have := h4'.2
          dsimp only
          omega
        · intro x hx
          simp only [List.take_succ_cons, List.take_zero, List.drop_succ_cons, List.drop_zero, List.mem_cons, List.not_mem_nil, or_false] at hx
          rcases hx with rfl | rfl | rfl
          · exact h4'.1
          · exact h5
          · exact h6
      · rw [if_neg hc]; exact ⟨fun _ => hbad.1, hbad.2⟩
  rw [if_neg h4]
  exact ⟨fun _ => hbad.1, hbad.2⟩

/-- every byte below `0x80` of a string is one of its code points -/
theorem ascii_mem_loop (fuel : Nat) (s : Bytes) (hf : s.length ≤ fuel) {x : UInt8} (hx : x ∈ s) (ha : x.toNat < 0x80) :
    x.toNat ∈ runesLoop fuel s := by
  induction fuel generalizing s with
  | zero =>
    have : s = [] := List.length_eq_zero_iff.mp (by omega)
    subst this; cases hx
  | succ fuel ih =>
    match s with
    | [] => cases hx
    | b :: rest =>
      obtain ⟨h1, -, h3, -, h5⟩ := decode_ascii b rest
      rw [runesLoop, if_neg (by simp)]
      rcases List.mem_cons.mp hx with rfl | hm
      · rw [h1 ha]; exact List.mem_cons_self
      · refine List.mem_cons_of_mem _ (ih _ ?_ ?_)
        · simp only [List.length_drop, List.length_cons] at hf ⊢; omega
        · generalize hd : (decodeRune (b :: rest)).2 = d at *
          obtain ⟨k, rfl⟩ : ∃ k, d = k + 1 := ⟨d - 1, by omega⟩
          simp only [List.take_succ_cons, List.drop_succ_cons, List.drop_zero] at h5 ⊢
          rw [← List.take_append_drop k rest] at hm
          rcases List.mem_append.mp hm with hm | hm
          · have := h5 x hm; omega
          · exact hm

theorem ascii_mem {s : Bytes} {x : UInt8} (hx : x ∈ s) (ha : x.toNat < 0x80) : x.toNat ∈ runes s :=
  ascii_mem_loop _ s (Nat.le_refl _) hx ha

theorem mem_encodeRune {r : Nat} {b : UInt8} (h : b ∈ encodeRune r) : (r ≤ 0x7F ∧ b.toNat = r) ∨ (0x7F < r ∧ r < 0x110000 → 0x80 ≤ b.toNat) := by
  by_cases h7 : r ≤ 0x7F
  · left
    rw [encodeRune, if_pos h7, List.mem_singleton] at h
    subst h
    exact ⟨h7, toNat_ofNat r (by omega)⟩
  · right
    rintro ⟨-, hr⟩
    rw [encodeRune, if_neg h7] at h
    split at h
    · simp only [List.mem_cons, List.not_mem_nil, or_false] at h
      rcases h with rfl | rfl <;> rw [toNat_ofNat _ (by omega)] <;> omega
    · split at h
      · simp only [List.mem_cons, List.not_mem_nil, or_false] at h
        rcases h with rfl | rfl | rfl <;> rw [toNat_ofNat _ (by omega)] <;> omega
      · simp only [List.mem_cons, List.not_mem_nil, or_false] at h
        rcases h with rfl | rfl | rfl | rfl <;> rw [toNat_ofNat _ (by omega)] <;> omega

theorem decode_lt (s : Bytes) : (decodeRune s).1 < 0x110000 := by
  match s with
  | [] => simp [decodeRune]
  | b :: rest =>
    have hbad : bad.1 < 0x110000 := by decide
    unfold decodeRune
    dsimp only
    split
    · dsimp only; omega
    · split
      · exact hbad
      · split
        · match rest with
          | [] => exact hbad
          | b1 :: r =>
            dsimp only
            split
            · next hc =>
              simp only [between, Bool.and_eq_true, decide_eq_true_eq] at hc
              dsimp only; omega
            · exact hbad
        · split
          · match rest with
            | [] => exact hbad
            | [_] => exact hbad
            | b1 :: b2 :: r =>
              have h1 := b1.toNat_lt
              have h2 := b2.toNat_lt
              dsimp only
              by_cases hc : (between (if b.toNat = 0xE0 then 0xA0 else 0x80) (if b.toNat = 0xED then 0x9F else 0xBF) b1 && between 0x80 0xBF b2) = true
              · rw [if_pos hc]; dsimp only; omega
              · rw [if_neg hc]; exact hbad
          · split
            · match rest with
              | [] => exact hbad
              | [_] => exact hbad
              | [_, _] => exact hbad
              | b1 :: b2 :: b3 :: r =>
                dsimp only
                by_cases hc : (between (if b.toNat = 0xF0 then 0x90 else 0x80) (if b.toNat = 0xF4 then 0x8F else 0xBF) b1 && between 0x80 0xBF b2 &&
                    between 0x80 0xBF b3) = true
                · rw [if_pos hc]
                  simp only [between, Bool.and_eq_true, decide_eq_true_eq] at hc
                  obtain ⟨⟨⟨-, h4⟩, -, h5⟩, -, h6⟩ := hc
                  have h4' : b1.toNat ≤ 0xBF ∧ (b.toNat = 0xF4 → b1.toNat ≤ 0x8F) := by
                    split at h4
                    · exact ⟨by omega, fun _ => h4⟩
                    · next hne => exact ⟨h4, fun h => absurd h hne⟩
                  dsimp only; omega
                · rw [if_neg hc]; exact hbad
            · exact hbad

theorem runes_lt {fuel : Nat} {s : Bytes} {r : Nat} (h : r ∈ runesLoop fuel s) : r < 0x110000 := by
  induction fuel generalizing s with
  | zero => cases h
  | succ fuel ih =>
    rw [runesLoop] at h
    split at h
    · cases h
    · rcases List.mem_cons.mp h with rfl | h
      · exact decode_lt s
      · exact ih h

/-- no control byte is left -/
theorem strip_bytes {s : Bytes} {b : UInt8} (h : b ∈ stripControlChars s) : isUnsafeControl b.toNat = false := by
  unfold stripControlChars at h
  split at h
  · next hno =>
    by_cases ha : b.toNat < 0x80
    · have := ascii_mem h ha
      rw [Bool.not_eq_true', List.any_eq_false] at hno
      simpa using hno _ this
    · simp [isUnsafeControl]; omega
  · obtain ⟨r, hr, hb⟩ := List.mem_flatMap.mp h
    obtain ⟨hr1, hr2⟩ := List.mem_filter.mp hr
    rcases mem_encodeRune hb with ⟨h1, h2⟩ | h1
    · rw [h2]; simpa using hr2
    · by_cases h7 : r ≤ 0x7F
      · rw [encodeRune, if_pos h7, List.mem_singleton] at hb
        subst hb
        rw [toNat_ofNat r (by omega)]; simpa using hr2
      · have := h1 ⟨by omega, runes_lt hr1⟩
        simp [isUnsafeControl]; omega

/-! ## valid UTF-8 -/

theorem utf8_cons (c : Char) (s : Str) : utf8 (c :: s) = encodeRune c.toNat ++ utf8 s := by
  rw [utf8, List.flatMap_cons, encodeRune_char]; rfl

theorem encode_length (r : Nat) : 1 ≤ (encodeRune r).length := by
  unfold encodeRune
  repeat' split
  all_goals simp

theorem encode_ne (r : Nat) (s : Bytes) : encodeRune r ++ s ≠ [] := by
  intro h
  have := encode_length r
  rw [(List.append_eq_nil_iff.mp h).1] at this
  simp at this

theorem runesLoop_utf8 (s : Str) (fuel : Nat) (hf : (utf8 s).length ≤ fuel) : runesLoop fuel (utf8 s) = s.map Char.toNat := by
  induction s generalizing fuel with
  | nil => cases fuel <;> rfl
  | cons c s ih =>
    rw [utf8_cons] at hf ⊢
    have hl := encode_length c.toNat
    rw [List.length_append] at hf
    obtain ⟨k, rfl⟩ : ∃ k, fuel = k + 1 := ⟨fuel - 1, by omega⟩
    rw [runesLoop, if_neg (encode_ne _ _), decode_encode (char_range c)]
    dsimp only
    rw [List.drop_left, ih k (by omega)]; rfl

theorem runes_utf8 (s : Str) : runes (utf8 s) = s.map Char.toNat := runesLoop_utf8 s _ (Nat.le_refl _)

theorem unsafe_char (c : Char) : isUnsafeControl c.toNat = Bab.isUnsafeControl c := by
  have h9 : (c.toNat != 9) = decide (c ≠ '\t') := by
    by_cases h : c = '\t'
    · subst h; rfl
    · have : c.toNat ≠ 9 := fun e => h (Char.toNat_inj.mp e)
      simp [h, this]
  have h1b : (c.toNat != 0x1B) = decide (c ≠ '\x1b') := by
    by_cases h : c = '\x1b'
    · subst h; rfl
    · have : c.toNat ≠ 0x1B := fun e => h (Char.toNat_inj.mp e)
      simp [h, this]
  rw [isUnsafeControl, Bab.isUnsafeControl, h9, h1b]

theorem strip_utf8 (s : Str) : stripControlChars (utf8 s) = utf8 (Bab.stripControlChars s) := by
  have hf : ∀ s : Str, ((s.map Char.toNat).filter (fun r => !isUnsafeControl r)).flatMap encodeRune = utf8 (s.filter (fun r => !Bab.isUnsafeControl r)) := by
    intro s
    induction s with
    | nil => rfl
    | cons c s ih =>
      rw [List.map_cons, List.filter_cons, List.filter_cons, unsafe_char]
      split
      · rw [List.flatMap_cons, ih, utf8_cons]
      · exact ih
  have ha : (s.map Char.toNat).any isUnsafeControl = s.any Bab.isUnsafeControl := by
    rw [List.any_map]
    congr 1
    funext c
    exact unsafe_char c
  unfold stripControlChars Bab.stripControlChars
  rw [runes_utf8, ha]
  split
  · rfl
  · exact hf s

/-- the first byte of a character -/
theorem encode_head (c : Char) : (∃ b, encodeRune c.toNat = [b] ∧ b.toNat = c.toNat) ∨ ∃ b r, encodeRune c.toNat = b :: r ∧ 0xC2 ≤ b.toNat := by
  have hr := char_range c
  unfold encodeRune
  split
  · exact Or.inl ⟨_, rfl, toNat_ofNat _ (by omega)⟩
  · right
    split
    · exact ⟨_, _, rfl, by rw [toNat_ofNat _ (by omega)]; omega⟩
    · split
      · exact ⟨_, _, rfl, by rw [toNat_ofNat _ (by omega)]; omega⟩
      · exact ⟨_, _, rfl, by rw [toNat_ofNat _ (by omega)]; omega⟩

theorem contains9b_skip {b : UInt8} {r : Bytes} (h : b.toNat ≠ 0xC2) : contains9b (b :: r) = contains9b r := by
  have : (b == 0xC2) = false := by
    rw [beq_eq_false_iff_ne]; rintro rfl; exact h rfl
  rw [contains9b, this]; rfl

theorem contains9b_char (c : Char) (rest : Bytes) : contains9b (encodeRune c.toNat ++ rest) = (decide (c = '\x9b') || contains9b rest) := by
  have hr := char_range c
  have hc : decide (c = '\x9b') = decide (c.toNat = 0x9B) := by
    by_cases h : c = '\x9b'
    · subst h; rfl
    · have : c.toNat ≠ 0x9B := fun e => h (Char.toNat_inj.mp e)
      simp [h, this]
  rw [hc]
  generalize c.toNat = n at *
  unfold encodeRune
  split
  · have : decide (n = 0x9B) = false := by simp; omega
    rw [this, Bool.false_or, List.singleton_append, contains9b_skip (by rw [toNat_ofNat _ (by omega)]; omega)]
  · split
    · by_cases h : n = 0x9B
      · subst h; simp [contains9b]
      · have hd : decide (n = 0x9B) = false := by simp [h]
        rw [hd, Bool.false_or]
        show ((UInt8.ofNat (0xC0 + n / 64) == 0xC2 && some (UInt8.ofNat (0x80 + n % 64)) == some 0x9B) || contains9b (UInt8.ofNat (0x80 + n % 64) :: rest)) = _
        rw [contains9b_skip (by rw [toNat_ofNat _ (by omega)]; omega)]
        have : (UInt8.ofNat (0xC0 + n / 64) == 0xC2 && some (UInt8.ofNat (0x80 + n % 64)) == some 0x9B) = false := by
          rw [Bool.and_eq_false_iff]
          by_cases h2 : n / 64 = 2
          · right
            rw [beq_eq_false_iff_ne]
            intro e
            have e := congrArg UInt8.toNat (Option.some.inj e)
            rw [toNat_ofNat _ (by omega)] at e
            change 0x80 + n % 64 = 0x9B at e
            omega
          · left
            rw [beq_eq_false_iff_ne]
            intro e
            have e := congrArg UInt8.toNat e
            rw [toNat_ofNat _ (by omega)] at e
            change 0xC0 + n / 64 = 0xC2 at e
            omega
        rw [this, Bool.false_or]
    · have : decide (n = 0x9B) = false := by simp; omega
      rw [this, Bool.false_or]
      split
      · simp only [List.cons_append, List.nil_append]
        rw [contains9b_skip (by rw [toNat_ofNat _ (by omega)]; omega), contains9b_skip (by rw [toNat_ofNat _ (by omega)]; omega),
          contains9b_skip (by rw [toNat_ofNat _ (by omega)]; omega)]
      · simp only [List.cons_append, List.nil_append]
        rw [contains9b_skip (by rw [toNat_ofNat _ (by omega)]; omega), contains9b_skip (by rw [toNat_ofNat _ (by omega)]; omega),
          contains9b_skip (by rw [toNat_ofNat _ (by omega)]; omega), contains9b_skip (by rw [toNat_ofNat _ (by omega)]; omega)]

theorem contains9b_utf8 (s : Str) : contains9b (utf8 s) = s.contains '\x9b' := by
  induction s with
  | nil => rfl
  | cons c s ih =>
    rw [utf8_cons, contains9b_char, ih, List.contains_cons]
    congr 1
    by_cases h : c = '\x9b'
    · subst h; rfl
    · simp [h, Ne.symm h]

/-- a byte below `0x80` in UTF-8 is a character of its own -/
theorem mem_utf8 {s : Str} {b : UInt8} (h : b ∈ utf8 s) (hb : b.toNat < 0x80) : ∃ c ∈ s, c.toNat = b.toNat := by
  have := ascii_mem h hb
  rw [runes_utf8] at this
  exact List.mem_map.mp this

theorem contains_esc_utf8 (s : Str) : (utf8 s).contains 0x1B = s.contains '\x1b' := by
  rw [Bool.eq_iff_iff, List.contains_iff_mem, List.contains_iff_mem]
  constructor
  · intro h
    obtain ⟨c, hc, e⟩ := mem_utf8 h (by decide)
    exact (Char.toNat_inj.mp (e.trans rfl) : c = '\x1b') ▸ hc
  · intro h
    exact List.mem_flatMap.mpr ⟨_, h, by decide⟩

/-- UTF-8 that begins with a byte below `0xc2` begins with that character -/
theorem utf8_head {s : Str} {b : UInt8} {r : Bytes} (h : utf8 s = b :: r) (hb : b.toNat < 0xC2) : ∃ c s', s = c :: s' ∧ c.toNat = b.toNat ∧ c.toNat < 0x80 ∧ r = utf8 s' := by
  match s with
  | [] => cases h
  | c :: s =>
    rw [utf8_cons] at h
    have hr := char_range c
    rcases encode_head c with ⟨b', he, hb'⟩ | ⟨b', r', he, hb'⟩
    · rw [he, List.singleton_append] at h
      obtain ⟨rfl, rfl⟩ := List.cons.inj h
      refine ⟨c, s, rfl, hb'.symm, ?_, rfl⟩
      unfold encodeRune at he
      split at he
      · omega
      · split at he
        · cases he
        · split at he <;> cases he
    · rw [he, List.cons_append] at h
      obtain ⟨rfl, -⟩ := List.cons.inj h
      omega

theorem csi_utf8 (s : Str) : hasCsiPrefix (utf8 s) = Bab.hasCsiPrefix s := by
  rw [Bool.eq_iff_iff]
  constructor
  · intro h
    unfold hasCsiPrefix at h
    split at h
    · next e =>
      obtain ⟨c, s', -, h1, h2, -⟩ := utf8_head e (by decide)
      rw [h1] at h2
      exact absurd h2 (by decide)
    · next e =>
      obtain ⟨c, s', rfl, h1, -, e'⟩ := utf8_head e (by decide)
      obtain ⟨d, s'', rfl, h3, -, -⟩ := utf8_head e'.symm (by decide)
      rw [(Char.toNat_inj.mp (h1.trans rfl) : c = '\x1b'), (Char.toNat_inj.mp (h3.trans rfl) : d = '[')]
      rfl
    · cases h
  · intro h
    unfold Bab.hasCsiPrefix at h
    split at h
    · rw [utf8_cons, utf8_cons]; rfl
    · cases h

theorem other_utf8 (s : Str) : hasOtherPrefix (utf8 s) = hasEscPrefix s := by
  rw [Bool.eq_iff_iff]
  constructor
  · intro h
    unfold hasOtherPrefix at h
    split at h
    · next e =>
      obtain ⟨c, s', rfl, h1, -, -⟩ := utf8_head e (by decide)
      rw [(Char.toNat_inj.mp (h1.trans rfl) : c = '\x1b')]
      rfl
    · next b r _ e =>
      have hb : b.toNat = 0x9D ∨ b.toNat = 0x90 ∨ b.toNat = 0x9F := by
        simp only [Bool.or_eq_true, beq_iff_eq] at h
        rcases h with (rfl | rfl) | rfl <;> decide
      obtain ⟨c, s', rfl, h1, h2, -⟩ := utf8_head e (by omega)
      omega
    · cases h
  · intro h
    unfold hasEscPrefix at h
    split at h
    · rw [utf8_cons]; rfl
    · cases h

theorem utf8_append (s t : Str) : utf8 (s ++ t) = utf8 s ++ utf8 t := List.flatMap_append

theorem utf8_nil {s : Str} : utf8 s = [] ↔ s = [] := by
  constructor
  · intro h
    match s with
    | [] => rfl
    | c :: s => rw [utf8_cons] at h; exact absurd h (encode_ne _ _)
  · rintro rfl; rfl

theorem utf8_length (s : Str) : s.length ≤ (utf8 s).length := by
  induction s with
  | nil => exact Nat.le_refl _
  | cons c s ih =>
    rw [utf8_cons, List.length_append, List.length_cons]
    have := encode_length c.toNat
    omega

/-- the loop reads the same sequences; it has enough turns -/
theorem loop_utf8 {decB : Decoder} {dec : Bab.Decoder}
    (ha : ∀ st s, s ≠ [] → decB st (utf8 s) = ⟨(utf8 (dec st s).seq).length, (dec st s).isM, (dec st s).state⟩ ∧ (dec st s).seq <+: s)
    (fuel fuel' st : Nat) (s : Str) (hf : s.length < fuel) (hf' : s.length < fuel') :
    sanitizeLoop decB fuel st (utf8 s) = utf8 (Bab.sanitizeLoop dec fuel' st s) := by
  induction fuel generalizing fuel' st s with
  | zero => omega
  | succ fuel ih =>
    obtain ⟨k, rfl⟩ : ∃ k, fuel' = k + 1 := ⟨fuel' - 1, by omega⟩
    rw [sanitizeLoop, Bab.sanitizeLoop]
    by_cases hs : s = []
    · rw [if_pos hs, if_pos (utf8_nil.mpr hs)]; rfl
    · rw [if_neg hs, if_neg (fun h => hs (utf8_nil.mp h))]
      obtain ⟨e, t, ht⟩ := ha st s hs
      rw [e]
      dsimp only
      generalize dec st s = d at *
      by_cases hl : d.seq = []
      · rw [if_pos (by rw [hl]; rfl), if_pos (by rw [hl]; rfl)]; rfl
      · have h1 : ¬ (utf8 d.seq).length = 0 := fun h => hl (utf8_nil.mp (List.length_eq_zero_iff.mp h))
        have h2 : ¬ d.seq.length = 0 := fun h => hl (List.length_eq_zero_iff.mp h)
        rw [if_neg h1, if_neg h2, ← ht, utf8_append, List.take_left, List.drop_left, List.drop_left, csi_utf8, other_utf8]
        have hlen : d.seq.length + t.length = s.length := by rw [← ht, List.length_append]
        rw [utf8_append, ih k d.state t (by omega) (by omega)]
        congr 1
        split
        · split <;> rfl
        · split <;> rfl

theorem sanitize_utf8 {decB : Decoder} {dec : Bab.Decoder}
    (ha : ∀ st s, s ≠ [] → decB st (utf8 s) = ⟨(utf8 (dec st s).seq).length, (dec st s).isM, (dec st s).state⟩ ∧ (dec st s).seq <+: s)
    (s : Str) : sanitizeLine decB (utf8 s) = utf8 (Bab.sanitizeLine dec s) := by
  unfold sanitizeLine Bab.sanitizeLine
  rw [contains9b_utf8, contains_esc_utf8]
  split
  · exact strip_utf8 s
  · rw [loop_utf8 ha _ _ _ _ (by have := utf8_length s; omega) (Nat.lt_succ_self _), strip_utf8]

end Bab.Raw
