import Verif.Spec.Writer
/-
Lemmas about line buffers and cleaning.
-/

namespace Bab
open Spec

theorem indexByte_some {c : UInt8} : ∀ {buf : Bytes} {i : Nat}, indexByte c buf = some i →
    buf = buf.take i ++ c :: buf.drop (i + 1) ∧ c ∉ buf.take i
  | [], _, h => by simp [indexByte] at h
  | b :: r, i, h => by
    rw [indexByte] at h
    by_cases hb : b = c
    · rw [if_pos hb] at h
      obtain rfl := Option.some.inj h
      simp [hb]
    · rw [if_neg hb] at h
      cases hi : indexByte c r with
      | none => simp [hi] at h
      | some j =>
        simp only [hi, Option.map_some, Option.some.injEq] at h
        subst h
        have := indexByte_some hi
        refine ⟨?_, ?_⟩
        · simp only [List.take_succ_cons, List.drop_succ_cons, List.cons_append]
          exact congrArg _ this.1
        · simp only [List.take_succ_cons, List.mem_cons, not_or]
          exact ⟨fun e => hb e.symm, this.2⟩

theorem indexByte_none {c : UInt8} : ∀ {buf : Bytes}, indexByte c buf = none → c ∉ buf
  | [], _ => by simp
  | b :: r, h => by
    rw [indexByte] at h
    by_cases hb : b = c
    · simp [hb] at h
    · rw [if_neg hb] at h
      simp only [Option.map_eq_none_iff] at h
      simp only [List.mem_cons, not_or]
      exact ⟨fun e => hb e.symm, indexByte_none h⟩

theorem lastIndexByte_some {c : UInt8} : ∀ {buf : Bytes} {i : Nat}, lastIndexByte c buf = some i →
    buf = buf.take i ++ c :: buf.drop (i + 1) ∧ c ∉ buf.drop (i + 1)
  | [], _, h => by simp [lastIndexByte] at h
  | b :: r, i, h => by
    rw [lastIndexByte] at h
    cases hi : lastIndexByte c r with
    | some j =>
      simp only [hi, Option.some.injEq] at h
      subst h
      have := lastIndexByte_some hi
      refine ⟨?_, by simpa using this.2⟩
      simp only [List.take_succ_cons, List.drop_succ_cons, List.cons_append]
      exact congrArg _ this.1
    | none =>
      simp only [hi] at h
      by_cases hb : b = c
      · rw [if_pos hb] at h
        obtain rfl := Option.some.inj h
        refine ⟨by simp [hb], ?_⟩
        simpa using lastIndexByte_none' hi
      · simp [hb] at h
where
  lastIndexByte_none' {c : UInt8} : ∀ {buf : Bytes}, lastIndexByte c buf = none → c ∉ buf
  | [], _ => by simp
  | b :: r, h => by
    rw [lastIndexByte] at h
    cases hi : lastIndexByte c r with
    | some j => simp [hi] at h
    | none =>
      simp only [hi] at h
      by_cases hb : b = c
      · simp [hb] at h
      · simp only [List.mem_cons, not_or]
        exact ⟨fun e => hb e.symm, lastIndexByte_none' hi⟩

theorem takeWhile_all {α : Type} {p : α → Bool} : ∀ {l : List α}, (∀ x ∈ l, p x = true) → l.takeWhile p = l
  | [], _ => rfl
  | a :: l, h => by
    rw [List.takeWhile_cons, if_pos (h a (by simp)), takeWhile_all (fun x hx => h x (by simp [hx]))]

theorem visible_noCR {l : Bytes} (h : cr ∉ l) : visible l = l := by
  rw [visible, takeWhile_all, List.reverse_reverse]
  intro x hx
  simp only [ne_eq, decide_not, Bool.not_eq_eq_eq_not, Bool.not_true, decide_eq_false_iff_not]
  rintro rfl
  exact h (by simpa using hx)

theorem visible_cr {a l : Bytes} (h : cr ∉ l) : visible (a ++ cr :: l) = l := by
  rw [visible, List.reverse_append, List.reverse_cons, List.append_assoc, List.takeWhile_append_of_pos, List.singleton_append, List.takeWhile_cons_of_neg]
  · simp
  · simp
  · intro x hx
    simp only [ne_eq, decide_not, Bool.not_eq_eq_eq_not, Bool.not_true, decide_eq_false_iff_not]
    rintro rfl
    exact h (by simpa using hx)

theorem resolveCR_eq (l : Bytes) : resolveCR l = visible l := by
  rw [resolveCR]
  split
  · next i hi =>
    have h := lastIndexByte_some hi
    refine Eq.trans ?_ (congrArg visible h.1.symm)
    rw [visible_cr h.2]
  · next hi => rw [visible_noCR (lastIndexByte_some.lastIndexByte_none' hi)]

theorem IsSplit.unique' : ∀ {ls ls' : List Bytes} {rest rest' : Bytes},
    ls.flatMap (· ++ [nl]) ++ rest = ls'.flatMap (· ++ [nl]) ++ rest' → (∀ l ∈ ls, nl ∉ l) → (∀ l ∈ ls', nl ∉ l) →
    nl ∉ rest → nl ∉ rest' → ls = ls' ∧ rest = rest'
  | [], [], _, _, h, _, _, _, _ => ⟨rfl, by simpa using h⟩
  | [], l' :: ls', rest, rest', h, _, _, h3, _ => by
    exfalso
    apply h3
    simp only [List.flatMap_nil, List.nil_append] at h
    rw [h]; simp
  | l :: ls, [], rest, rest', h, _, _, _, h4 => by
    exfalso
    apply h4
    simp only [List.flatMap_nil, List.nil_append] at h
    rw [← h]; simp
  | l :: ls, l' :: ls', rest, rest', h, h1, h2, h3, h4 => by
    simp only [List.flatMap_cons, List.append_assoc, List.cons_append, List.nil_append] at h
    have key : ∀ {a b : Bytes} {x y : Bytes}, nl ∉ a → nl ∉ b → a ++ nl :: x = b ++ nl :: y → a = b ∧ x = y := by
      intro a
      induction a with
      | nil =>
        intro b x y _ hb he
        cases b with
        | nil => exact ⟨rfl, by simpa using he⟩
        | cons c b =>
          simp only [List.nil_append, List.cons_append, List.cons.injEq] at he
          exact absurd (by simp [he.1]) hb
      | cons c a ih =>
        intro b x y ha hb he
        cases b with
        | nil =>
          simp only [List.nil_append, List.cons_append, List.cons.injEq] at he
          exact absurd (by simp [he.1]) ha
        | cons d b =>
          simp only [List.cons_append, List.cons.injEq] at he
          simp only [List.mem_cons, not_or] at ha hb
          obtain ⟨e1, e2⟩ := ih ha.2 hb.2 he.2
          exact ⟨by rw [he.1, e1], e2⟩
    obtain ⟨e1, e2⟩ := key (h1 l (by simp)) (h2 l' (by simp)) h
    obtain ⟨e3, e4⟩ := IsSplit.unique' e2 (fun x hx => h1 x (by simp [hx])) (fun x hx => h2 x (by simp [hx])) h3 h4
    exact ⟨by rw [e1, e3], e4⟩

theorem isSplit_unique {bs : Bytes} {ls ls' : List Bytes} {rest rest' : Bytes} (h : IsSplit bs ls rest)
    (h' : IsSplit bs ls' rest') : ls = ls' ∧ rest = rest' :=
  IsSplit.unique' (h.1.symm.trans h'.1) h.2.1 h'.2.1 h.2.2 h'.2.2

theorem processLoop_split {L : Type} (clean : Bytes → L) : ∀ (fuel : Nat) (buf : Bytes), buf.length < fuel →
    ∃ raw, IsSplit buf raw (processLoop clean fuel buf).2 ∧
      (processLoop clean fuel buf).1 = raw.map (fun l => clean (visible l))
  | 0, _, h => absurd h (Nat.not_lt_zero _)
  | fuel + 1, buf, h => by
    rw [processLoop]
    by_cases hb : buf = []
    · rw [if_pos hb]
      exact ⟨[], ⟨by simp [hb], by simp, by simp⟩, rfl⟩
    · rw [if_neg hb]
      split
      · next hi => exact ⟨[], ⟨by simp, by simp, indexByte_none hi⟩, rfl⟩
      · next i hi =>
        have h1 := indexByte_some hi
        have hl : (buf.drop (i + 1)).length < fuel := by
          have : 0 < buf.length := List.length_pos_iff.mpr hb
          rw [List.length_drop]; omega
        obtain ⟨raw, hs, he⟩ := processLoop_split clean fuel _ hl
        refine ⟨buf.take i :: raw, ⟨?_, ?_, hs.2.2⟩, ?_⟩
        · have hs1 := hs.1
          refine h1.1.trans ?_
          simp only [List.flatMap_cons, List.append_assoc, List.cons_append, List.nil_append]
          rw [← hs1]
        · intro l hl
          rcases List.mem_cons.mp hl with rfl | hl
          · exact h1.2
          · exact hs.2.1 l hl
        · rw [List.map_cons, ← he, resolveCR_eq]

theorem process_split {L : Type} (clean : Bytes → L) (part data : Bytes) :
    ∃ raw, IsSplit (part ++ data) raw (process clean part data).1 ∧
      (process clean part data).2 = raw.map (fun l => clean (visible l)) :=
  processLoop_split clean _ _ (Nat.lt_succ_self _)

theorem flush_lines {L : Type} (clean : Bytes → L) (part : Bytes) : (flush clean part).1 = [] ∧
    (flush clean part).2 = (if part = [] then [] else [part]).map (fun l => clean (visible l)) := by
  rw [flush]
  by_cases h : part = []
  · simp [h]
  · simp [h, resolveCR_eq]

theorem writeAll_split {L : Type} (clean : Bytes → L) : ∀ (chunks : List Bytes) (part : Bytes), nl ∉ part →
    ∃ raw, IsSplit (part ++ chunks.flatten) raw (writeAll clean part chunks).1 ∧
      (writeAll clean part chunks).2 = raw.map (fun l => clean (visible l))
  | [], part, hp => ⟨[], ⟨by simp [writeAll], by simp, by simpa [writeAll] using hp⟩, rfl⟩
  | d :: ds, part, hp => by
    obtain ⟨r1, s1, e1⟩ := process_split clean part d
    obtain ⟨r2, s2, e2⟩ := writeAll_split clean ds _ s1.2.2
    refine ⟨r1 ++ r2, ⟨?_, ?_, s2.2.2⟩, ?_⟩
    · have h1 := s1.1
      have h2 := s2.1
      simp only [writeAll, List.flatten_cons, List.flatMap_append]
      rw [← List.append_assoc, h1, List.append_assoc, h2, List.append_assoc]
    · intro l hl
      rcases List.mem_append.mp hl with hl | hl
      · exact s1.2.1 l hl
      · exact s2.2.1 l hl
    · rw [writeAll, e1, List.map_append]
      dsimp only
      rw [e2]

/-! ### Cleaning -/

theorem isUnsafeControl_iff (c : Char) : isUnsafeControl c = true ↔ isC0 c := by
  simp [isUnsafeControl, isC0, and_assoc]

theorem stripControlChars_eq (s : Str) : stripControlChars s = s.filter (fun r => !isUnsafeControl r) := by
  rw [stripControlChars]
  split
  · next h =>
    rw [List.filter_eq_self.mpr]
    intro a ha
    simp only [Bool.not_eq_true', List.any_eq_false] at h
    simpa using h a ha
  · rfl

theorem mem_stripControlChars {s : Str} {c : Char} : c ∈ stripControlChars s ↔ c ∈ s ∧ ¬ isC0 c := by
  rw [stripControlChars_eq, List.mem_filter, ← isUnsafeControl_iff]
  simp

theorem strip_of_clean {s : Str} (h : ∀ c ∈ s, ¬ isC0 c) : stripControlChars s = s := by
  rw [stripControlChars_eq, List.filter_eq_self]
  intro a ha
  have := h a ha
  rw [← isUnsafeControl_iff] at this
  simpa using this

theorem sanitizeLoop_pieces {dec : Decoder} (hl : Lawful dec) : ∀ (fuel : Nat) (input : Str),
    ∃ ps : List Str, sanitizeLoop dec fuel 0 input = ps.flatten ∧ ∀ p ∈ ps, '\x1b' ∉ p ∨ IsColour dec p
  | 0, _ => ⟨[], rfl, by simp⟩
  | fuel + 1, input => by
    rw [sanitizeLoop]
    by_cases hi : input = []
    · rw [if_pos hi]; exact ⟨[], rfl, by simp⟩
    rw [if_neg hi]
    dsimp only
    split
    · exact ⟨[], rfl, by simp⟩
    · next hz =>
      have rest : ∃ ps : List Str, sanitizeLoop dec fuel (dec 0 input).state (input.drop (dec 0 input).seq.length) = ps.flatten ∧
          ∀ p ∈ ps, '\x1b' ∉ p ∨ IsColour dec p := by
        rcases hl.resets input with h | h
        · rw [h]; exact sanitizeLoop_pieces hl fuel _
        · rw [h, List.drop_length]
          refine ⟨[], ?_, by simp⟩
          cases fuel with
          | zero => rfl
          | succ fuel => rw [sanitizeLoop, if_pos rfl]; rfl
      obtain ⟨ps, he, hp⟩ := rest
      refine ⟨_ :: ps, by rw [List.flatten_cons, he], ?_⟩
      intro p hm
      rcases List.mem_cons.mp hm with rfl | hm
      · by_cases hc : hasCsiPrefix (dec 0 input).seq = true
        · rw [if_pos hc]
          by_cases hM : (dec 0 input).isM = true
          · rw [if_pos hM]
            right
            refine ⟨input, hM, rfl, ?_⟩
            have hcc := hl.control input hc
            generalize (dec 0 input).seq = q at *
            revert hc
            rw [hasCsiPrefix.eq_def]
            split
            · intro _
              refine ⟨_, rfl, ?_⟩
              rw [List.tail_cons, List.mem_cons, not_or] at hcc
              exact hcc.2
            · intro h; cases h
          · rw [if_neg hM]; left; simp
        · rw [if_neg hc]
          split
          · next hh =>
            left
            intro hm
            have := hl.text input (by simpa using hh) _ hm
            exact absurd this (by decide)
          · left; simp
      · exact hp p hm

theorem flatten_filter (f : Char → Bool) (ps : List Str) : ps.flatten.filter f = (ps.map (·.filter f)).flatten := by
  induction ps with
  | nil => rfl
  | cons p ps ih => rw [List.flatten_cons, List.filter_append, List.map_cons, List.flatten_cons, ih]

/-! ### Cleaning twice -/

/-- text with colours as a decoder reads it -/
inductive Tidy (dec : Decoder) : Str → Prop
  | nil : Tidy dec []
  | char {c t} (hc : introduces c = false) (h : Tidy dec t) : Tidy dec (c :: t)
  | colour {p t} (hp : hasCsiPrefix p = true) (hd : ∀ t, dec 0 (p ++ t) = ⟨p, true, 0⟩) (hc : ∀ c ∈ p, isUnsafeControl c = false)
      (h : Tidy dec t) : Tidy dec (p ++ t)

theorem csi_cons {p : Str} (h : hasCsiPrefix p = true) : ∃ c r, p = c :: r ∧ introduces c = true := by
  unfold hasCsiPrefix at h
  split at h
  · exact ⟨_, _, rfl, rfl⟩
  · cases h

theorem tidy_text {dec : Decoder} {q t : Str} (hq : ∀ c ∈ q, introduces c = false) (h : Tidy dec t) : Tidy dec (q ++ t) := by
  induction q with
  | nil => exact h
  | cons c q ih => exact .char (hq c List.mem_cons_self) (ih (fun d hd => hq d (List.mem_cons_of_mem _ hd)))

theorem tidy_drop {dec : Decoder} : ∀ {q t : Str}, (∀ c ∈ q, introduces c = false) → Tidy dec (q ++ t) → Tidy dec t := by
  intro q
  induction q with
  | nil => intro t _ h; exact h
  | cons c q ih =>
    intro t hq h
    refine ih (fun d hd => hq d (List.mem_cons_of_mem _ hd)) ?_
    have hc := hq c List.mem_cons_self
    generalize hs : c :: q ++ t = s at h
    cases h with
    | nil => cases hs
    | char _ h => cases hs; exact h
    | colour hp _ _ _ =>
      obtain ⟨d, r, rfl, hd⟩ := csi_cons hp
      injection hs with e _
      rw [← e, hc] at hd
      cases hd

theorem tidy_filter {dec : Decoder} {s : Str} (h : Tidy dec s) : Tidy dec (s.filter (fun r => !isUnsafeControl r)) := by
  induction h with
  | nil => exact .nil
  | @char c t hc _ ih =>
    rw [List.filter_cons]
    split
    · exact .char hc ih
    · exact ih
  | @colour p t hp hd hc _ ih =>
    rw [List.filter_append, List.filter_eq_self.mpr (fun c h => by rw [hc c h]; rfl)]
    exact .colour hp hd hc ih

theorem loop_tidy {dec : Decoder} (hr : Regular dec) : ∀ (fuel : Nat) (input : Str), Tidy dec (sanitizeLoop dec fuel 0 input) := by
  intro fuel
  induction fuel with
  | zero => intro input; exact .nil
  | succ fuel ih =>
    intro input
    rw [sanitizeLoop]
    by_cases hi : input = []
    · rw [if_pos hi]; exact .nil
    rw [if_neg hi]
    dsimp only
    split
    · exact .nil
    have rest : Tidy dec (sanitizeLoop dec fuel (dec 0 input).state (input.drop (dec 0 input).seq.length)) := by
      rcases hr.resets input with h | h
      · rw [h]; exact ih _
      · rw [h, List.drop_length]
        cases fuel with
        | zero => exact .nil
        | succ fuel => rw [sanitizeLoop, if_pos rfl]; exact .nil
    by_cases h1 : hasCsiPrefix (dec 0 input).seq = true
    · rw [if_pos h1]
      by_cases h2 : (dec 0 input).isM = true
      · rw [if_pos h2]
        obtain ⟨h3, h4⟩ := hr.colour input h1 h2
        exact .colour h1 h3 h4 rest
      · rw [if_neg h2]; exact rest
    · rw [if_neg h1]
      split
      · next h =>
        exact tidy_text (hr.text input (by simpa using h)) rest
      · exact rest

theorem loop_keeps {dec : Decoder} (hr : Regular dec) : ∀ (fuel : Nat) (input : Str), Tidy dec input → input.length < fuel →
    sanitizeLoop dec fuel 0 input = input := by
  intro fuel
  induction fuel with
  | zero => intro input _ h; cases h
  | succ fuel ih =>
    intro input ht hf
    rw [sanitizeLoop]
    by_cases hi : input = []
    · rw [if_pos hi, hi]
    rw [if_neg hi]
    dsimp only
    obtain ⟨hne, hpre⟩ := hr.cut input hi
    have hlen : 0 < (dec 0 input).seq.length := List.length_pos_iff.mpr hne
    rw [if_neg (by omega)]
    cases ht with
    | nil => exact absurd rfl hi
    | @colour p t hp hd hc h =>
      rw [hd t]
      dsimp only
      obtain ⟨c, r, hpc, -⟩ := csi_cons hp
      rw [if_pos hp, if_pos rfl, List.drop_left, ih t h (by rw [List.length_append, hpc] at hf; simp at hf; omega)]
    | @char c t hc h =>
      obtain ⟨rest, hrest⟩ := hpre
      have hq : ∀ d ∈ (dec 0 (c :: t)).seq, introduces d = false := by
        refine hr.text _ ?_
        cases hs : (dec 0 (c :: t)).seq with
        | nil => rfl
        | cons e q =>
          rw [hs] at hrest
          cases hrest
          unfold hasEscPrefix
          split
          · next e1 => cases e1; exact absurd hc (by decide)
          · rfl
      have hh : hasCsiPrefix (dec 0 (c :: t)).seq = false ∧ hasEscPrefix (dec 0 (c :: t)).seq = false := by
        generalize (dec 0 (c :: t)).seq = q at *
        cases q with
        | nil => exact ⟨rfl, rfl⟩
        | cons e q =>
          have he := hq e List.mem_cons_self
          refine ⟨?_, ?_⟩
          · cases h1 : hasCsiPrefix (e :: q) with
            | false => rfl
            | true =>
              obtain ⟨_, _, e1, e2⟩ := csi_cons h1
              cases e1
              rw [he] at e2
              cases e2
          · unfold hasEscPrefix
            split
            · next e1 => cases e1; exact absurd he (by decide)
            · rfl
      rw [if_neg (by rw [hh.1]; decide), if_pos (by rw [hh.2]; rfl)]
      have hdrop : (c :: t).drop (dec 0 (c :: t)).seq.length = rest := by
        have := congrArg (List.drop (dec 0 (c :: t)).seq.length) hrest
        rw [List.drop_left] at this
        exact this.symm
      have htidy : Tidy dec rest := tidy_drop hq (by rw [hrest]; exact .char hc h)
      have hl := congrArg List.length hrest
      rw [List.length_append] at hl
      rw [hdrop]
      rcases hr.resets (c :: t) with h0 | h0
      · rw [h0, ih rest htidy (by omega), hrest]
      · have : rest = [] := by
          rw [h0] at hl
          exact List.eq_nil_of_length_eq_zero (by omega)
        subst this
        rw [List.append_nil] at hrest
        rw [hrest]
        cases fuel with
        | zero => simp [sanitizeLoop]
        | succ fuel => simp [sanitizeLoop]

end Bab
