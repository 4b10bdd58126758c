import Verif.Model.Interpolate
import Verif.Spec.Interpolate
/-
Helper lemmas for Props/Interpolate.
-/

namespace Bab
open Spec

theorem dropWhile_stop {p : Char → Bool} {a b : Str} (ha : ∀ x ∈ a, p x = true)
    (hb : ∀ c r, b = c :: r → p c = false) : (a ++ b).dropWhile p = b := by
  induction a with
  | nil =>
    cases b with
    | nil => rfl
    | cons c r => simp [hb c r rfl]
  | cons x a ih =>
    have hx := ha x (by simp)
    simp only [List.cons_append, List.dropWhile, hx]
    exact ih (fun y hy => ha y (by simp [hy]))

theorem takeWhile_stop {p : Char → Bool} {a b : Str} (ha : ∀ x ∈ a, p x = true)
    (hb : ∀ c r, b = c :: r → p c = false) : (a ++ b).takeWhile p = a := by
  induction a with
  | nil =>
    cases b with
    | nil => rfl
    | cons c r => simp [hb c r rfl]
  | cons x a ih =>
    have hx := ha x (by simp)
    simp only [List.cons_append, List.takeWhile, hx]
    rw [ih (fun y hy => ha y (by simp [hy]))]

theorem mem_takeWhile {p : Char → Bool} {a : Str} : ∀ x ∈ a.takeWhile p, p x = true := by
  intro x hx
  induction a with
  | nil => simp at hx
  | cons y a ih =>
    simp only [List.takeWhile] at hx
    split at hx
    · rcases List.mem_cons.mp hx with h | h
      · subst h; assumption
      · exact ih h
    · simp at hx

theorem isReSpace_iff (c : Char) : isReSpace c = true ↔ Blank c := by
  simp [isReSpace, Blank, or_assoc]

theorem isNameStart_iff (c : Char) : isNameStart c = true ↔ Letter c := by
  simp [isNameStart, Letter, or_assoc]

theorem isNameChar_iff (c : Char) : isNameChar c = true ↔ NameChar c := by
  simp [isNameChar, NameChar, isNameStart_iff, or_assoc]

theorem blank_not_nameChar {c : Char} (h : Blank c) : isNameChar c = false := by
  simp only [Blank, List.mem_cons, List.not_mem_nil, or_false] at h
  rcases h with h | h | h | h | h <;> subst h <;> decide

theorem letter_not_blank {c : Char} (h : Letter c) : isReSpace c = false := by
  cases hb : isReSpace c with
  | false => rfl
  | true =>
    have h1 := blank_not_nameChar ((isReSpace_iff c).mp hb)
    have h2 := (isNameChar_iff c).mpr (Or.inl h)
    simp [h1] at h2

theorem isName_all {n : Str} (h : IsName n) : ∀ x ∈ n, isNameChar x = true := by
  obtain ⟨c, r, rfl, hc, hr⟩ := h
  intro x hx
  rcases List.mem_cons.mp hx with h | h
  · subst h; exact (isNameChar_iff _).mpr (Or.inl hc)
  · exact (isNameChar_iff _).mpr (hr x h)

theorem takeWhile_append_dropWhile' (p : Char → Bool) (l : Str) :
    l.takeWhile p ++ l.dropWhile p = l := List.takeWhile_append_dropWhile

/-- The matcher finds exactly the references of the spec. -/
theorem matchRef_iff (s n rest : Str) :
    matchRef s = some (n, rest) ↔ ∃ t, IsRef t n ∧ s = t ++ rest := by
  constructor
  · intro h
    unfold matchRef at h
    split at h
    · rename_i r
      simp only at h
      split at h
      · cases h
      · rename_i c r' hr1
        split at h
        · rename_i hc
          split at h
          · rename_i r2 hr2
            simp only [Option.some.injEq, Prod.mk.injEq] at h
            obtain ⟨hn, hrest⟩ := h
            subst hrest
            refine ⟨"${{".toList ++ r.takeWhile isReSpace ++ n ++
              (List.dropWhile isNameChar (List.dropWhile isReSpace r)).takeWhile isReSpace ++ "}}".toList,
              ⟨_, _, rfl, ?_, ?_, ?_⟩, ?_⟩
            · refine ⟨c, r'.takeWhile isNameChar, ?_, (isNameStart_iff c).mp hc, ?_⟩
              · rw [← hn, hr1]
                simp [isNameChar, hc]
              · intro x hx; exact (isNameChar_iff x).mp (mem_takeWhile x hx)
            · intro x hx; exact (isReSpace_iff x).mp (mem_takeWhile x hx)
            · intro x hx; exact (isReSpace_iff x).mp (mem_takeWhile x hx)
            · have e1 := takeWhile_append_dropWhile' isReSpace r
              have e2 := takeWhile_append_dropWhile' isNameChar (List.dropWhile isReSpace r)
              have e3 := takeWhile_append_dropWhile' isReSpace
                (List.dropWhile isNameChar (List.dropWhile isReSpace r))
              rw [hr2] at e3
              have : "${{".toList ++ r = '$' :: '{' :: '{' :: r := rfl
              rw [← this]
              conv => lhs; rw [← e1, ← e2, ← e3]
              rw [hn]
              simp [List.append_assoc]
          · cases h
        · cases h
    · cases h
  · rintro ⟨t, ⟨ws1, ws2, rfl, hn, h1, h2⟩, rfl⟩
    have hname := isName_all hn
    obtain ⟨c, r, rfl, hc, hr⟩ := hn
    have e : "${{".toList ++ ws1 ++ c :: r ++ ws2 ++ "}}".toList ++ rest
        = '$' :: '{' :: '{' :: (ws1 ++ ((c :: r) ++ (ws2 ++ '}' :: '}' :: rest))) := by
      simp
    rw [e]
    unfold matchRef
    simp only
    have d1 : (ws1 ++ ((c :: r) ++ (ws2 ++ '}' :: '}' :: rest))).dropWhile isReSpace
        = (c :: r) ++ (ws2 ++ '}' :: '}' :: rest) := by
      apply dropWhile_stop
      · intro x hx; exact (isReSpace_iff x).mpr (h1 x hx)
      · intro c' r' he
        simp at he
        rw [← he.1]
        exact letter_not_blank hc
    have stop : ∀ c' r', ws2 ++ '}' :: '}' :: rest = c' :: r' → isNameChar c' = false := by
      intro c' r' he
      cases ws2 with
      | nil => simp at he; rw [← he.1]; decide
      | cons w ws => simp at he; rw [← he.1]; exact blank_not_nameChar (h2 w (by simp))
    have d2 : ((c :: r) ++ (ws2 ++ '}' :: '}' :: rest)).dropWhile isNameChar
        = ws2 ++ '}' :: '}' :: rest := dropWhile_stop hname stop
    have d3 : ((c :: r) ++ (ws2 ++ '}' :: '}' :: rest)).takeWhile isNameChar
        = c :: r := takeWhile_stop hname stop
    have d4 : (ws2 ++ '}' :: '}' :: rest).dropWhile isReSpace = '}' :: '}' :: rest := by
      apply dropWhile_stop
      · intro x hx; exact (isReSpace_iff x).mpr (h2 x hx)
      · intro c' r' he; simp at he; rw [← he.1]; decide
    rw [d1, d2, d3, d4]
    simp [(isNameStart_iff c).mpr hc]

theorem isRef_ne_nil {t n : Str} (h : IsRef t n) : ∃ r, t = '$' :: '{' :: '{' :: r := by
  obtain ⟨w1, w2, rfl, _⟩ := h
  exact ⟨w1 ++ n ++ w2 ++ "}}".toList, by simp⟩

theorem isRef_length {t n : Str} (h : IsRef t n) : 0 < t.length := by
  obtain ⟨r, rfl⟩ := isRef_ne_nil h; simp

/-- no dollar sign after the first character of a reference -/
theorem isRef_no_dollar {t n : Str} (h : IsRef t n) : ∃ r, t = '$' :: r ∧ '$' ∉ r := by
  obtain ⟨w1, w2, rfl, hn, h1, h2⟩ := h
  refine ⟨'{' :: '{' :: (w1 ++ n ++ w2 ++ "}}".toList), by simp, ?_⟩
  simp only [List.mem_cons, List.mem_append, not_or]
  refine ⟨by decide, by decide, ⟨⟨?_, ?_⟩, ?_⟩, by decide⟩
  · intro hm; have := (isReSpace_iff _).mpr (h1 _ hm); exact absurd this (by decide)
  · intro hm; exact absurd (isName_all hn _ hm) (by decide)
  · intro hm; have := (isReSpace_iff _).mpr (h2 _ hm); exact absurd this (by decide)

theorem isRef_no_nul {t n : Str} (h : IsRef t n) : '\x00' ∉ t := by
  obtain ⟨w1, w2, rfl, hn, h1, h2⟩ := h
  simp only [List.mem_append, not_or]
  refine ⟨⟨⟨⟨by decide, ?_⟩, ?_⟩, ?_⟩, by decide⟩
  · intro hm; have := (isReSpace_iff _).mpr (h1 _ hm); exact absurd this (by decide)
  · intro hm; exact absurd (isName_all hn _ hm) (by decide)
  · intro hm; have := (isReSpace_iff _).mpr (h2 _ hm); exact absurd this (by decide)

/-! ### skip counters -/

theorem substRefs_skip (look : Str → Except Err Str) (n : Nat) (s : Str) :
    substRefs look n s = substRefs look 0 (s.drop n) := by
  induction s generalizing n with
  | nil => cases n <;> simp [substRefs]
  | cons c r ih =>
    cases n with
    | zero => rfl
    | succ n => simp only [substRefs, List.drop_succ_cons]; exact ih n

theorem replaceAll_skip (old new : Str) (n : Nat) (s : Str) :
    replaceAll old new n s = replaceAll old new 0 (s.drop n) := by
  induction s generalizing n with
  | nil => cases n <;> simp [replaceAll]
  | cons c r ih =>
    cases n with
    | zero => rfl
    | succ n => simp only [replaceAll, List.drop_succ_cons]; exact ih n

theorem extractVarRefs_skip (n : Nat) (s : Str) :
    extractVarRefs n s = extractVarRefs 0 (s.drop n) := by
  induction s generalizing n with
  | nil => cases n <;> simp [extractVarRefs]
  | cons c r ih =>
    cases n with
    | zero => rfl
    | succ n => simp only [extractVarRefs, List.drop_succ_cons]; exact ih n

theorem drop_match {c : Char} {r t rest : Str} (ht : 0 < t.length) (h : c :: r = t ++ rest) :
    r.drop ((c :: r).length - rest.length - 1) = rest := by
  cases t with
  | nil => simp at ht
  | cons d t =>
    simp at h
    obtain ⟨_, rfl⟩ := h
    simp only [List.length_cons, List.length_append]
    have : t.length + rest.length + 1 - rest.length - 1 = t.length := by omega
    rw [this]
    simp

theorem substRefs_ref_ok {look : Str → Except Err Str} {t n rest v : Str} (ht : IsRef t n)
    (hv : look n = .ok v) :
    substRefs look 0 (t ++ rest) =
      (v ++ (substRefs look 0 rest).1, (substRefs look 0 rest).2) := by
  have hl := isRef_length ht
  obtain ⟨r, hr⟩ := isRef_ne_nil ht
  have hm : matchRef (t ++ rest) = some (n, rest) := (matchRef_iff _ _ _).mpr ⟨t, ht, rfl⟩
  generalize hs : t ++ rest = s at hm
  cases s with
  | nil => rw [hr] at hs; simp at hs
  | cons c r' =>
    rw [substRefs, hm]
    simp only [hv]
    rw [substRefs_skip, drop_match hl hs.symm]

theorem substRefs_ref_err {look : Str → Except Err Str} {t n rest : Str} {e : Err} (ht : IsRef t n)
    (hv : look n = .error e) :
    (substRefs look 0 (t ++ rest)).2 = e :: (substRefs look 0 rest).2 := by
  have hl := isRef_length ht
  obtain ⟨r, hr⟩ := isRef_ne_nil ht
  have hm : matchRef (t ++ rest) = some (n, rest) := (matchRef_iff _ _ _).mpr ⟨t, ht, rfl⟩
  generalize hs : t ++ rest = s at hm
  cases s with
  | nil => rw [hr] at hs; simp at hs
  | cons c r' =>
    rw [substRefs, hm]
    simp only [hv]
    rw [substRefs_skip, drop_match hl hs.symm]

theorem substRefs_chr {look : Str → Except Err Str} {c : Char} {r : Str}
    (h : matchRef (c :: r) = none) :
    substRefs look 0 (c :: r) = (c :: (substRefs look 0 r).1, (substRefs look 0 r).2) := by
  rw [substRefs, h]

theorem extract_ref {t n rest : Str} (ht : IsRef t n) :
    extractVarRefs 0 (t ++ rest) = n :: extractVarRefs 0 rest := by
  have hl := isRef_length ht
  obtain ⟨r, hr⟩ := isRef_ne_nil ht
  have hm : matchRef (t ++ rest) = some (n, rest) := (matchRef_iff _ _ _).mpr ⟨t, ht, rfl⟩
  generalize hs : t ++ rest = s at hm
  cases s with
  | nil => rw [hr] at hs; simp at hs
  | cons c r' =>
    rw [extractVarRefs, hm]
    simp only
    rw [extractVarRefs_skip, drop_match hl hs.symm]

theorem extract_chr {c : Char} {r : Str} (h : matchRef (c :: r) = none) :
    extractVarRefs 0 (c :: r) = extractVarRefs 0 r := by
  rw [extractVarRefs, h]

/-! ### escapes -/

theorem replaceEscapes_esc (r : Str) :
    replaceEscapes (escape ++ r) = escapePlaceholder ++ replaceEscapes r := by
  show replaceEscapes ('$' :: '$' :: '{' :: '{' :: r) = _
  rw [replaceEscapes]

theorem replaceEscapes_chr {c : Char} {r : Str} (h : ¬ ∃ r', c :: r = escape ++ r') :
    replaceEscapes (c :: r) = c :: replaceEscapes r := by
  rw [replaceEscapes.eq_def]
  split
  · rename_i r' he
    exact absurd ⟨r', he⟩ h
  · rename_i he; simp at he; rw [he.1, he.2]
  · rename_i he; simp at he

theorem not_escape_of_ne {c : Char} {r : Str} (h : c ≠ '$') : ¬ ∃ r', c :: r = escape ++ r' := by
  rintro ⟨r', he⟩
  have : escape ++ r' = '$' :: '$' :: '{' :: '{' :: r' := rfl
  rw [this] at he
  simp at he
  exact h he.1

theorem replaceEscapes_no_dollar {a r : Str} (h : '$' ∉ a) :
    replaceEscapes (a ++ r) = a ++ replaceEscapes r := by
  induction a with
  | nil => rfl
  | cons c a ih =>
    simp at h
    rw [List.cons_append, replaceEscapes_chr (not_escape_of_ne (Ne.symm h.1)), ih h.2]
    rfl

theorem replaceEscapes_ref {t n r : Str} (h : IsRef t n) :
    replaceEscapes (t ++ r) = t ++ replaceEscapes r := by
  obtain ⟨t', rfl, hd⟩ := isRef_no_dollar h
  obtain ⟨q, hq⟩ := isRef_ne_nil h
  simp at hq
  rw [List.cons_append, replaceEscapes_chr, replaceEscapes_no_dollar hd]
  · rfl
  · rintro ⟨r', he⟩
    have : escape ++ r' = '$' :: '$' :: '{' :: '{' :: r' := rfl
    rw [this, hq] at he
    simp at he

theorem placeholder_head : ∃ r, escapePlaceholder = '\x00' :: r := ⟨_, rfl⟩

/-- A prefix without NUL of the escaped text was there before escaping. -/
theorem replaceEscapes_prefix {s a t : Str} (h : replaceEscapes s = a ++ t) (ha : '\x00' ∉ a) :
    ∃ s', s = a ++ s' ∧ replaceEscapes s' = t := by
  induction a generalizing s with
  | nil => exact ⟨s, rfl, h⟩
  | cons x a ih =>
    simp at ha
    by_cases he : ∃ r', s = escape ++ r'
    · obtain ⟨r', rfl⟩ := he
      rw [replaceEscapes_esc] at h
      obtain ⟨q, hq⟩ := placeholder_head
      rw [hq] at h
      simp at h
      exact absurd h.1 ha.1
    · cases s with
      | nil => simp [replaceEscapes] at h
      | cons c r =>
        rw [replaceEscapes_chr he] at h
        simp at h
        obtain ⟨s', hs, ht⟩ := ih h.2 ha.2
        exact ⟨s', by rw [h.1, hs]; rfl, ht⟩

theorem matchRef_replaceEscapes_none {s : Str} (h2 : ¬ ∃ t n r', IsRef t n ∧ s = t ++ r') :
    matchRef (replaceEscapes s) = none := by
  cases hm : matchRef (replaceEscapes s) with
  | none => rfl
  | some p =>
    obtain ⟨n, rest⟩ := p
    obtain ⟨t, ht, he⟩ := (matchRef_iff _ _ _).mp hm
    obtain ⟨s', hs, _⟩ := replaceEscapes_prefix he (isRef_no_nul ht)
    exact absurd ⟨t, n, s', ht, hs⟩ h2

/-! ### the middle pass on a token list -/

/-- text after pass 2, if every reference has a value -/
def midText (val : Str → Option Str) : List Tok → Str
  | [] => []
  | .chr c :: ts => c :: midText val ts
  | .esc :: ts => escapePlaceholder ++ midText val ts
  | .ref n :: ts => (val n).getD [] ++ midText val ts

theorem substRefs_no_dollar {look : Str → Except Err Str} {a r : Str} (h : '$' ∉ a) :
    substRefs look 0 (a ++ r) = (a ++ (substRefs look 0 r).1, (substRefs look 0 r).2) := by
  induction a with
  | nil => rfl
  | cons c a ih =>
    simp at h
    have hm : matchRef (c :: (a ++ r)) = none := by
      cases hm : matchRef (c :: (a ++ r)) with
      | none => rfl
      | some p =>
        obtain ⟨t, ht, he⟩ := (matchRef_iff _ p.1 p.2).mp hm
        obtain ⟨q, rfl⟩ := isRef_ne_nil ht
        simp at he
        exact absurd he.1 (Ne.symm h.1)
    rw [List.cons_append, substRefs_chr hm, ih h.2]
    rfl

theorem extract_no_dollar {a r : Str} (h : '$' ∉ a) :
    extractVarRefs 0 (a ++ r) = extractVarRefs 0 r := by
  induction a with
  | nil => rfl
  | cons c a ih =>
    simp at h
    have hm : matchRef (c :: (a ++ r)) = none := by
      cases hm : matchRef (c :: (a ++ r)) with
      | none => rfl
      | some p =>
        obtain ⟨t, ht, he⟩ := (matchRef_iff _ p.1 p.2).mp hm
        obtain ⟨q, rfl⟩ := isRef_ne_nil ht
        simp at he
        exact absurd he.1 (Ne.symm h.1)
    rw [List.cons_append, extract_chr hm, ih h.2]

theorem placeholder_no_dollar : '$' ∉ escapePlaceholder := by decide

/-- errors of pass 2, by tokens -/
def tokErrs (look : Str → Except Err Str) (ns : List Str) : List Err :=
  ns.filterMap fun n => match look n with | .ok _ => none | .error e => some e

theorem substRefs_errs {look : Str → Except Err Str} {s : Str} {ts : List Tok} (h : Reads s ts) :
    (substRefs look 0 (replaceEscapes s)).2 = tokErrs look (refs ts) := by
  induction h with
  | nil => rfl
  | esc _ ih =>
    rw [replaceEscapes_esc, substRefs_no_dollar placeholder_no_dollar]
    exact ih
  | @ref t name r ts ht _ ih =>
    rw [replaceEscapes_ref ht]
    cases hl : look name with
    | ok v => rw [substRefs_ref_ok ht hl]; simp [refs, tokErrs, hl, ih]
    | error e => rw [substRefs_ref_err ht hl]; simp [refs, tokErrs, hl, ih]
  | chr h1 h2 _ ih =>
    have := matchRef_replaceEscapes_none h2
    rw [replaceEscapes_chr h1] at this ⊢
    rw [substRefs_chr this]
    exact ih

theorem substRefs_text {look : Str → Except Err Str} {val : Str → Option Str} {s : Str}
    {ts : List Tok} (h : Reads s ts)
    (hv : ∀ n ∈ refs ts, ∃ v, look n = .ok v ∧ val n = some v) :
    (substRefs look 0 (replaceEscapes s)).1 = midText val ts := by
  induction h with
  | nil => rfl
  | esc _ ih =>
    rw [replaceEscapes_esc, substRefs_no_dollar placeholder_no_dollar]
    simp only [midText]
    rw [ih hv]
  | @ref t name r ts ht _ ih =>
    rw [replaceEscapes_ref ht]
    obtain ⟨v, h1, h2⟩ := hv name (by simp [refs])
    rw [substRefs_ref_ok ht h1]
    simp only [midText, h2, Option.getD_some]
    rw [ih (fun n hn => hv n (by simp [refs, hn]))]
  | chr h1 h2 _ ih =>
    have := matchRef_replaceEscapes_none h2
    rw [replaceEscapes_chr h1] at this ⊢
    rw [substRefs_chr this]
    simp only [midText]
    rw [ih hv]

theorem replaceAll_no_nul {a r : Str} (h : '\x00' ∉ a) (new : Str) :
    replaceAll escapePlaceholder new 0 (a ++ r) = a ++ replaceAll escapePlaceholder new 0 r := by
  induction a with
  | nil => rfl
  | cons c a ih =>
    simp at h
    obtain ⟨q, hq⟩ := placeholder_head
    rw [List.cons_append, replaceAll]
    have : escapePlaceholder.isPrefixOf (c :: (a ++ r)) = false := by
      rw [hq]
      simp [List.isPrefixOf, h.1]
    rw [this]
    simp [ih h.2]

theorem replaceAll_placeholder (r new : Str) :
    replaceAll escapePlaceholder new 0 (escapePlaceholder ++ r)
      = new ++ replaceAll escapePlaceholder new 0 r := by
  have hp : escapePlaceholder.isPrefixOf (escapePlaceholder ++ r) = true := by
    rw [List.isPrefixOf_iff_prefix]; exact List.prefix_append _ _
  obtain ⟨q, hq⟩ := placeholder_head
  generalize hs : escapePlaceholder ++ r = s at hp
  cases s with
  | nil => rw [hq] at hs; simp at hs
  | cons c r' =>
    rw [replaceAll]
    simp only [hp, if_true]
    rw [replaceAll_skip]
    have : r'.drop (escapePlaceholder.length - 1) = r := by
      rw [hq] at hs ⊢
      simp at hs
      rw [← hs.2]
      simp
    rw [this]

theorem render_of_mid {val : Str → Option Str} {ts : List Tok} {new : Str}
    (hnew : new = "${{".toList)
    (hc : ∀ t ∈ ts, ∀ c, t = .chr c → c ≠ '\x00')
    (hv : ∀ n ∈ refs ts, ∃ v, val n = some v ∧ '\x00' ∉ v) :
    render val ts = some (replaceAll escapePlaceholder new 0 (midText val ts)) := by
  induction ts with
  | nil => rfl
  | cons t ts ih =>
    cases t with
    | chr c =>
      have hc' := hc (.chr c) (by simp) c rfl
      simp only [render, midText]
      rw [ih (fun t ht => hc t (by simp [ht])) hv]
      have := replaceAll_no_nul (a := [c]) (r := midText val ts) (by simpa using hc'.symm) new
      simp only [List.cons_append, List.nil_append] at this
      rw [this]; rfl
    | esc =>
      simp only [render, midText]
      rw [ih (fun t ht => hc t (by simp [ht])) hv, replaceAll_placeholder, ← hnew]; rfl
    | ref n =>
      obtain ⟨v, hv1, hv2⟩ := hv n (by simp [refs])
      simp only [render, midText, hv1, Option.getD_some]
      rw [ih (fun t ht => hc t (by simp [ht])) (fun m hm => hv m (by simp [refs, hm])),
        replaceAll_no_nul hv2]

/-! ### the tokenisation exists and is unique -/

theorem reads_exists (s : Str) : ∃ ts, Reads s ts := by
  generalize hl : s.length = l
  induction l using Nat.strongRecOn generalizing s with
  | _ l ih =>
    subst hl
    cases s with
    | nil => exact ⟨[], .nil⟩
    | cons c r =>
      by_cases he : ∃ r', c :: r = escape ++ r'
      · obtain ⟨r', he⟩ := he
        have hlt : r'.length < (c :: r).length := by rw [he]; simp [escape]; omega
        obtain ⟨ts, hts⟩ := ih r'.length hlt r' rfl
        rw [he]
        exact ⟨_, .esc hts⟩
      · by_cases hr : ∃ t n r', IsRef t n ∧ c :: r = t ++ r'
        · obtain ⟨t, n, r', ht, he⟩ := hr
          have hlt : r'.length < (c :: r).length := by
            rw [he]; have := isRef_length ht; simp; omega
          obtain ⟨ts, hts⟩ := ih r'.length hlt r' rfl
          rw [he]
          exact ⟨_, .ref ht hts⟩
        · obtain ⟨ts, hts⟩ := ih r.length (by simp) r rfl
          exact ⟨_, .chr he hr hts⟩

theorem escape_not_ref {r t n r' : Str} (ht : IsRef t n) : escape ++ r ≠ t ++ r' := by
  obtain ⟨q, rfl⟩ := isRef_ne_nil ht
  intro h
  have : escape ++ r = '$' :: '$' :: '{' :: '{' :: r := rfl
  rw [this] at h
  simp at h

theorem isRef_unique {t n r t' n' r' : Str} (h : IsRef t n) (h' : IsRef t' n')
    (he : t ++ r = t' ++ r') : n = n' ∧ r = r' := by
  have h1 := (matchRef_iff (t ++ r) n r).mpr ⟨t, h, rfl⟩
  have h2 := (matchRef_iff (t ++ r) n' r').mpr ⟨t', h', he⟩
  rw [h1] at h2
  simpa using h2

theorem reads_unique {s : Str} {ts ts' : List Tok} (h : Reads s ts) (h' : Reads s ts') :
    ts = ts' := by
  induction h generalizing ts' with
  | nil =>
    generalize hs : ([] : Str) = s at h'
    cases h' with
    | nil => rfl
    | esc _ => simp [escape] at hs
    | ref ht _ => obtain ⟨q, rfl⟩ := isRef_ne_nil ht; simp at hs
    | chr => simp at hs
  | @esc r ts hr ih =>
    generalize hs : escape ++ r = s at h'
    cases h' with
    | nil => simp [escape] at hs
    | @esc r2 ts2 hr2 => rw [List.append_cancel_left hs] at ih; rw [ih hr2]
    | ref ht _ => exact absurd hs (escape_not_ref ht)
    | chr h1 _ _ => exact absurd ⟨_, hs.symm⟩ h1
  | @ref t name r ts ht hr ih =>
    generalize hs : t ++ r = s at h'
    cases h' with
    | nil => obtain ⟨q, rfl⟩ := isRef_ne_nil ht; simp at hs
    | esc _ => exact absurd hs.symm (escape_not_ref ht)
    | @ref t2 n2 r2 ts2 ht2 hr2 =>
      obtain ⟨h1, h2⟩ := isRef_unique ht ht2 hs
      subst h1; subst h2
      rw [ih hr2]
    | chr _ h2 _ => exact absurd ⟨_, _, _, ht, hs.symm⟩ h2
  | @chr c r ts h1 h2 hr ih =>
    generalize hs : c :: r = s at h'
    cases h' with
    | nil => simp at hs
    | esc _ => exact absurd ⟨_, hs⟩ h1
    | ref ht _ => exact absurd ⟨_, _, _, ht, hs⟩ h2
    | @chr c2 r2 ts2 _ _ hr2 =>
      simp at hs
      obtain ⟨rfl, rfl⟩ := hs
      rw [ih hr2]

theorem reads_chr_mem {s : Str} {ts : List Tok} (h : Reads s ts) :
    ∀ t ∈ ts, ∀ c, t = .chr c → c ∈ s := by
  induction h with
  | nil => simp
  | esc _ ih =>
    intro t ht c hc
    rcases List.mem_cons.mp ht with h | h
    · subst h; cases hc
    · exact List.mem_append_right _ (ih t h c hc)
  | ref _ _ ih =>
    intro t ht c hc
    rcases List.mem_cons.mp ht with h | h
    · subst h; cases hc
    · exact List.mem_append_right _ (ih t h c hc)
  | chr _ _ _ ih =>
    intro t ht c hc
    rcases List.mem_cons.mp ht with h | h
    · rw [h] at hc; cases hc; simp
    · exact List.mem_cons_of_mem _ (ih t h c hc)

/-! ### lookup -/

theorem value_env (vars env : Str → Option Str) (x : Str) :
    value vars env ("env.".toList ++ x) = some ((env x).getD []) := rfl

theorem value_var (vars env : Str → Option Str) {n : Str} (h : ¬ ∃ x, n = "env.".toList ++ x) :
    value vars env n = vars n := by
  unfold value
  split
  · rename_i x; exact absurd ⟨x, rfl⟩ h
  · rfl

theorem resolveVar_value (ctx : Ctx) (n : Str) :
    resolveVar ctx n = match value ctx.vars.get? ctx.env n with
      | some v => .ok v
      | none => .error (.varNotFound n) := by
  unfold resolveVar
  by_cases h : ∃ x, n = "env.".toList ++ x
  · obtain ⟨x, rfl⟩ := h
    rw [if_pos (by rw [List.isPrefixOf_iff_prefix]; exact ⟨x, rfl⟩), value_env]
    rfl
  · rw [if_neg, value_var _ _ h]
    · cases ctx.vars.get? n <;> rfl
    · rw [List.isPrefixOf_iff_prefix]
      rintro ⟨x, hx⟩
      exact h ⟨x, hx.symm⟩

theorem tokErrs_resolve (ctx : Ctx) (ns : List Str) :
    tokErrs (resolveVar ctx) ns
      = (ns.filter (fun n => (value ctx.vars.get? ctx.env n).isNone)).map .varNotFound := by
  induction ns with
  | nil => rfl
  | cons n ns ih =>
    unfold tokErrs at ih ⊢
    rw [List.filterMap_cons, resolveVar_value]
    cases hv : value ctx.vars.get? ctx.env n with
    | some v => simp [hv, ih]
    | none => simp [hv, ih]

end Bab
