import Verif.Spec.Shell
/-
Lemmas for C105: harmless values leave the reading of a command as it is.
-/

namespace Bab.Spec.Shell
open Bab

theorem class_plain {v : Str} (h : Plain v) : ∀ c ∈ v, classOf c = .name ∨ classOf c = .other := by
  intro c hc
  rcases h c hc with h1 | h1
  · left; unfold classOf; rw [if_pos h1]
  · simp only [List.mem_cons, List.not_mem_nil, or_false] at h1
    rcases h1 with rfl | rfl | rfl | rfl | rfl | rfl | rfl | rfl <;> (right; decide)

theorem class_squote {c : Char} (h : c ≠ '\'') : classOf c ≠ .squote := by
  unfold classOf
  split
  · decide
  · split <;> first | decide | (exact absurd rfl h)

/-- a character that is special between double quotes -/
theorem class_dq {c : Char} (h : c ∉ ['"', '\\', '$', '`']) :
    classOf c ≠ .dquote ∧ classOf c ≠ .back ∧ classOf c ≠ .dollar ∧ classOf c ≠ .tick := by
  simp only [List.mem_cons, List.not_mem_nil, or_false, not_or] at h
  obtain ⟨h1, h2, h3, h4⟩ := h
  unfold classOf
  split
  · decide
  · split <;> first | decide | (exact absurd rfl h1) | (exact absurd rfl h2) | (exact absurd rfl h3) | (exact absurd rfl h4)

/-- a run of characters that all leave the state as it is -/
theorem read_stay {st : St} {r : Role} : ∀ (v rest : Str), (∀ c ∈ v, step st (classOf c) = (r, st)) →
    read st (v ++ rest) = v.map (·, r) ++ read st rest
  | [], _, _ => rfl
  | c :: v, rest, h => by
    rw [List.cons_append, read, h c (by simp), read_stay v rest (fun x hx => h x (by simp [hx]))]
    rfl

theorem plain_text (s : List Open) (b : Bool) (k : Class) (hk : k = .name ∨ k = .other) : plain s b k = (.text, ⟨s, .word⟩) := by
  rcases hk with rfl | rfl <;> (unfold plain; rcases s with _ | ⟨o, s⟩ <;> (try cases o) <;> rfl)

/-- what a letter does where plain values can do no harm -/
theorem step_name (st : St) (h : st.mode ∉ [.dollar, .var, .braceVar]) (k : Class) (hk : k = .name ∨ k = .other) :
    step st k = (if st.mode = .comment then .comment else .text, (step st .name).2) ∧
      step (step st .name).2 k = (if st.mode = .comment then .comment else .text, (step st .name).2) := by
  obtain ⟨s, m⟩ := st
  cases m with
  | between => simp only [step, plain_text s _ _ hk, plain_text s _ .name (.inl rfl)]; exact ⟨rfl, rfl⟩
  | word => simp only [step, plain_text s _ _ hk, plain_text s _ .name (.inl rfl)]; exact ⟨rfl, rfl⟩
  | single => rcases hk with rfl | rfl <;> exact ⟨rfl, rfl⟩
  | escaped =>
    refine ⟨by rcases hk with rfl | rfl <;> rfl, ?_⟩
    show plain s false k = _
    rw [plain_text s _ _ hk]; rfl
  | comment => rcases hk with rfl | rfl <;> exact ⟨rfl, rfl⟩
  | dollar => exact absurd (by simp) h
  | var => exact absurd (by simp) h
  | braceVar => exact absurd (by simp) h

/-- a harmless value is read as text, and the reading goes on as behind a letter -/
theorem read_value {st : St} {v : Str} (h : Keeps st v) (rest : Str) :
    read st (v ++ rest) = v.map (·, if st.mode = .comment then .comment else .text) ++ read (step st .name).2 rest := by
  rcases h with ⟨h1, h2⟩ | ⟨h1, h2, h3⟩ | ⟨h1, h2, h3⟩
  · obtain ⟨s, m⟩ := st
    cases h1
    have hs : step ⟨s, .single⟩ .name = (.text, ⟨s, .single⟩) := rfl
    rw [hs]
    refine read_stay v rest (fun c hc => ?_)
    have hq := class_squote (c := c) (fun e => h2 (e ▸ hc))
    unfold step
    dsimp only
    cases hk : classOf c <;> first | rfl | exact absurd hk hq
  · obtain ⟨s, m⟩ := st
    cases h1
    rcases s with _ | ⟨o, s⟩
    · cases h2
    · cases h2
      have hs : step ⟨.dq :: s, .word⟩ .name = (.text, ⟨.dq :: s, .word⟩) := rfl
      rw [hs]
      refine read_stay v rest (fun c hc => ?_)
      obtain ⟨k1, k2, k3, k4⟩ := class_dq (h3 c hc)
      unfold step plain
      dsimp only [List.head?]
      cases hk : classOf c <;> first | rfl | exact absurd hk k1 | exact absurd hk k2 | exact absurd hk k3 | exact absurd hk k4
  · cases v with
    | nil => exact absurd rfl h1
    | cons c v =>
      have hc := class_plain h2
      rw [List.cons_append, read, (step_name st h3 _ (hc c (by simp))).1]
      rw [read_stay v rest (fun x hx => (step_name st h3 _ (hc x (by simp [hx]))).2)]
      rfl

/-- a command with harmless values is read as it is meant -/
theorem read_fill : ∀ (l : List Sym) (st : St), Harmless st l → read st (fill l) = meant st l
  | [], _, _ => rfl
  | .chr c :: r, st, h => by
    show read st (c :: fill r) = _
    rw [read, meant, read_fill r _ h]
  | .val v :: r, st, h => by
    show read st (v ++ fill r) = _
    rw [read_value h.1, meant, read_fill r _ h.2]

/-- the rendered text is the command with the values put in -/
theorem fill_syms {val : Str → Option Str} : ∀ {ts : List Tok} {o : Str}, render val ts = some o → o = fill (syms val ts)
  | [], o, h => by cases h; rfl
  | .chr c :: ts, o, h => by
    simp only [render, Option.map_eq_some_iff] at h
    obtain ⟨o', h1, rfl⟩ := h
    rw [fill_syms h1]; rfl
  | .esc :: ts, o, h => by
    simp only [render, Option.map_eq_some_iff] at h
    obtain ⟨o', h1, rfl⟩ := h
    rw [fill_syms h1]; rfl
  | .ref n :: ts, o, h => by
    simp only [render] at h
    cases hv : val n with
    | none => rw [hv] at h; cases h
    | some v =>
      cases hr : render val ts with
      | none => rw [hv, hr] at h; cases h
      | some o' =>
        rw [hv, hr] at h
        cases h
        rw [fill_syms hr]
        simp [syms, fill, hv]

end Bab.Spec.Shell
