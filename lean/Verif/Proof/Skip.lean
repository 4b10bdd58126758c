import Verif.Proof.Fail
/-
Invariants of the life cycle about skipped items.
-/

namespace Bab
open Spec Own

section
variable {c : Cfg} {tasks : TaskMap} {gvars : GoMap Str} {main : Str} {s : State}

theorem lifeStart_some (T : Task) : lifeStart (some T) = .deps 0 false ∨ lifeStart (some T) = .fresh := by
  by_cases h : T.cond = [] <;> simp [lifeStart, h]

/-- what the start of an item presupposes -/
theorem start_allowed (h : Reach (start c tasks gvars main) s) {n : Str} {i : Nat} {w : Option (GoMap Str)}
    (hm : .itemStart n i w ∈ s.sh.trace) :
    ∃ T item own, tasks.get? n = some T ∧ T.run[i]? = some item ∧ MayStart c item own w := by
  obtain ⟨a, b, ht⟩ := List.append_of_mem hm
  obtain ⟨q1, q2, q3, h1, h2, h3⟩ := task_at (n := n) h ht rfl
  generalize hT : tasks.get? n = T at h1 h2 h3
  cases h2 with
  | inner e h => cases h
  | @start T _ _ _ own item _ hi hs => exact ⟨T, item, own, rfl, hi, hs⟩

/-- the life of a task in which items are only excluded by platform so far -/
theorem excluded_inv {n : Str} {T : Task} {a : List Ev} {q : Life}
    (h : Run (mineTask n) (LifeStep c n (some T)) (lifeStart (some T)) a q) :
    (∀ i ex sk own, q = .items i ex sk own → T.run ≠ [] ∧ i ≤ T.run.length ∧ (ex = 0 → sk = 0 →
      ∀ k item, k < i → T.run[k]? = some item → item.onPlatform c.platform = false)) ∧
    (∀ i ex sk own ph, q = .inItem i ex sk own ph → T.run ≠ [] ∧ i < T.run.length ∧
      (∀ e, ph = .parBad e → .parEnd n i (some e) ∈ a)) ∧
    (∀ x, q = .failed (.noItems x) → (∃ i t, T.run[i]? = some (.task t) ∧ .itemEnd n i (some (.noItems x)) ∈ a) ∨
      ∃ i, .parEnd n i (some (.noItems x)) ∈ a) := by
  refine run_inv (J := fun a q =>
    (∀ i ex sk own, q = .items i ex sk own → T.run ≠ [] ∧ i ≤ T.run.length ∧ (ex = 0 → sk = 0 →
      ∀ k item, k < i → T.run[k]? = some item → item.onPlatform c.platform = false)) ∧
    (∀ i ex sk own ph, q = .inItem i ex sk own ph → T.run ≠ [] ∧ i < T.run.length ∧
      (∀ e, ph = .parBad e → .parEnd n i (some e) ∈ a)) ∧
    (∀ x, q = .failed (.noItems x) → (∃ i t, T.run[i]? = some (.task t) ∧ .itemEnd n i (some (.noItems x)) ∈ a) ∨
      ∃ i, .parEnd n i (some (.noItems x)) ∈ a)) ?_ ?_ ?_ h
  · rcases lifeStart_some T with hl | hl <;> rw [hl] <;> simp
  · rintro a e q q' ⟨hJ1, hJ2, hJ3⟩ - hd
    generalize hTT : some T = TT at hd
    cases hd with
    | unknown => cases hTT
    | skip => refine ⟨?_, ?_, ?_⟩ <;> (intros; simp_all)
    | runs => refine ⟨?_, ?_, ?_⟩ <;> (intros; simp_all)
    | condErr => refine ⟨?_, ?_, ?_⟩ <;> (intros; simp_all)
    | skipDone => refine ⟨?_, ?_, ?_⟩ <;> (intros; simp_all)
    | echo => refine ⟨?_, ?_, ?_⟩ <;> (intros; simp_all)
    | depOk => refine ⟨?_, ?_, ?_⟩ <;> (intros; simp_all)
    | depFail => refine ⟨?_, ?_, ?_⟩ <;> (intros; simp_all)
    | noRun => refine ⟨?_, ?_, ?_⟩ <;> (intros; simp_all)
    | vars t g m call hr hv =>
      cases hTT
      refine ⟨?_, ?_, ?_⟩
      · rintro i ex sk own ⟨⟩
        exact ⟨hr, Nat.zero_le _, fun _ _ k item hk => absurd hk (Nat.not_lt_zero _)⟩
      · intros; simp_all
      · intros; simp_all
    | varsErr => refine ⟨?_, ?_, ?_⟩ <;> (intros; simp_all)
    | @skipPlatform _ i ex sk own item hi hp =>
      cases hTT
      obtain ⟨h1, h2, h3⟩ := hJ1 _ _ _ _ rfl
      have hlt := (List.getElem?_eq_some_iff.mp hi).1
      refine ⟨?_, ?_, ?_⟩
      · rintro i' ex' sk' own' ⟨⟩
        refine ⟨h1, hlt, fun he hs k it hk hit => ?_⟩
        rcases Nat.lt_succ_iff_lt_or_eq.mp hk with hk | rfl
        · exact h3 he hs k it hk hit
        · rw [hi] at hit; cases hit; exact hp
      · intros; simp_all
      · intros; simp_all
    | @skipCond _ i ex sk own item m hi hp hc he ho =>
      cases hTT
      obtain ⟨h1, h2, h3⟩ := hJ1 _ _ _ _ rfl
      have hlt := (List.getElem?_eq_some_iff.mp hi).1
      refine ⟨?_, ?_, ?_⟩
      · rintro i' ex' sk' own' ⟨⟩
        exact ⟨h1, hlt, fun _ hs => absurd hs (Nat.succ_ne_zero _)⟩
      · intros; simp_all
      · intros; simp_all
    | @start _ i ex sk own item w hi hs =>
      cases hTT
      obtain ⟨h1, h2, h3⟩ := hJ1 _ _ _ _ rfl
      have hlt := (List.getElem?_eq_some_iff.mp hi).1
      refine ⟨?_, ?_, ?_⟩
      · intros; simp_all
      · rintro i' ex' sk' own' ph ⟨⟩
        exact ⟨h1, hlt, fun e he => by cases he⟩
      · intros; simp_all
    | stop => refine ⟨?_, ?_, ?_⟩ <;> (intros; simp_all)
    | nothing => refine ⟨?_, ?_, ?_⟩ <;> (intros; simp_all)
    | complete => refine ⟨?_, ?_, ?_⟩ <;> (intros; simp_all)
    | @inner _ i ex sk own ph own' ph' _ hi =>
      obtain ⟨h1, h2, h3⟩ := hJ2 _ _ _ _ _ rfl
      refine ⟨?_, ?_, ?_⟩
      · intros; simp_all
      · rintro i' ex' sk' own' ph'' ⟨⟩
        refine ⟨h1, h2, fun x hx => ?_⟩
        subst hx
        cases hi
        simp
      · intros; simp_all
    | @itemOk _ i ex sk own ph item hi hp =>
      obtain ⟨h1, h2, h3⟩ := hJ2 _ _ _ _ _ rfl
      refine ⟨?_, ?_, ?_⟩
      · rintro i' ex' sk' own' ⟨⟩
        exact ⟨h1, h2, fun he => absurd he (Nat.succ_ne_zero _)⟩
      · intros; simp_all
      · intros; simp_all
    | @itemErr _ i ex sk own ph item e hi hp =>
      cases hTT
      obtain ⟨h1, h2, h3⟩ := hJ2 _ _ _ _ _ rfl
      refine ⟨?_, ?_, ?_⟩
      · intros; simp_all
      · intros; simp_all
      · rintro x ⟨⟩
        rcases hp with ⟨-, hp | ⟨t, rfl⟩⟩ | hp
        · exact absurd rfl (hp x)
        · exact Or.inl ⟨i, t, hi, by simp⟩
        · exact Or.inr ⟨i, by simp [h3 _ hp]⟩
    | fail => refine ⟨?_, ?_, ?_⟩ <;> (intros; simp_all)
    | finish => refine ⟨?_, ?_, ?_⟩ <;> (intros; simp_all)
  · rintro a e q ⟨h1, h2, h3⟩ -
    refine ⟨h1, fun i ex sk own ph hq => ?_, fun x hx => ?_⟩
    · obtain ⟨k1, k2, k3⟩ := h2 i ex sk own ph hq
      exact ⟨k1, k2, fun e he => by simp [k3 e he]⟩
    · rcases h3 x hx with ⟨i, t, h4, h5⟩ | ⟨i, h4⟩
      · exact Or.inl ⟨i, t, h4, by simp [h5]⟩
      · exact Or.inr ⟨i, by simp [h4]⟩

/-- the life of a task all of whose items are excluded by platform -/
theorem all_excluded_inv {n : Str} {T : Task} (hx : ∀ item ∈ T.run, item.onPlatform c.platform = false)
    {a : List Ev} {q : Life} (h : Run (mineTask n) (LifeStep c n (some T)) (lifeStart (some T)) a q) :
    (∀ i ex sk own, q = .items i ex sk own → ex = 0 ∧ sk = 0) ∧ (∀ i ex sk own ph, q ≠ .inItem i ex sk own ph) ∧
    (q = .skipped → ∃ g, .taskSkip n g ∈ a) ∧
    ((∃ g m call, .taskVars n g m call ∈ a) → q = .ended ∨ ∃ i ex sk own, q = .items i ex sk own) := by
  refine run_inv (J := fun a q => (∀ i ex sk own, q = .items i ex sk own → ex = 0 ∧ sk = 0) ∧
    (∀ i ex sk own ph, q ≠ .inItem i ex sk own ph) ∧ (q = .skipped → ∃ g, .taskSkip n g ∈ a) ∧
    ((∃ g m call, .taskVars n g m call ∈ a) → q = .ended ∨ ∃ i ex sk own, q = .items i ex sk own)) ?_ ?_ ?_ h
  · rcases lifeStart_some T with hl | hl <;> rw [hl] <;> simp
  · rintro a e q q' ⟨hJ1, hJ2, hJ3, hJ4⟩ hm hd
    have hmem : ∀ {e : Ev}, (∃ g m call, .taskVars n g m call ∈ a ++ [e]) → (∀ g m call, e ≠ .taskVars n g m call) →
        ∃ g m call, .taskVars n g m call ∈ a := by
      rintro e ⟨g, m, call, h⟩ hne
      rcases List.mem_append.mp h with h | h
      · exact ⟨g, m, call, h⟩
      · exact absurd (List.mem_singleton.mp h).symm (hne g m call)
    generalize hTT : some T = TT at hd
    cases hd with
    | unknown => cases hTT
    | skip g => exact ⟨by simp, by simp, fun _ => ⟨g, by simp⟩, fun h => by have := hJ4 (hmem h (by simp)); simp at this⟩
    | runs => exact ⟨by simp, by simp, by simp, fun h => by have := hJ4 (hmem h (by simp)); simp at this⟩
    | condErr => exact ⟨by simp, by simp, by simp, fun h => Or.inl rfl⟩
    | skipDone => exact ⟨by simp, by simp, by simp, fun h => by have := hJ4 (hmem h (by simp)); simp at this⟩
    | echo => exact ⟨by simp, by simp, by simp, fun h => by have := hJ4 (hmem h (by simp)); simp at this⟩
    | depOk => exact ⟨by simp, by simp, by simp, fun h => by have := hJ4 (hmem h (by simp)); simp at this⟩
    | depFail => exact ⟨by simp, by simp, by simp, fun h => by have := hJ4 (hmem h (by simp)); simp at this⟩
    | noRun => exact ⟨by simp, by simp, by simp, fun h => by have := hJ4 (hmem h (by simp)); simp at this⟩
    | vars => exact ⟨by rintro i ex sk own ⟨⟩; exact ⟨rfl, rfl⟩, by simp, by simp, fun h => by simp⟩
    | varsErr => exact ⟨by simp, by simp, by simp, fun h => Or.inl rfl⟩
    | skipPlatform =>
      refine ⟨?_, by simp, by simp, fun h => by simp⟩
      rintro i ex sk own ⟨⟩
      exact hJ1 _ _ _ _ rfl
    | skipCond item m hi hp =>
      cases hTT
      have := hx item (List.mem_of_getElem? hi)
      rw [hp] at this; cases this
    | start item w hi hs =>
      cases hTT
      have := hx item (List.mem_of_getElem? hi)
      rw [hs.1] at this; cases this
    | stop => exact ⟨by simp, by simp, by simp, fun h => Or.inl rfl⟩
    | nothing => exact ⟨by simp, by simp, by simp, fun h => Or.inl rfl⟩
    | complete h => have := hJ1 _ _ _ _ rfl; omega
    | inner => exact absurd rfl (hJ2 _ _ _ _ _)
    | itemOk => exact absurd rfl (hJ2 _ _ _ _ _)
    | itemErr => exact absurd rfl (hJ2 _ _ _ _ _)
    | fail => exact ⟨by simp, by simp, by simp, fun h => Or.inl rfl⟩
    | finish => exact ⟨by simp, by simp, by simp, fun h => Or.inl rfl⟩
  · rintro a e q ⟨h1, h2, h3, h4⟩ hm
    refine ⟨h1, h2, fun hq => ?_, ?_⟩
    · obtain ⟨g, hg⟩ := h3 hq
      exact ⟨g, by simp [hg]⟩
    · rintro ⟨g, m, call, hg⟩
      rcases List.mem_append.mp hg with hg | hg
      · exact h4 ⟨g, m, call, hg⟩
      · rw [← List.mem_singleton.mp hg] at hm
        simp [mineTask, Spec.key] at hm

/-- the variables of a task during its items, and the condition of the item in execution -/
theorem cond_inv {n : Str} {T : Task} {a : List Ev} {q : Life}
    (h : Run (mineTask n) (LifeStep c n (some T)) (lifeStart (some T)) a q) :
    (∀ i ex sk own, q = .items i ex sk own → own.isSome = T.vars.isSome) ∧
    (∀ i ex sk own ph, q = .inItem i ex sk own ph → own.isSome = T.vars.isSome ∧
      (ph = .before → ∀ item o, T.run[i]? = some item → own = some o → item.cond ≠ [] →
        evaluate item.cond ⟨o, c.env⟩ = .ok true)) := by
  refine run_inv (J := fun a q => (∀ i ex sk own, q = .items i ex sk own → own.isSome = T.vars.isSome) ∧
    (∀ i ex sk own ph, q = .inItem i ex sk own ph → own.isSome = T.vars.isSome ∧
      (ph = .before → ∀ item o, T.run[i]? = some item → own = some o → item.cond ≠ [] →
        evaluate item.cond ⟨o, c.env⟩ = .ok true))) ?_ ?_ ?_ h
  · rcases lifeStart_some T with hl | hl <;> rw [hl] <;> simp
  · rintro a e q q' ⟨hJ1, hJ2⟩ hm hd
    generalize hTT : some T = TT at hd
    cases hd with
    | unknown => cases hTT
    | vars g m call hr hv =>
      cases hTT
      refine ⟨?_, by simp⟩
      rintro i ex sk own ⟨⟩
      cases T.vars <;> rfl
    | skipPlatform => exact ⟨by rintro i ex sk own ⟨⟩; exact hJ1 _ _ _ _ rfl, by simp⟩
    | skipCond => exact ⟨by rintro i ex sk own ⟨⟩; exact hJ1 _ _ _ _ rfl, by simp⟩
    | start item w hi hs =>
      cases hTT
      refine ⟨by simp, ?_⟩
      rintro i ex sk own ph ⟨⟩
      refine ⟨hJ1 _ _ _ _ rfl, fun _ it o hit ho hc => ?_⟩
      rw [hi] at hit
      cases hit
      rcases hs.2 with ⟨h1, _⟩ | ⟨-, m, -, h2, h3⟩
      · exact absurd h1 hc
      · rw [h3 o ho] at h2
        exact h2
    | inner e h =>
      refine ⟨by simp, ?_⟩
      rintro i ex sk own ph ⟨⟩
      obtain ⟨h1, h2⟩ := hJ2 _ _ _ _ _ rfl
      cases h with
      | answer => refine ⟨by simpa using h1, fun h => by cases h⟩
      | _ => exact ⟨h1, fun h => by cases h⟩
    | itemOk => exact ⟨by rintro i ex sk own ⟨⟩; exact (hJ2 _ _ _ _ _ rfl).1, by simp⟩
    | _ => exact ⟨by simp, by simp⟩
  · rintro a e q h hm
    exact h

/-- a task with a condition gets beyond it only if the condition was true -/
theorem runs_inv {n : Str} {T : Task} (hc : T.cond ≠ []) {a : List Ev} {q : Life}
    (h : Run (mineTask n) (LifeStep c n (some T)) (lifeStart (some T)) a q) :
    (q = .fresh → ∀ e ∈ a, mineTask n e = false) ∧
    ((∃ k t, q = .deps k t) ∨ (∃ i ex sk own, q = .items i ex sk own) ∨ (∃ i ex sk own ph, q = .inItem i ex sk own ph) →
      ∃ g, .taskRuns n g ∈ a ∧ evaluate T.cond ⟨g, c.env⟩ = .ok true) := by
  refine run_inv (J := fun a q => (q = .fresh → ∀ e ∈ a, mineTask n e = false) ∧
    ((∃ k t, q = .deps k t) ∨ (∃ i ex sk own, q = .items i ex sk own) ∨ (∃ i ex sk own ph, q = .inItem i ex sk own ph) →
      ∃ g, .taskRuns n g ∈ a ∧ evaluate T.cond ⟨g, c.env⟩ = .ok true)) ?_ ?_ ?_ h
  · have : lifeStart (some T) = .fresh := by simp [lifeStart, hc]
    rw [this]; simp
  · rintro a e q q' ⟨-, hJ⟩ hm hd
    have keep : ∀ {e : Ev}, (∃ g, .taskRuns n g ∈ a ∧ evaluate T.cond ⟨g, c.env⟩ = .ok true) →
        ∃ g, .taskRuns n g ∈ a ++ [e] ∧ evaluate T.cond ⟨g, c.env⟩ = .ok true := by
      rintro e ⟨g, h1, h2⟩
      exact ⟨g, by simp [h1], h2⟩
    generalize hTT : some T = TT at hd
    cases hd with
    | unknown => cases hTT
    | runs g _ he => cases hTT; exact ⟨by simp, fun _ => ⟨g, by simp, he⟩⟩
    | echo => exact ⟨by simp, fun _ => keep (hJ (by simp))⟩
    | depOk => exact ⟨by simp, fun _ => keep (hJ (by simp))⟩
    | vars => exact ⟨by simp, fun _ => keep (hJ (by simp))⟩
    | skipPlatform => exact ⟨by simp, fun _ => keep (hJ (by simp))⟩
    | skipCond => exact ⟨by simp, fun _ => keep (hJ (by simp))⟩
    | start => exact ⟨by simp, fun _ => keep (hJ (by simp))⟩
    | inner => exact ⟨by simp, fun _ => keep (hJ (by simp))⟩
    | itemOk => exact ⟨by simp, fun _ => keep (hJ (by simp))⟩
    | _ => exact ⟨by simp, by simp⟩
  · rintro a e q ⟨h1, h2⟩ hm
    refine ⟨fun hq x hx => ?_, fun hq => ?_⟩
    · rcases List.mem_append.mp hx with hx | hx
      · exact h1 hq x hx
      · rw [List.mem_singleton.mp hx]; exact hm
    · obtain ⟨g, h3, h4⟩ := h2 hq
      exact ⟨g, by simp [h3], h4⟩

end

end Bab
