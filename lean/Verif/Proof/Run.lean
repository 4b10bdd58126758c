import Verif.Proof.SafeRun
/-
General facts about runs of life cycles, and the position of events in them.
-/

namespace Bab
open Spec Own

section
variable {Q : Type} {mine : Ev → Bool} {δ : Q → Ev → Q → Prop}

theorem run_split {q q' : Q} {a b : List Ev} (h : Run mine δ q (a ++ b) q') :
    ∃ q1, Run mine δ q a q1 ∧ Run mine δ q1 b q' := by
  induction a generalizing q with
  | nil => exact ⟨q, rfl, h⟩
  | cons e a ih =>
    rcases h with ⟨hm, q1, hd, hr⟩ | ⟨hm, hr⟩
    · obtain ⟨q2, h1, h2⟩ := ih hr
      exact ⟨q2, Or.inl ⟨hm, q1, hd, h1⟩, h2⟩
    · obtain ⟨q2, h1, h2⟩ := ih hr
      exact ⟨q2, Or.inr ⟨hm, h1⟩, h2⟩

/-- the step at an event -/
theorem run_at {q q' : Q} {a b : List Ev} {e : Ev} (h : Run mine δ q (a ++ e :: b) q') (he : mine e = true) :
    ∃ q1 q2, Run mine δ q a q1 ∧ δ q1 e q2 ∧ Run mine δ q2 b q' := by
  obtain ⟨q1, h1, h2⟩ := run_split h
  rcases h2 with ⟨_, q2, hd, hr⟩ | ⟨hm, _⟩
  · exact ⟨q1, q2, h1, hd, hr⟩
  · rw [he] at hm; cases hm

/-- an invariant of runs -/
theorem run_inv {J : List Ev → Q → Prop} {q0 : Q} (h0 : J [] q0)
    (hs : ∀ a e q q', J a q → mine e = true → δ q e q' → J (a ++ [e]) q')
    (hq : ∀ a e q, J a q → mine e = false → J (a ++ [e]) q) {a : List Ev} {q : Q}
    (h : Run mine δ q0 a q) : J a q := by
  have key : ∀ (b pre : List Ev) (q1 : Q), J pre q1 → Run mine δ q1 b q → J (pre ++ b) q := by
    intro b
    induction b with
    | nil => intro pre q1 hj h; cases h; simpa using hj
    | cons e b ih =>
      intro pre q1 hj h
      rcases h with ⟨hm, q2, hd, hr⟩ | ⟨hm, hr⟩
      · have := ih (pre ++ [e]) q2 (hs _ _ _ _ hj hm hd) hr
        simpa using this
      · have := ih (pre ++ [e]) q1 (hq _ _ _ hj hm) hr
        simpa using this
  simpa using key a [] q0 h0 h

/-- what cannot happen any more -/
theorem run_after {A : Q → Prop} {X : Ev → Prop}
    (hA : ∀ q e q', A q → mine e = true → δ q e q' → A q' ∧ ¬ X e)
    (hX : ∀ e, X e → mine e = true) {q q' : Q} {b : List Ev} (h : Run mine δ q b q') (hq : A q) :
    ∀ e ∈ b, ¬ X e := by
  induction b generalizing q with
  | nil => intro e he; cases he
  | cons e b ih =>
    rcases h with ⟨hm, q1, hd, hr⟩ | ⟨hm, hr⟩
    · have := hA _ _ _ hq hm hd
      intro e' he'
      rcases List.mem_cons.mp he' with rfl | he'
      · exact this.2
      · exact ih hr this.1 e' he'
    · intro e' he'
      rcases List.mem_cons.mp he' with rfl | he'
      · intro hx; rw [hX _ hx] at hm; cases hm
      · exact ih hr hq e' he'

/-- a property of states that is kept -/
theorem run_keep {A : Q → Prop} (hA : ∀ q e q', A q → mine e = true → δ q e q' → A q')
    {q q' : Q} {b : List Ev} (h : Run mine δ q b q') (hq : A q) : A q' := by
  induction b generalizing q with
  | nil => cases h; exact hq
  | cons e b ih =>
    rcases h with ⟨hm, q1, hd, hr⟩ | ⟨hm, hr⟩
    · exact ih hr (hA _ _ _ hq hm hd)
    · exact ih hr hq

end

/-- an event of a kind that never recurs happens at most once -/
theorem countP_le_one {P : Ev → Bool} {l : List Ev}
    (h : ∀ a e b, l = a ++ e :: b → P e = true → ∀ e' ∈ b, P e' ≠ true) : l.countP P ≤ 1 := by
  induction l with
  | nil => simp
  | cons e l ih =>
    rw [List.countP_cons]
    by_cases he : P e = true
    · have h0 : l.countP P = 0 := List.countP_eq_zero.mpr (fun e' he' => h [] e l rfl he e' he')
      rw [h0, if_pos he]; exact Nat.le_refl 1
    · rw [if_neg he]
      have := ih (fun a e' b hab => h (e :: a) e' b (by rw [hab]; rfl))
      omega

theorem mineTask_iff {n : Str} {e : Ev} : mineTask n e = true ↔ Spec.key e = some (n, none) := by
  simp [mineTask]

theorem mineSub_iff {n : Str} {i : Nat} {e : Ev} :
    mineSub n i e = true ↔ ∃ j, Spec.key e = some (n, some (i, j)) := by
  unfold mineSub
  constructor
  · intro h
    split at h
    · rename_i m i' j hk
      simp only [decide_eq_true_eq] at h
      obtain ⟨rfl, rfl⟩ := h
      exact ⟨j, hk⟩
    · cases h
  · rintro ⟨j, h⟩
    rw [h]; simp

section reach
variable {c : Cfg} {tasks : TaskMap} {gvars : GoMap Str} {main : Str} {s : State}

/-- the step of a task's life cycle at an event -/
theorem task_at (h : Reach (start c tasks gvars main) s) {n : Str} {a b : List Ev} {e : Ev}
    (ht : s.sh.trace = a ++ e :: b) (he : Spec.key e = some (n, none)) :
    ∃ q1 q2 q3, Run (mineTask n) (LifeStep c n (tasks.get? n)) (lifeStart (tasks.get? n)) a q1 ∧
      LifeStep c n (tasks.get? n) q1 e q2 ∧
      Run (mineTask n) (LifeStep c n (tasks.get? n)) q2 b q3 := by
  obtain ⟨q3, hq⟩ := life_of_reach c tasks gvars main n h
  rw [ht] at hq
  obtain ⟨q1, q2, h1, h2, h3⟩ := run_at hq (mineTask_iff.mpr he)
  exact ⟨q1, q2, q3, h1, h2, h3⟩

/-- the step of a block's life cycle at an event -/
theorem block_at (h : Reach (start c tasks gvars main) s) {n : Str} {i j : Nat} {a b : List Ev} {e : Ev}
    (ht : s.sh.trace = a ++ e :: b) (he : Spec.key e = some (n, some (i, j))) :
    ∃ items lim S1 S2 S3, blockAt tasks n i = some (items, lim) ∧
      Run (mineSub n i) (BlockStep c n i items lim) (fun _ => .idle) a S1 ∧
      BlockStep c n i items lim S1 e S2 ∧ Run (mineSub n i) (BlockStep c n i items lim) S2 b S3 := by
  obtain ⟨S3, hS⟩ := block_of_reach c tasks gvars main n i h
  rw [ht] at hS
  obtain ⟨S1, S2, h1, ⟨items, lim, hb, h2⟩, h3⟩ := run_at hS (mineSub_iff.mpr ⟨j, he⟩)
  have hstep : ∀ q e q', subδ c tasks n i q e q' → BlockStep c n i items lim q e q' := by
    rintro q e q' ⟨items', lim', hb', hst⟩
    rw [hb] at hb'; cases hb'
    exact hst
  exact ⟨items, lim, S1, S2, S3, hb, run_mono hstep h1, h2, run_mono hstep h3⟩

end reach

end Bab
