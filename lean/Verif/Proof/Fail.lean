import Verif.Proof.Place
/-
After a failure nothing more of the task is executed.
-/

namespace Bab
open Spec Own

/-- the task is bound to fail, with item `i` as its last item -/
def Life.Doomed (i : Nat) : Life → Prop
  | .inItem i' _ _ _ .bad => i' = i
  | .inItem i' _ _ _ (.parBad _) => i' = i
  | .failed _ => True
  | .ended => True
  | _ => False

section task
variable {c : Cfg} {n : Str} {T : Option Task}

/-- what a task that is bound to fail does not do any more: execute anything, succeed -/
def NotAfterFailure (n : Str) (e : Ev) : Prop :=
  (∃ loc : Loc, placeOf e = some loc ∧ loc.task = n ∧ loc.sub = none) ∨ e = .done n ∨ e = .taskEnd n none ∨
    (∃ i, e = .itemEnd n i none) ∨ (∃ k, e = .depOk n k)

theorem doomed_step {i : Nat} {q q' : Life} {e : Ev} (hq : Life.Doomed i q) (h : LifeStep c n T q e q') :
    Life.Doomed i q' ∧ ¬ NotAfterFailure n e := by
  cases h with
  | inner e h => cases h <;> exact hq.elim
  | itemOk item h hp =>
    rcases hp with rfl | ⟨rfl, _⟩ <;> exact hq.elim
  | itemErr item e h hp => exact ⟨trivial, by simp [NotAfterFailure, placeOf]⟩
  | fail e => exact ⟨trivial, by simp [NotAfterFailure, placeOf]⟩
  | _ => exact hq.elim

theorem notAfter_mine {e : Ev} (h : NotAfterFailure n e) : mineTask n e = true := by
  rw [mineTask_iff]
  rcases h with ⟨loc, h, rfl, hs⟩ | rfl | rfl | ⟨i, rfl⟩ | ⟨k, rfl⟩
  · rw [key_of_place h, hs]; rfl
  · rfl
  · rfl
  · rfl
  · rfl

/-- a failure of an item dooms the task -/
theorem doomed_of_fail {i : Nat} {q q' : Life} {e : Ev} (h : LifeStep c n T q e q')
    (he : (∃ x, e = .itemEnd n i (some x)) ∨ (∃ x, e = .parEnd n i (some x)) ∨
      (Fails e ∧ placeOf e = some ⟨n, i, none⟩)) :
    Life.Doomed i q' ∧ ∃ ex sk own ph, q = .inItem i ex sk own ph := by
  cases h with
  | inner e h =>
    cases h <;> simp [Fails, placeOf] at he
    all_goals (subst he; exact ⟨rfl, _, _, _, _, rfl⟩)
  | itemErr item e h hp =>
    simp [Fails, placeOf] at he
    subst he
    exact ⟨trivial, _, _, _, _, rfl⟩
  | _ => simp [Fails, placeOf] at he

/-- the task succeeds or has ended -/
def Life.Closed : Life → Prop
  | .marked => True
  | .ended => True
  | _ => False

theorem past_of_started {q0 q : Life} {a : List Ev} (h : Run (mineTask n) (LifeStep c n T) q0 a q) {i : Nat}
    {w : Option (GoMap Str)} (hi : .itemStart n i w ∈ a) : Life.Past i q := by
  obtain ⟨x, y, rfl⟩ := List.append_of_mem hi
  obtain ⟨q1, q2, h1, h2, h3⟩ := run_at h (by rw [mineTask_iff]; rfl)
  exact run_keep (A := Life.Past i) (fun q e q' hq _ hd => (past_step hq hd).1) h3
    (past_of_starts (by simp [starts]) h2)

theorem closed_of_done {q0 q : Life} {a : List Ev} (h : Run (mineTask n) (LifeStep c n T) q0 a q)
    (hd : .done n ∈ a) : Life.Closed q := by
  obtain ⟨x, y, rfl⟩ := List.append_of_mem hd
  obtain ⟨q1, q2, h1, h2, h3⟩ := run_at h (by rw [mineTask_iff]; rfl)
  refine run_keep (A := Life.Closed) ?_ h3 ?_
  · intro q e q' hq _ hd
    cases hd <;> first | exact hq.elim | trivial
  · cases h2 with
    | inner e h => cases h
    | _ => trivial

/-- a block that has begun is still running or has ended -/
theorem par_closed {q0 q : Life} {a : List Ev} (h : Run (mineTask n) (LifeStep c n T) q0 a q) :
    ∀ i m, .parBegin n i m ∈ a →
      (∃ r, .parEnd n i r ∈ a) ∨ ∃ ex sk own, q = .inItem i ex sk own .inPar := by
  refine run_inv (J := fun a q => ∀ i m, .parBegin n i m ∈ a →
      (∃ r, .parEnd n i r ∈ a) ∨ ∃ ex sk own, q = .inItem i ex sk own .inPar)
    (fun i m h => by cases h) ?_ ?_ h
  · intro a e q q' hJ _ hd i m hm
    rcases List.mem_append.mp hm with hm | hm
    · rcases hJ i m hm with ⟨r, hr⟩ | ⟨ex, sk, own, rfl⟩
      · exact Or.inl ⟨r, by simp [hr]⟩
      · cases hd with
        | inner e h =>
          cases h with
          | parOk => exact Or.inl ⟨none, by simp⟩
          | parBad e => exact Or.inl ⟨some e, by simp⟩
        | itemOk item h hp => rcases hp with hp | ⟨hp, _⟩ <;> cases hp
        | itemErr item e h hp => rcases hp with ⟨hp | hp | hp, _⟩ | hp <;> cases hp
    · have he := List.mem_singleton.mp hm
      subst he
      cases hd with
      | inner e h => cases h; exact Or.inr ⟨_, _, _, rfl⟩
  · intro a e q hJ hm i m hi
    rcases List.mem_append.mp hi with hi | hi
    · rcases hJ i m hi with ⟨r, hr⟩ | hr
      · exact Or.inl ⟨r, by simp [hr]⟩
      · exact Or.inr hr
    · have he := List.mem_singleton.mp hi
      subst he
      simp [mineTask, Spec.key] at hm

end task

/-- how the events of an item of a block determine its state -/
structure SubFacts (n : Str) (i j : Nat) (a : List Ev) (q : SubLife) : Prop where
  ok : .subEnd n i j none ∈ a → q = .ended none
  bad : ((∃ x, .subEnd n i j (some x) ∈ a) ∨ (∃ e ∈ a, Fails e ∧ placeOf e = some ⟨n, i, some j⟩)) →
    q = .active .bad ∨ ∃ x, q = .ended (some x)
  dropped : .subAbort n i j ∈ a → q = .dropped

section block
variable {c : Cfg} {n : Str} {i : Nat} {items : List RunItem} {lim : Nat}

theorem subFacts {S : Nat → SubLife} {a : List Ev}
    (h : Run (mineSub n i) (BlockStep c n i items lim) (fun _ => .idle) a S) : ∀ j, SubFacts n i j a (S j) := by
  refine run_inv (J := fun a S => ∀ j, SubFacts n i j a (S j))
    (fun j => ⟨by simp, by simp, by simp⟩) ?_ ?_ h
  · intro a e S S' hJ hm hd j
    rcases block_item hd hm j with ⟨_, item, _, h⟩ | ⟨hk, h⟩
    · obtain ⟨j1, j2, j3⟩ := hJ j
      generalize hq : S j = q at h j1 j2 j3
      generalize hq' : S' j = q' at h
      have mem : ∀ x, x ∈ a ++ [e] ↔ x ∈ a ∨ x = e := by simp
      have hbad : ((∃ x, .subEnd n i j (some x) ∈ a ++ [e]) ∨
          (∃ e' ∈ a ++ [e], Fails e' ∧ placeOf e' = some ⟨n, i, some j⟩)) →
          (q = .active .bad ∨ ∃ x, q = .ended (some x)) ∨
          ((∃ x, .subEnd n i j (some x) = e) ∨ (Fails e ∧ placeOf e = some ⟨n, i, some j⟩)) := by
        rintro (⟨x, hx⟩ | ⟨e', he', hf⟩)
        · rcases (mem _).mp hx with hx | hx
          · exact Or.inl (j2 (Or.inl ⟨x, hx⟩))
          · exact Or.inr (Or.inl ⟨x, hx⟩)
        · rcases (mem _).mp he' with hx | hx
          · exact Or.inl (j2 (Or.inr ⟨e', hx, hf⟩))
          · exact Or.inr (Or.inr (hx ▸ hf))
      have hok : .subEnd n i j none ∈ a ++ [e] → q = .ended none ∨ .subEnd n i j none = e := by
        intro hx
        rcases (mem _).mp hx with hx | hx
        · exact Or.inl (j1 hx)
        · exact Or.inr hx
      have hdr : .subAbort n i j ∈ a ++ [e] → q = .dropped ∨ .subAbort n i j = e := by
        intro hx
        rcases (mem _).mp hx with hx | hx
        · exact Or.inl (j3 hx)
        · exact Or.inr hx
      cases h with
      | start =>
        refine ⟨fun hx => ?_, fun hx => ?_, fun hx => ?_⟩
        · simpa using hok hx
        · simpa [Fails] using hbad hx
        · simpa using hdr hx
      | inner e h =>
        refine ⟨fun hx => ?_, fun hx => ?_, fun hx => ?_⟩
        · have := hok hx
          cases h <;> simp at this
        · have := hbad hx
          cases h <;> simp [Fails, placeOf] at this <;> exact Or.inl rfl
        · have := hdr hx
          cases h <;> simp at this
      | ok h =>
        refine ⟨fun hx => rfl, fun hx => ?_, fun hx => ?_⟩
        · have := hbad hx
          simp [Fails] at this
          subst this
          rcases h with h | ⟨h, _⟩ <;> cases h
        · simpa using hdr hx
      | bad e h =>
        refine ⟨fun hx => ?_, fun hx => Or.inr ⟨e, rfl⟩, fun hx => ?_⟩
        · simpa using hok hx
        · simpa using hdr hx
      | drop =>
        refine ⟨fun hx => ?_, fun hx => ?_, fun hx => rfl⟩
        · simpa using hok hx
        · simpa [Fails] using hbad hx
    · rw [h]
      obtain ⟨j1, j2, j3⟩ := hJ j
      have mem : ∀ x, Spec.key x = some (n, some (i, j)) → x ∈ a ++ [e] → x ∈ a := by
        intro x hx hxa
        rcases List.mem_append.mp hxa with h | h
        · exact h
        · rw [List.mem_singleton.mp h] at hx; exact absurd hx hk
      refine ⟨fun hx => j1 (mem _ rfl hx), fun hx => j2 ?_, fun hx => j3 (mem _ rfl hx)⟩
      rcases hx with ⟨x, hx⟩ | ⟨e', he', hf⟩
      · exact Or.inl ⟨x, mem _ rfl hx⟩
      · exact Or.inr ⟨e', mem _ (key_of_place hf.2) he', hf⟩
  · intro a e S hJ hm j
    obtain ⟨j1, j2, j3⟩ := hJ j
    have mem : ∀ x, Spec.key x = some (n, some (i, j)) → x ∈ a ++ [e] → x ∈ a := by
      intro x hx hxa
      rcases List.mem_append.mp hxa with h | h
      · exact h
      · rw [List.mem_singleton.mp h] at hx
        rw [mineSub_iff.mpr ⟨j, hx⟩] at hm; cases hm
    refine ⟨fun hx => j1 (mem _ rfl hx), fun hx => j2 ?_, fun hx => j3 (mem _ rfl hx)⟩
    rcases hx with ⟨x, hx⟩ | ⟨e', he', hf⟩
    · exact Or.inl ⟨x, mem _ rfl hx⟩
    · exact Or.inr ⟨e', mem _ (key_of_place hf.2) he', hf⟩

end block

section reach
variable {c : Cfg} {tasks : TaskMap} {gvars : GoMap Str} {main : Str} {s : State}

/-- a failure outside of the goroutines of a block -/
theorem stop_top (h : Reach (start c tasks gvars main) s) {n : Str} {i : Nat} {a b : List Ev} {e : Ev}
    (ht : s.sh.trace = a ++ e :: b) (he : (∃ x, e = .itemEnd n i (some x)) ∨ (∃ x, e = .parEnd n i (some x)) ∨
      (Fails e ∧ placeOf e = some ⟨n, i, none⟩)) :
    (∀ e' ∈ b, ¬ NotAfterFailure n e') ∧ (∀ i' w, i < i' → .itemStart n i' w ∉ s.sh.trace) ∧
      .done n ∉ s.sh.trace := by
  have hk : Spec.key e = some (n, none) := by
    rcases he with ⟨x, rfl⟩ | ⟨x, rfl⟩ | ⟨_, he⟩
    · rfl
    · rfl
    · rw [key_of_place he]; rfl
  obtain ⟨q1, q2, q3, h1, h2, h3⟩ := task_at h ht hk
  obtain ⟨hd, ex, sk, own, ph, rfl⟩ := doomed_of_fail h2 he
  have hb := run_after (A := Life.Doomed i) (X := NotAfterFailure n)
    (fun q e q' hq _ hd => doomed_step hq hd) (fun e he => notAfter_mine he) h3 hd
  refine ⟨hb, ?_, ?_⟩
  · intro i' w hi' hm
    rw [ht] at hm
    rcases List.mem_append.mp hm with hm | hm
    · have := past_of_started h1 hm
      simp only [Life.Past] at this
      omega
    · rcases List.mem_cons.mp hm with hm | hm
      · subst hm
        simp [Fails] at he
      · exact hb _ hm (Or.inl ⟨_, rfl, rfl, rfl⟩)
  · intro hm
    rw [ht] at hm
    rcases List.mem_append.mp hm with hm | hm
    · exact (closed_of_done h1 hm).elim
    · rcases List.mem_cons.mp hm with hm | hm
      · subst hm
        simp [Fails] at he
      · exact hb _ hm (Or.inr (Or.inl rfl))

/-- a block that has begun has ended when a later item starts or the task is done -/
theorem par_ended (h : Reach (start c tasks gvars main) s) {n : Str} {i : Nat} {m : GoMap Str}
    (hb : .parBegin n i m ∈ s.sh.trace)
    (hn : (∃ i' w, i < i' ∧ .itemStart n i' w ∈ s.sh.trace) ∨ .done n ∈ s.sh.trace) :
    ∃ a b, s.sh.trace = a ++ .parEnd n i none :: b := by
  obtain ⟨q, hq⟩ := life_of_reach c tasks gvars main n h
  rcases par_closed hq i m hb with ⟨r, hr⟩ | ⟨ex, sk, own, rfl⟩
  · obtain ⟨a, b, hab⟩ := List.append_of_mem hr
    cases r with
    | none => exact ⟨a, b, hab⟩
    | some x =>
      obtain ⟨-, h1, h2⟩ := stop_top h hab (Or.inr (Or.inl ⟨x, rfl⟩))
      rcases hn with ⟨i', w, hi, hm⟩ | hm
      · exact absurd hm (h1 i' w hi)
      · exact absurd hm h2
  · rcases hn with ⟨i', w, hi, hm⟩ | hm
    · have := past_of_started hq hm
      simp only [Life.Past] at this
      omega
    · exact (closed_of_done hq hm).elim

/-- after a failure of an item no later item starts and the task is not done -/
theorem stop_item (h : Reach (start c tasks gvars main) s) {n : Str} {i : Nat} {a b : List Ev} {e : Ev}
    (ht : s.sh.trace = a ++ e :: b) (he : FailsItem n i e) :
    (∀ i' w, i < i' → .itemStart n i' w ∉ s.sh.trace) ∧ .done n ∉ s.sh.trace := by
  have htop : ((∃ x, e = .itemEnd n i (some x)) ∨ (∃ x, e = .parEnd n i (some x)) ∨
      (Fails e ∧ placeOf e = some ⟨n, i, none⟩)) →
      (∀ i' w, i < i' → .itemStart n i' w ∉ s.sh.trace) ∧ .done n ∉ s.sh.trace :=
    fun he => (stop_top h ht he).2
  have hsub : ∀ j, Spec.key e = some (n, some (i, j)) →
      ((∃ x, e = .subEnd n i j (some x)) ∨ (Fails e ∧ placeOf e = some ⟨n, i, some j⟩)) →
      ¬ ((∃ i' w, i < i' ∧ .itemStart n i' w ∈ s.sh.trace) ∨ .done n ∈ s.sh.trace) := by
    intro j hk he hn
    -- the block has begun
    have hbeg : ∃ m, .parBegin n i m ∈ s.sh.trace := by
      obtain ⟨items, lim, S1, S2, S3, hb, h1, h2, h3⟩ := block_at h ht hk
      have hstart : .subStart n i j ∈ a := by
        rcases block_item h2 (mineSub_iff.mpr ⟨j, hk⟩) j with ⟨_, item, _, hs⟩ | ⟨hne, _⟩
        · generalize hq : S1 j = q at hs
          generalize hq' : S2 j = q' at hs
          cases hs with
          | start => simp [Fails] at he
          | inner e h => exact started_of_active h1 j _ hq
          | ok h => exact started_of_active h1 j _ hq
          | bad e h => exact started_of_active h1 j _ hq
          | drop => simp [Fails] at he
        · exact absurd hk hne
      obtain ⟨x, y, rfl⟩ := List.append_of_mem hstart
      have ht1 : s.sh.trace = x ++ .subStart n i j :: (y ++ e :: b) := by rw [ht]; simp
      obtain ⟨-, m, hm⟩ := Safe.event_ok h ht1
      exact ⟨m, by rw [ht1]; simp [hm]⟩
    obtain ⟨m, hm⟩ := hbeg
    obtain ⟨a', b', hab⟩ := par_ended h hm hn
    obtain ⟨items, labels, mode, lim, color, bs, bo, pl, w, ln, k1, k2, -⟩ := Safe.event_ok h hab
    obtain ⟨items', lim', S1, S2, S3, hb, h1, h2, h3⟩ := block_at h ht hk
    have hitems : items' = items := by
      simp only [blockAt] at hb
      simp only [itemAt] at k1
      cases hT : tasks.get? n with
      | none => rw [hT] at hb; cases hb
      | some T =>
        rw [hT] at hb k1
        simp only at hb k1
        rw [k1] at hb
        simp only [Option.some.injEq, Prod.mk.injEq] at hb
        exact hb.1.symm
    subst hitems
    obtain ⟨S, hS⟩ := block_of_reach c tasks gvars main n i h
    have hS' : Run (mineSub n i) (BlockStep c n i items' lim') (fun _ => .idle) s.sh.trace S := by
      refine run_mono ?_ hS
      rintro q e q' ⟨it2, lim2, hb2, hst⟩
      rw [hb] at hb2; cases hb2; exact hst
    have hf := subFacts hS' j
    have hj : j < items'.length := by
      rcases block_item h2 (mineSub_iff.mpr ⟨j, hk⟩) j with ⟨_, item, hi, _⟩ | ⟨hne, _⟩
      · exact (List.getElem?_eq_some_iff.mp hi).1
      · exact absurd hk hne
    have hin : ∀ x ∈ a', x ∈ s.sh.trace := by intro x hx; rw [hab]; simp [hx]
    have hine : e ∈ s.sh.trace := by rw [ht]; simp
    have hbad : S j = .active .bad ∨ ∃ x, S j = .ended (some x) := by
      apply hf.bad
      rcases he with ⟨x, rfl⟩ | he
      · exact Or.inl ⟨x, hine⟩
      · exact Or.inr ⟨e, hine, he⟩
    rcases k2 j hj with ⟨r', hr, hr'⟩ | ⟨hr, _⟩
    · cases r' with
      | none =>
        have := hf.ok (hin _ hr)
        rcases hbad with hb | ⟨x, hb⟩ <;> · rw [this] at hb; cases hb
      | some x => cases hr' rfl
    · have := hf.dropped (hin _ hr)
      rcases hbad with hb | ⟨x, hb⟩ <;> · rw [this] at hb; cases hb
  rcases he with he | he | ⟨j, x, rfl⟩ | ⟨hf, sub, hp⟩
  · exact htop (Or.inl he)
  · exact htop (Or.inr (Or.inl he))
  · have := hsub j rfl (Or.inl ⟨x, rfl⟩)
    exact ⟨fun i' w hi hm => this (Or.inl ⟨i', w, hi, hm⟩), fun hm => this (Or.inr hm)⟩
  · cases sub with
    | none => exact htop (Or.inr (Or.inr ⟨hf, hp⟩))
    | some j =>
      have := hsub j (by rw [key_of_place hp]; rfl) (Or.inr ⟨hf, hp⟩)
      exact ⟨fun i' w hi hm => this (Or.inl ⟨i', w, hi, hm⟩), fun hm => this (Or.inr hm)⟩

/-- after a failed dependency nothing of the task is executed and the task is not done -/
theorem stop_dep (h : Reach (start c tasks gvars main) s) {n : Str} {k : Nat} {x : Err}
    (hm : .depFail n k x ∈ s.sh.trace) :
    (∀ i w, .itemStart n i w ∉ s.sh.trace) ∧ .done n ∉ s.sh.trace := by
  obtain ⟨a, b, ht⟩ := List.append_of_mem hm
  obtain ⟨q1, q2, q3, h1, h2, h3⟩ := task_at (n := n) h ht rfl
  generalize tasks.get? n = T at h1 h2 h3
  cases h2 with
  | inner e h => cases h
  | depFail k e hk =>
    have hb := run_after (A := Life.Doomed 0) (X := NotAfterFailure n)
      (fun q e q' hq _ hd => doomed_step hq hd) (fun e he => notAfter_mine he) h3 trivial
    constructor
    · intro i w hi
      rw [ht] at hi
      rcases List.mem_append.mp hi with hi | hi
      · exact (past_of_started h1 hi).elim
      · rcases List.mem_cons.mp hi with hi | hi
        · cases hi
        · exact hb _ hi (Or.inl ⟨_, rfl, rfl, rfl⟩)
    · intro hi
      rw [ht] at hi
      rcases List.mem_append.mp hi with hi | hi
      · exact (closed_of_done h1 hi).elim
      · rcases List.mem_cons.mp hi with hi | hi
        · cases hi
        · exact hb _ hi (Or.inr (Or.inl rfl))

end reach

end Bab
