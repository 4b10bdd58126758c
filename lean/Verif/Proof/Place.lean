import Verif.Proof.Run
/-
The order of the events of one task and of one parallel block.
-/

namespace Bab
open Spec Own

/-! ### Events of items outside of blocks -/

/-- item `i` has been reached -/
def Life.Past (i : Nat) : Life → Prop
  | .fresh => False
  | .deps _ _ => False
  | .items i' _ _ _ => i < i'
  | .inItem i' _ _ _ _ => i ≤ i'
  | _ => True

/-- the item has performed its action -/
def Phase.Spent : Phase → Prop
  | .before => False
  | .saw => False
  | _ => True

/-- item `i` has performed its action, or will not -/
def Life.Spent (i : Nat) : Life → Prop
  | .fresh => False
  | .deps _ _ => False
  | .items i' _ _ _ => i < i'
  | .inItem i' _ _ _ ph => i < i' ∨ (i = i' ∧ Phase.Spent ph)
  | _ => True

section task
variable {c : Cfg} {n : Str} {T : Option Task}

theorem past_step {i : Nat} {q q' : Life} {e : Ev} (hq : Life.Past i q) (h : LifeStep c n T q e q') :
    Life.Past i q' ∧ ¬ starts ⟨n, i, none⟩ e = true := by
  cases h with
  | inner e h =>
    refine ⟨hq, ?_⟩
    cases h <;> simp [starts]
  | start item w h hs =>
    refine ⟨Nat.le_of_lt hq, ?_⟩
    simp only [starts, Loc.mk.injEq, true_and, and_true, decide_eq_true_eq]
    simp only [Life.Past] at hq
    omega
  | skipPlatform => simp only [Life.Past] at hq ⊢; exact ⟨by omega, by simp [starts]⟩
  | skipCond => simp only [Life.Past] at hq ⊢; exact ⟨by omega, by simp [starts]⟩
  | itemOk => simp only [Life.Past] at hq ⊢; exact ⟨by omega, by simp [starts]⟩
  | _ => first | exact ⟨trivial, by simp [starts]⟩ | exact hq.elim

theorem spent_step {i : Nat} {q q' : Life} {e : Ev} (hq : Life.Spent i q) (h : LifeStep c n T q e q') :
    Life.Spent i q' ∧ ¬ acts ⟨n, i, none⟩ e = true := by
  cases h with
  | inner e h =>
    simp only [Life.Spent] at hq ⊢
    rcases hq with hq | ⟨rfl, hq⟩
    · refine ⟨Or.inl hq, ?_⟩
      cases h <;> simp [acts] <;> omega
    · cases h <;> first | exact hq.elim | exact ⟨Or.inr ⟨rfl, trivial⟩, by simp [acts]⟩
  | start item w h hs => exact ⟨Or.inl hq, by simp [acts]⟩
  | skipPlatform => simp only [Life.Spent] at hq ⊢; exact ⟨by omega, by simp [acts]⟩
  | skipCond => simp only [Life.Spent] at hq ⊢; exact ⟨by omega, by simp [acts]⟩
  | itemOk => simp only [Life.Spent] at hq ⊢; exact ⟨by omega, by simp [acts]⟩
  | _ => first | exact ⟨trivial, by simp [acts]⟩ | exact hq.elim

/-- starting an item passes it -/
theorem past_of_starts {i : Nat} {q q' : Life} {e : Ev} (he : starts ⟨n, i, none⟩ e = true)
    (h : LifeStep c n T q e q') : Life.Past i q' := by
  cases h with
  | inner e h => cases h <;> simp [starts] at he
  | start item w h hs =>
    simp only [starts, Loc.mk.injEq, true_and, and_true, decide_eq_true_eq] at he
    exact Nat.le_of_eq he
  | _ => simp [starts] at he

theorem spent_of_acts {i : Nat} {q q' : Life} {e : Ev} (he : acts ⟨n, i, none⟩ e = true)
    (h : LifeStep c n T q e q') : Life.Spent i q' := by
  cases h with
  | inner e h =>
    cases h <;> simp only [acts, Loc.mk.injEq, true_and, and_true, decide_eq_true_eq, Bool.false_eq_true] at he <;>
      exact Or.inr ⟨he.symm ▸ rfl, trivial⟩
  | _ => simp [acts] at he

/-- an event at a place happens while the item is being executed -/
theorem inItem_of_place {i : Nat} {q q' : Life} {e : Ev} (he : placeOf e = some ⟨n, i, none⟩)
    (h : LifeStep c n T q e q') :
    (∃ w, e = .itemStart n i w) ∨ ∃ ex sk own ph, q = .inItem i ex sk own ph := by
  cases h with
  | inner e h =>
    refine Or.inr ?_
    cases h <;> simp only [placeOf, Option.some.injEq, Loc.mk.injEq, true_and, and_true] at he <;>
      exact ⟨_, _, _, _, by rw [he]⟩
  | start item w h hs =>
    simp only [placeOf, Option.some.injEq, Loc.mk.injEq, true_and, and_true] at he
    exact Or.inl ⟨w, by rw [he]⟩
  | _ => simp [placeOf] at he

/-- the item being executed has been started -/
theorem started_of_inItem {q0 q : Life} {a : List Ev} (h0 : ∀ i ex sk own ph, q0 ≠ .inItem i ex sk own ph)
    (h : Run (mineTask n) (LifeStep c n T) q0 a q) :
    ∀ i ex sk own ph, q = .inItem i ex sk own ph → ∃ w, .itemStart n i w ∈ a := by
  refine run_inv (J := fun a q => ∀ i ex sk own ph, q = .inItem i ex sk own ph → ∃ w, .itemStart n i w ∈ a)
    (fun i ex sk own ph hq => absurd hq (h0 _ _ _ _ _)) ?_ ?_ h
  · intro a e q q' hJ _ hd i ex sk own ph hq
    subst hq
    cases hd with
    | inner e h =>
      obtain ⟨w, hw⟩ := hJ _ _ _ _ _ rfl
      exact ⟨w, by simp [hw]⟩
    | start item w h hs => exact ⟨w, by simp⟩
  · intro a e q hJ _ i ex sk own ph hq
    obtain ⟨w, hw⟩ := hJ _ _ _ _ _ hq
    exact ⟨w, by simp [hw]⟩

theorem lifeStart_ne {i ex sk own ph} : lifeStart T ≠ .inItem i ex sk own ph := by
  unfold lifeStart
  split
  · split <;> simp
  · simp

end task

/-! ### Events of items of blocks -/

def SubLife.Past : SubLife → Prop
  | .idle => False
  | _ => True

def SubLife.Spent : SubLife → Prop
  | .idle => False
  | .active ph => Phase.Spent ph
  | _ => True

/-- finished or dropped -/
def SubLife.Over : SubLife → Prop
  | .ended _ => True
  | .dropped => True
  | _ => False

section block
variable {c : Cfg} {n : Str} {i : Nat} {items : List RunItem} {lim : Nat}

/-- the events of an item of a block carry its index -/
theorem substep_key {j : Nat} {item : RunItem} {q q' : SubLife} {e : Ev} (h : SubStep c n i j item q e q')
    (hm : mineSub n i e = true) : Spec.key e = some (n, some (i, j)) := by
  cases h with
  | inner e h =>
    cases h <;> first | rfl | (simp [mineSub, Spec.key] at hm)
  | _ => rfl

/-- what a step of a block does to item `j` -/
theorem block_item {S S' : Nat → SubLife} {e : Ev} (h : BlockStep c n i items lim S e S')
    (hm : mineSub n i e = true) (j : Nat) :
    (Spec.key e = some (n, some (i, j)) ∧ ∃ item, items[j]? = some item ∧ SubStep c n i j item (S j) e (S' j)) ∨
    (Spec.key e ≠ some (n, some (i, j)) ∧ S' j = S j) := by
  cases h with
  | mk e j' item hj h ho hlim hab =>
    have hk := substep_key h hm
    by_cases hjj : j = j'
    · subst hjj
      exact Or.inl ⟨hk, item, hj, h⟩
    · refine Or.inr ⟨?_, ho j hjj⟩
      rw [hk]
      simp only [ne_eq, Option.some.injEq, Prod.mk.injEq, true_and]
      exact fun h => hjj h.symm

theorem sub_past_step {j : Nat} {item : RunItem} {q q' : SubLife} {e : Ev} (hq : SubLife.Past q)
    (h : SubStep c n i j item q e q') : SubLife.Past q' ∧ ¬ starts ⟨n, i, some j⟩ e = true := by
  cases h with
  | inner e h => exact ⟨trivial, by cases h <;> simp [starts]⟩
  | start => exact hq.elim
  | _ => exact ⟨trivial, by simp [starts]⟩

theorem sub_spent_step {j : Nat} {item : RunItem} {q q' : SubLife} {e : Ev} (hq : SubLife.Spent q)
    (h : SubStep c n i j item q e q') : SubLife.Spent q' ∧ ¬ acts ⟨n, i, some j⟩ e = true := by
  cases h with
  | inner e h => cases h <;> first | exact hq.elim | exact ⟨trivial, by simp [acts]⟩
  | start => exact hq.elim
  | _ => exact ⟨trivial, by simp [acts]⟩

theorem sub_over_step {j : Nat} {item : RunItem} {q q' : SubLife} {e : Ev} (hq : SubLife.Over q)
    (h : SubStep c n i j item q e q') : False := by
  cases h <;> exact hq.elim

theorem key_of_starts {j : Nat} {e : Ev} (h : starts ⟨n, i, some j⟩ e = true) :
    Spec.key e = some (n, some (i, j)) := by
  cases e <;> simp [starts] at h
  obtain ⟨rfl, rfl, rfl⟩ := h
  rfl

theorem key_of_acts {j : Nat} {e : Ev} (h : acts ⟨n, i, some j⟩ e = true) :
    Spec.key e = some (n, some (i, j)) := by
  cases e <;> simp [acts] at h <;> (subst h; rfl)

theorem key_of_starts' {e : Ev} (h : starts ⟨n, i, none⟩ e = true) : Spec.key e = some (n, none) := by
  cases e <;> simp [starts] at h
  obtain ⟨rfl, rfl⟩ := h
  rfl

theorem key_of_acts' {e : Ev} (h : acts ⟨n, i, none⟩ e = true) : Spec.key e = some (n, none) := by
  cases e <;> simp [acts] at h
  all_goals first | (subst h; rfl) | (obtain ⟨rfl, rfl⟩ := h; rfl)

theorem key_of_place {loc : Loc} {e : Ev} (h : placeOf e = some loc) :
    Spec.key e = some (loc.task, loc.sub.map (loc.item, ·)) := by
  cases e <;> simp only [placeOf, Option.some.injEq, reduceCtorEq] at h <;> (subst h; rfl)

theorem sub_past_of_starts {j : Nat} {item : RunItem} {q q' : SubLife} {e : Ev}
    (he : starts ⟨n, i, some j⟩ e = true) (h : SubStep c n i j item q e q') : SubLife.Past q' := by
  cases h with
  | inner e h => trivial
  | start => trivial
  | _ => trivial

theorem sub_spent_of_acts {j : Nat} {item : RunItem} {q q' : SubLife} {e : Ev}
    (he : acts ⟨n, i, some j⟩ e = true) (h : SubStep c n i j item q e q') : SubLife.Spent q' := by
  cases h with
  | inner e h => cases h <;> trivial
  | start => simp [acts] at he
  | _ => trivial

theorem sub_active_of_place {j : Nat} {item : RunItem} {q q' : SubLife} {e : Ev}
    (he : placeOf e = some ⟨n, i, some j⟩) (h : SubStep c n i j item q e q') :
    e = .subStart n i j ∨ ∃ ph, q = .active ph := by
  cases h with
  | start => exact Or.inl rfl
  | inner e h => exact Or.inr ⟨_, rfl⟩
  | ok h => exact Or.inr ⟨_, rfl⟩
  | bad e h => exact Or.inr ⟨_, rfl⟩
  | drop => simp [placeOf] at he

/-- an active item of a block has been started -/
theorem started_of_active {S : Nat → SubLife} {a : List Ev}
    (h : Run (mineSub n i) (BlockStep c n i items lim) (fun _ => .idle) a S) :
    ∀ j ph, S j = .active ph → .subStart n i j ∈ a := by
  refine run_inv (J := fun a S => ∀ j ph, S j = .active ph → .subStart n i j ∈ a)
    (fun j ph h => by cases h) ?_ ?_ h
  · intro a e S S' hJ hm hd j ph hS
    rcases block_item hd hm j with ⟨_, item, _, h⟩ | ⟨_, h⟩
    · rw [hS] at h
      generalize hq : S j = q at h
      cases h with
      | start => simp
      | inner e h => simp [hJ j _ hq]
    · simp [hJ j ph (h ▸ hS)]
  · intro a e S hJ _ j ph hS
    simp [hJ j ph hS]

/-- an item of a block that has ended or been dropped is over -/
theorem over_of_end {S : Nat → SubLife} {a : List Ev}
    (h : Run (mineSub n i) (BlockStep c n i items lim) (fun _ => .idle) a S) :
    ∀ j, ((∃ r, .subEnd n i j r ∈ a) ∨ .subAbort n i j ∈ a) → SubLife.Over (S j) := by
  refine run_inv (J := fun a S => ∀ j, ((∃ r, .subEnd n i j r ∈ a) ∨ .subAbort n i j ∈ a) → SubLife.Over (S j))
    (fun j h => by simp at h) ?_ ?_ h
  · intro a e S S' hJ hm hd j hj
    rcases block_item hd hm j with ⟨_, item, _, h⟩ | ⟨hk, h⟩
    · by_cases hold : (∃ r, .subEnd n i j r ∈ a) ∨ .subAbort n i j ∈ a
      · exact (sub_over_step (hJ j hold) h).elim
      · have he : (∃ r, e = .subEnd n i j r) ∨ e = .subAbort n i j := by
          rcases hj with ⟨r, hr⟩ | hr
          · rcases List.mem_append.mp hr with hr | hr
            · exact absurd (Or.inl ⟨r, hr⟩) hold
            · exact Or.inl ⟨r, (List.mem_singleton.mp hr).symm⟩
          · rcases List.mem_append.mp hr with hr | hr
            · exact absurd (Or.inr hr) hold
            · exact Or.inr (List.mem_singleton.mp hr).symm
        generalize hq : S j = q at h
        generalize hq' : S' j = q' at h
        cases h with
        | start => simp at he
        | inner e h => cases h <;> simp at he
        | _ => trivial
    · rw [h]
      refine hJ j ?_
      rcases hj with ⟨r, hr⟩ | hr
      · rcases List.mem_append.mp hr with hr | hr
        · exact Or.inl ⟨r, hr⟩
        · exact absurd (by rw [← List.mem_singleton.mp hr]; rfl) hk
      · rcases List.mem_append.mp hr with hr | hr
        · exact Or.inr hr
        · exact absurd (by rw [← List.mem_singleton.mp hr]; rfl) hk
  · intro a e S hJ hm j hj
    refine hJ j ?_
    have hne : Spec.key e ≠ some (n, some (i, j)) := fun hk => by
      rw [mineSub_iff.mpr ⟨j, hk⟩] at hm; cases hm
    rcases hj with ⟨r, hr⟩ | hr
    · rcases List.mem_append.mp hr with hr | hr
      · exact Or.inl ⟨r, hr⟩
      · exact absurd (by rw [← List.mem_singleton.mp hr]; rfl) hne
    · rcases List.mem_append.mp hr with hr | hr
      · exact Or.inr hr
      · exact absurd (by rw [← List.mem_singleton.mp hr]; rfl) hne

end block

/-! ### Conclusions of items -/

/-- the item has been concluded -/
def Phase.Over : Phase → Prop
  | .before => False
  | .saw => False
  | .running => False
  | .inPar => False
  | _ => True

def Life.Over (i : Nat) : Life → Prop
  | .fresh => False
  | .deps _ _ => False
  | .items i' _ _ _ => i < i'
  | .inItem i' _ _ _ ph => i < i' ∨ (i = i' ∧ Phase.Over ph)
  | _ => True

def SubLife.Concluded : SubLife → Prop
  | .idle => False
  | .active ph => Phase.Over ph
  | _ => True

section ends
variable {c : Cfg} {n : Str} {T : Option Task}

theorem over_step {i : Nat} {q q' : Life} {e : Ev} (hq : Life.Over i q) (h : LifeStep c n T q e q') :
    Life.Over i q' ∧ ¬ ends ⟨n, i, none⟩ e = true := by
  cases h with
  | inner e h =>
    simp only [Life.Over] at hq ⊢
    rcases hq with hq | ⟨rfl, hq⟩
    · refine ⟨Or.inl hq, ?_⟩
      cases h <;> simp [ends] <;> omega
    · cases h <;> exact hq.elim
  | start item w h hs => exact ⟨Or.inl hq, by simp [ends]⟩
  | skipPlatform => simp only [Life.Over] at hq ⊢; exact ⟨by omega, by simp [ends]⟩
  | skipCond => simp only [Life.Over] at hq ⊢; exact ⟨by omega, by simp [ends]⟩
  | itemOk => simp only [Life.Over] at hq ⊢; exact ⟨by omega, by simp [ends]⟩
  | _ => first | exact ⟨trivial, by simp [ends]⟩ | exact hq.elim

theorem over_of_ends {i : Nat} {q q' : Life} {e : Ev} (he : ends ⟨n, i, none⟩ e = true)
    (h : LifeStep c n T q e q') : Life.Over i q' := by
  cases h with
  | inner e h =>
    cases h <;> simp only [ends, Loc.mk.injEq, true_and, and_true, decide_eq_true_eq, Bool.false_eq_true] at he <;>
      exact Or.inr ⟨he.symm ▸ rfl, trivial⟩
  | _ => simp [ends] at he

variable {i : Nat}

theorem sub_concluded_step {j : Nat} {item : RunItem} {q q' : SubLife} {e : Ev} (hq : SubLife.Concluded q)
    (h : SubStep c n i j item q e q') : SubLife.Concluded q' ∧ ¬ ends ⟨n, i, some j⟩ e = true := by
  cases h with
  | inner e h => cases h <;> exact hq.elim
  | start => exact hq.elim
  | _ => exact ⟨trivial, by simp [ends]⟩

theorem sub_concluded_of_ends {j : Nat} {item : RunItem} {q q' : SubLife} {e : Ev}
    (he : ends ⟨n, i, some j⟩ e = true) (h : SubStep c n i j item q e q') : SubLife.Concluded q' := by
  cases h with
  | inner e h => cases h <;> trivial
  | start => simp [ends] at he
  | _ => trivial

theorem key_of_ends {j : Nat} {e : Ev} (h : ends ⟨n, i, some j⟩ e = true) :
    Spec.key e = some (n, some (i, j)) := by
  cases e <;> simp [ends] at h <;> (subst h; rfl)

theorem key_of_ends' {e : Ev} (h : ends ⟨n, i, none⟩ e = true) : Spec.key e = some (n, none) := by
  cases e <;> simp [ends] at h
  all_goals first | (subst h; rfl) | (obtain ⟨rfl, rfl⟩ := h; rfl)

end ends

/-! ### Consequences for invocations -/

section reach
variable {c : Cfg} {tasks : TaskMap} {gvars : GoMap Str} {main : Str} {s : State}

/-- the place itself is started before anything happens there -/
theorem place_started (h : Reach (start c tasks gvars main) s) {a b : List Ev} {e : Ev} {loc : Loc}
    (ht : s.sh.trace = a ++ e :: b) (he : placeOf e = some loc) :
    starts loc e = true ∨ ∃ e' ∈ a, starts loc e' = true := by
  obtain ⟨n, i, sub⟩ := loc
  cases sub with
  | none =>
    obtain ⟨q1, q2, q3, h1, h2, h3⟩ := task_at h ht (key_of_place he)
    rcases inItem_of_place he h2 with ⟨w, rfl⟩ | ⟨ex, sk, own, ph, rfl⟩
    · left; simp [starts]
    · obtain ⟨w, hw⟩ := started_of_inItem (fun _ _ _ _ _ => lifeStart_ne) h1 _ _ _ _ _ rfl
      exact Or.inr ⟨_, hw, by simp [starts]⟩
  | some j =>
    have hk := key_of_place he
    obtain ⟨items, lim, S1, S2, S3, hb, h1, h2, h3⟩ := block_at h ht hk
    rcases block_item h2 (mineSub_iff.mpr ⟨j, hk⟩) j with ⟨_, item, hitem, hs⟩ | ⟨hne, _⟩
    · rcases sub_active_of_place he hs with rfl | ⟨ph, hph⟩
      · left; simp [starts]
      · exact Or.inr ⟨_, started_of_active h1 j ph hph, by simp [starts]⟩
    · exact absurd hk hne

theorem starts_eq {loc : Loc} {e : Ev} (h : starts loc e = true) :
    (∃ w, loc.sub = none ∧ e = .itemStart loc.task loc.item w) ∨
    (∃ j, loc.sub = some j ∧ e = .subStart loc.task loc.item j) := by
  cases e <;> simp [starts] at h
  · subst h; exact Or.inl ⟨_, rfl, rfl⟩
  · subst h; exact Or.inr ⟨_, rfl, rfl⟩

/-- the item of the task that contains the place is started before anything happens there -/
theorem item_started (h : Reach (start c tasks gvars main) s) {a b : List Ev} {e : Ev} {loc : Loc}
    (ht : s.sh.trace = a ++ e :: b) (he : placeOf e = some loc) :
    ∃ w a1 a2, a ++ [e] = a1 ++ .itemStart loc.task loc.item w :: a2 := by
  -- the start of the place
  have h1 : ∃ a1 e1 a2, a ++ [e] = a1 ++ e1 :: a2 ∧ starts loc e1 = true := by
    rcases place_started h ht he with h1 | ⟨e1, h1, h2⟩
    · exact ⟨a, e, [], rfl, h1⟩
    · obtain ⟨x, y, rfl⟩ := List.append_of_mem h1
      exact ⟨x, e1, y ++ [e], by simp, h2⟩
  obtain ⟨a1, e1, a2, h2, h3⟩ := h1
  have ht1 : s.sh.trace = a1 ++ e1 :: (a2 ++ b) := by
    rw [ht, show a ++ e :: b = (a ++ [e]) ++ b by simp, h2]; simp
  rcases starts_eq h3 with ⟨w, hs, rfl⟩ | ⟨j, hs, rfl⟩
  · exact ⟨w, a1, a2, h2⟩
  · -- the block has begun before
    obtain ⟨-, m, hm⟩ := Safe.event_ok h ht1
    obtain ⟨x, y, rfl⟩ := List.append_of_mem hm
    have ht2 : s.sh.trace = x ++ .parBegin loc.task loc.item m :: (y ++ .subStart loc.task loc.item j :: (a2 ++ b)) := by
      rw [ht1]; simp
    rcases place_started h ht2 (loc := ⟨loc.task, loc.item, none⟩) rfl with hx | ⟨e2, hx, h4⟩
    · simp [starts] at hx
    · rcases starts_eq h4 with ⟨w, -, rfl⟩ | ⟨j, h5, -⟩
      · obtain ⟨u, v, rfl⟩ := List.append_of_mem hx
        refine ⟨w, u, v ++ .parBegin loc.task loc.item m :: (y ++ .subStart loc.task loc.item j :: a2), ?_⟩
        rw [h2]; simp
      · cases h5

theorem item_started_mem (h : Reach (start c tasks gvars main) s) {a b : List Ev} {e : Ev} {loc : Loc}
    (ht : s.sh.trace = a ++ e :: b) (he : placeOf e = some loc) :
    ∃ w a1 a2, s.sh.trace = a1 ++ .itemStart loc.task loc.item w :: a2 ∧ (∀ e' ∈ a1, e' ∈ a) := by
  obtain ⟨w, a1, a2, h1⟩ := item_started h ht he
  refine ⟨w, a1, a2 ++ b, ?_, ?_⟩
  · rw [ht, show a ++ e :: b = (a ++ [e]) ++ b by simp, h1]; simp
  · intro e' he'
    rcases List.eq_nil_or_concat a2 with rfl | ⟨y, z, rfl⟩
    · have := List.append_inj' (t₁ := [e]) (t₂ := [.itemStart loc.task loc.item w]) h1 rfl
      rw [this.1]; exact he'
    · have : a ++ [e] = (a1 ++ .itemStart loc.task loc.item w :: y) ++ [z] := by rw [h1]; simp
      have := (List.append_inj' this rfl).1
      rw [this]; simp [he']

/-- the general argument why an event at a place happens at most once -/
theorem once_at (h : Reach (start c tasks gvars main) s) (P : Loc → Ev → Bool)
    (A : Nat → Life → Prop) (B : SubLife → Prop)
    (k1 : ∀ n i e, P ⟨n, i, none⟩ e = true → Spec.key e = some (n, none))
    (k2 : ∀ n i j e, P ⟨n, i, some j⟩ e = true → Spec.key e = some (n, some (i, j)))
    (a1 : ∀ n T i q e q', A i q → LifeStep c n T q e q' → A i q' ∧ ¬ P ⟨n, i, none⟩ e = true)
    (a2 : ∀ n T i q e q', P ⟨n, i, none⟩ e = true → LifeStep c n T q e q' → A i q')
    (b1 : ∀ n i j item q e q', B q → SubStep c n i j item q e q' → B q' ∧ ¬ P ⟨n, i, some j⟩ e = true)
    (b2 : ∀ n i j item q e q', P ⟨n, i, some j⟩ e = true → SubStep c n i j item q e q' → B q') (loc : Loc) :
    s.sh.trace.countP (P loc) ≤ 1 := by
  refine countP_le_one ?_
  intro a e b ht he
  obtain ⟨n, i, sub⟩ := loc
  cases sub with
  | none =>
    obtain ⟨q1, q2, q3, h1, h2, h3⟩ := task_at h ht (k1 _ _ _ he)
    exact run_after (A := A i) (X := fun e => P ⟨n, i, none⟩ e = true)
      (fun q e q' hq _ hd => a1 _ _ _ _ _ _ hq hd) (fun e he => mineTask_iff.mpr (k1 _ _ _ he)) h3
      (a2 _ _ _ _ _ _ he h2)
  | some j =>
    have hk := k2 _ _ _ _ he
    obtain ⟨items, lim, S1, S2, S3, hb, h1, h2, h3⟩ := block_at h ht hk
    refine run_after (A := fun S => B (S j)) (X := fun e => P ⟨n, i, some j⟩ e = true) ?_
      (fun e he => mineSub_iff.mpr ⟨j, k2 _ _ _ _ he⟩) h3 ?_
    · intro S e S' hS hm hd
      rcases block_item hd hm j with ⟨_, item, _, hs⟩ | ⟨hne, hs⟩
      · exact b1 _ _ _ _ _ _ _ hS hs
      · exact ⟨hs ▸ hS, fun he => hne (k2 _ _ _ _ he)⟩
    · rcases block_item h2 (mineSub_iff.mpr ⟨j, hk⟩) j with ⟨_, item, _, hs⟩ | ⟨hne, _⟩
      · exact b2 _ _ _ _ _ _ _ he hs
      · exact absurd hk hne

theorem starts_once (h : Reach (start c tasks gvars main) s) (loc : Loc) : s.sh.trace.countP (starts loc) ≤ 1 :=
  once_at h starts Life.Past SubLife.Past (fun _ _ _ => key_of_starts') (fun _ _ _ _ => key_of_starts)
    (fun _ _ _ _ _ _ => past_step) (fun _ _ _ _ _ _ => past_of_starts)
    (fun _ _ _ _ _ _ _ => sub_past_step) (fun _ _ _ _ _ _ _ => sub_past_of_starts) loc

theorem acts_once (h : Reach (start c tasks gvars main) s) (loc : Loc) : s.sh.trace.countP (acts loc) ≤ 1 :=
  once_at h acts Life.Spent SubLife.Spent (fun _ _ _ => key_of_acts') (fun _ _ _ _ => key_of_acts)
    (fun _ _ _ _ _ _ => spent_step) (fun _ _ _ _ _ _ => spent_of_acts)
    (fun _ _ _ _ _ _ _ => sub_spent_step) (fun _ _ _ _ _ _ _ => sub_spent_of_acts) loc

theorem ends_once (h : Reach (start c tasks gvars main) s) (loc : Loc) : s.sh.trace.countP (ends loc) ≤ 1 :=
  once_at h ends Life.Over SubLife.Concluded (fun _ _ _ => key_of_ends') (fun _ _ _ _ => key_of_ends)
    (fun _ _ _ _ _ _ => over_step) (fun _ _ _ _ _ _ => over_of_ends)
    (fun _ _ _ _ _ _ _ => sub_concluded_step) (fun _ _ _ _ _ _ _ => sub_concluded_of_ends) loc

/-- the variables of a task have been set up, or never will be -/
def Life.VarsOver : Life → Prop
  | .fresh => False
  | .deps _ _ => False
  | _ => True

theorem varsOver_step {n : Str} {T : Option Task} {q q' : Life} {e : Ev} (hq : Life.VarsOver q) (h : LifeStep c n T q e q') :
    Life.VarsOver q' ∧ ¬ ∃ g m call, e = .taskVars n g m call := by
  cases h with
  | inner e h =>
    refine ⟨trivial, ?_⟩
    cases h <;> simp
  | vars => exact hq.elim
  | _ => first | exact ⟨trivial, by simp⟩ | exact hq.elim

/-- the variables of a task are set up only once, and so there is only one call that executes it -/
theorem vars_unique (h : Reach (start c tasks gvars main) s) {n : Str} {g g' m m' : GoMap Str} {call call' : Call}
    (h1 : .taskVars n g m call ∈ s.sh.trace) (h2 : .taskVars n g' m' call' ∈ s.sh.trace) :
    g = g' ∧ m = m' ∧ call = call' := by
  have key : ∀ {g m call g' m' call'}, ∀ a b, s.sh.trace = a ++ .taskVars n g m call :: b → .taskVars n g' m' call' ∉ b := by
    intro g m call g' m' call' a b ht hb
    obtain ⟨q1, q2, q3, r1, r2, r3⟩ := task_at h ht rfl
    refine run_after (A := Life.VarsOver) (X := fun e => ∃ g' m' call', e = .taskVars n g' m' call')
      (fun q e q' hq _ hd => varsOver_step hq hd) ?_ r3 ?_ _ hb ⟨g', m', call', rfl⟩
    · rintro e ⟨g', m', call', rfl⟩
      exact mineTask_iff.mpr rfl
    · generalize tasks.get? n = TT at r2
      cases r2 with
      | vars => exact trivial
      | inner e h => cases h
  obtain ⟨a, b, ht⟩ := List.append_of_mem h1
  rw [ht] at h2
  rcases List.mem_append.mp h2 with h2 | h2
  · obtain ⟨x, y, rfl⟩ := List.append_of_mem h2
    refine absurd ?_ (key (g := g') (m := m') (call := call') (g' := g) (m' := m) (call' := call) x (y ++ .taskVars n g m call :: b) ?_)
    · simp
    · rw [ht]; simp
  · rcases List.mem_cons.mp h2 with h2 | h2
    · cases h2; exact ⟨rfl, rfl, rfl⟩
    · exact absurd h2 (key a b ht)

end reach

end Bab
