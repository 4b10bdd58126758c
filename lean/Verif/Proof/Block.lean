import Verif.Proof.Fail
/-
Facts about whole parallel blocks: the limit, and what has happened when a block ends.
-/

namespace Bab
open Spec Own

theorem countP_range_eq {p q : Nat → Bool} {m : Nat} (h : ∀ k, k < m → q k = p k) :
    (List.range m).countP q = (List.range m).countP p := by
  refine List.countP_congr (fun k hk => ?_)
  rw [h k (List.mem_range.mp hk)]

theorem countP_range_le {p q : Nat → Bool} {j : Nat} (h : ∀ k, k ≠ j → q k = p k) (m : Nat) :
    (List.range m).countP q ≤ (List.range m).countP p + 1 := by
  induction m with
  | zero => simp
  | succ m ih =>
    rw [List.range_succ, List.countP_append, List.countP_append]
    by_cases hm : m = j
    · subst hm
      rw [countP_range_eq (fun k hk => h k (Nat.ne_of_lt hk))]
      have : List.countP q [m] ≤ 1 := List.countP_le_length
      omega
    · have : List.countP q [m] = List.countP p [m] := by simp [List.countP_cons, h m hm]
      omega

theorem countP_range_mono {p q : Nat → Bool} (h : ∀ k, q k = true → p k = true) (m : Nat) :
    (List.range m).countP q ≤ (List.range m).countP p :=
  List.countP_mono_left (fun k _ hk => h k hk)

/-- the state of an item shows in its events -/
def Shows (n : Str) (i j : Nat) (a : List Ev) : SubLife → Prop
  | .idle => subBegun n i a j = false ∧ subOver n i a j = false
  | .active _ => subBegun n i a j = true ∧ subOver n i a j = false
  | .ended _ => subBegun n i a j = true ∧ subOver n i a j = true
  | .dropped => subBegun n i a j = false ∧ subOver n i a j = false

section
variable {c : Cfg} {n : Str} {i : Nat} {items : List RunItem} {lim : Nat}

theorem subBegun_snoc {a : List Ev} {e : Ev} {j : Nat} :
    subBegun n i (a ++ [e]) j = (subBegun n i a j || decide (e = .subStart n i j)) := by
  simp [subBegun]

theorem subOver_snoc {a : List Ev} {e : Ev} {j : Nat} :
    subOver n i (a ++ [e]) j = (subOver n i a j || isSubEnd n i j e) := by
  simp [subOver]

theorem shows_other {a : List Ev} {e : Ev} {j : Nat} {q : SubLife} (hk : Spec.key e ≠ some (n, some (i, j)))
    (h : Shows n i j a q) : Shows n i j (a ++ [e]) q := by
  have h1 : decide (e = .subStart n i j) = false := by
    simp only [decide_eq_false_iff_not]
    rintro rfl
    exact hk rfl
  have h2 : isSubEnd n i j e = false := by
    unfold isSubEnd
    split
    · rename_i n' i' j' r
      simp only [decide_eq_false_iff_not]
      rintro ⟨rfl, rfl, rfl⟩
      exact hk rfl
    · rfl
  cases q <;> simp only [Shows, subBegun_snoc, subOver_snoc, h1, h2, Bool.or_false] <;> exact h

theorem shows_step {a : List Ev} {e : Ev} {j : Nat} {item : RunItem} {q q' : SubLife}
    (h : Shows n i j a q) (hs : SubStep c n i j item q e q') : Shows n i j (a ++ [e]) q' := by
  cases hs with
  | start => simp only [Shows, subBegun_snoc, subOver_snoc] at h ⊢; simp [h, isSubEnd]
  | inner e hp =>
    simp only [Shows, subBegun_snoc, subOver_snoc] at h ⊢
    cases hp <;> simp [h, isSubEnd]
  | ok => simp only [Shows, subBegun_snoc, subOver_snoc] at h ⊢; simp [h, isSubEnd]
  | bad => simp only [Shows, subBegun_snoc, subOver_snoc] at h ⊢; simp [h, isSubEnd]
  | drop => simp only [Shows, subBegun_snoc, subOver_snoc] at h ⊢; simp [h, isSubEnd]

theorem shows_live {a : List Ev} {j : Nat} {q : SubLife} (h : Shows n i j a q) :
    subLive n i a j = q.isActive := by
  cases q <;> simp only [Shows] at h <;> simp [subLive, h, SubLife.isActive]

/-- in every state of a block, at most `lim` items are in execution, and those are the ones whose
events say so -/
theorem block_inv {a : List Ev} {S : Nat → SubLife}
    (h : Run (mineSub n i) (BlockStep c n i items lim) (fun _ => .idle) a S) :
    (∀ j, Shows n i j a (S j)) ∧
    (lim ≠ 0 → (List.range items.length).countP (fun k => (S k).isActive) ≤ lim) ∧
    (lim = 0 → ∀ j, .subAbort n i j ∉ a) := by
  refine run_inv (J := fun a S => (∀ j, Shows n i j a (S j)) ∧
    (lim ≠ 0 → (List.range items.length).countP (fun k => (S k).isActive) ≤ lim) ∧
    (lim = 0 → ∀ j, .subAbort n i j ∉ a)) ?_ ?_ ?_ h
  · refine ⟨fun j => ⟨rfl, rfl⟩, fun _ => ?_, fun _ j => by simp⟩
    rw [List.countP_eq_zero.mpr (by simp [SubLife.isActive])]
    exact Nat.zero_le _
  · rintro a e S S' ⟨h1, h2, h3⟩ hm hd
    refine ⟨fun j => ?_, fun hl => ?_, fun hl j hj => ?_⟩
    · rcases block_item hd hm j with ⟨_, item, _, hs⟩ | ⟨hk, hs⟩
      · exact shows_step (h1 j) hs
      · rw [hs]; exact shows_other hk (h1 j)
    · cases hd with
      | mk e j item hj hs ho hlim hab =>
        by_cases he : e = .subStart n i j
        · have hlt := hlim he hl
          have := countP_range_le (p := fun k => (S k).isActive) (q := fun k => (S' k).isActive) (j := j)
            (fun k hk => by simp only [ho k hk]) items.length
          omega
        · refine Nat.le_trans (countP_range_mono (fun k hk => ?_) _) (h2 hl)
          by_cases hkj : k = j
          · subst hkj
            generalize S k = q at hs ⊢
            generalize S' k = q' at hs hk
            cases hs with
            | start => exact absurd rfl he
            | inner => rfl
            | ok => cases hk
            | bad => cases hk
            | drop => cases hk
          · simpa only [ho k hkj] using hk
    · rcases List.mem_append.mp hj with hj | hj
      · exact h3 hl j hj
      · have he := List.mem_singleton.mp hj
        cases hd with
        | mk e j' item hj hs ho hlim hab =>
          subst he
          have hk := substep_key hs hm
          simp only [Spec.key, Option.some.injEq, Prod.mk.injEq, true_and] at hk
          subst hk
          exact hab rfl hl
  · rintro a e S ⟨h1, h2, h3⟩ hm
    have hk : ∀ j, Spec.key e ≠ some (n, some (i, j)) := by
      intro j hj
      rw [mineSub_iff.mpr ⟨j, hj⟩] at hm; cases hm
    refine ⟨fun j => shows_other (hk j) (h1 j), h2, fun hl j hj => ?_⟩
    rcases List.mem_append.mp hj with hj | hj
    · exact h3 hl j hj
    · rw [← List.mem_singleton.mp hj] at hk
      exact hk j rfl

/-- a running process belongs to an item in execution -/
theorem proc_inv {a : List Ev} {S : Nat → SubLife}
    (h : Run (mineSub n i) (BlockStep c n i items lim) (fun _ => .idle) a S) :
    ∀ j, (S j = .active .running ∨ (∀ l s, l = (⟨n, i, some j⟩ : Loc) → .procStart l s ∉ a) ∨
      ∃ r, .procEnd ⟨n, i, some j⟩ r ∈ a) := by
  refine run_inv (J := fun a S => ∀ j, (S j = .active .running ∨
    (∀ l s, l = (⟨n, i, some j⟩ : Loc) → .procStart l s ∉ a) ∨ ∃ r, .procEnd ⟨n, i, some j⟩ r ∈ a)) ?_ ?_ ?_ h
  · intro j; simp
  · intro a e S S' hJ hm hd j
    rcases block_item hd hm j with ⟨_, item, _, hs⟩ | ⟨hk, hs⟩
    · have hj := hJ j
      generalize S j = q at hs hj
      generalize S' j = q' at hs
      have keep : (∃ r, .procEnd ⟨n, i, some j⟩ r ∈ a) → ∃ r, .procEnd ⟨n, i, some j⟩ r ∈ a ++ [e] := by
        rintro ⟨r, hr⟩; exact ⟨r, by simp [hr]⟩
      rcases hj with hj | hj | hj
      · subst hj
        cases hs with
        | inner e hp =>
          cases hp with
          | exit0 => exact Or.inr (Or.inr ⟨none, by simp⟩)
          | exit cc => exact Or.inr (Or.inr ⟨some cc, by simp⟩)
        | ok h => rcases h with h | ⟨h, _⟩ <;> cases h
        | bad e h => rcases h with ⟨h | h | h, _⟩ | h <;> cases h
      · cases hs with
        | inner e hp =>
          cases hp with
          | start s => exact Or.inl rfl
          | _ =>
            refine Or.inr (Or.inl (fun l s hl hx => ?_))
            rcases List.mem_append.mp hx with hx | hx
            · exact hj l s hl hx
            · simp at hx
        | _ =>
          refine Or.inr (Or.inl (fun l s hl hx => ?_))
          rcases List.mem_append.mp hx with hx | hx
          · exact hj l s hl hx
          · simp at hx
      · exact Or.inr (Or.inr (keep hj))
    · rw [hs]
      rcases hJ j with hj | hj | ⟨r, hj⟩
      · exact Or.inl hj
      · refine Or.inr (Or.inl (fun l s hl hx => ?_))
        rcases List.mem_append.mp hx with hx | hx
        · exact hj l s hl hx
        · rw [← List.mem_singleton.mp hx, hl] at hk
          exact hk rfl
      · exact Or.inr (Or.inr ⟨r, by simp [hj]⟩)
  · intro a e S hJ hm j
    rcases hJ j with hj | hj | ⟨r, hj⟩
    · exact Or.inl hj
    · refine Or.inr (Or.inl (fun l s hl hx => ?_))
      rcases List.mem_append.mp hx with hx | hx
      · exact hj l s hl hx
      · rw [← List.mem_singleton.mp hx, hl] at hm
        simp [mineSub, Spec.key] at hm
    · exact Or.inr (Or.inr ⟨r, by simp [hj]⟩)

end

end Bab
