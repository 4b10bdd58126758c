import Verif.Proof.SafeRun
import Verif.Proof.Exec
import Mathlib.Data.Nat.Find
/-
Termination and progress.
-/

namespace Bab

/-- `q` can be the program after one step of `p` -/
def Succ (q p : Prog) : Prop := ∃ σ σ', Step p σ q σ'

/-- one of the listed components moves -/
def MoveIn {n : Nat} (l : List (Fin n)) (ps' ps : Fin n → Prog) : Prop :=
  ∃ i ∈ l, ∃ p', Succ p' (ps i) ∧ ps' = upd ps i p'

theorem acc_moveIn {n : Nat} (l : List (Fin n)) (hn : l.Nodup) (ps : Fin n → Prog)
    (h : ∀ i, Acc Succ (ps i)) : Acc (MoveIn l) ps := by
  induction l generalizing ps with
  | nil => exact ⟨_, fun ps' ⟨i, hi, _⟩ => by cases hi⟩
  | cons i l ih =>
    rw [List.nodup_cons] at hn
    have key : ∀ p, Acc Succ p → ∀ ps : Fin n → Prog, ps i = p → (∀ j, Acc Succ (ps j)) → Acc (MoveIn (i :: l)) ps := by
      intro p hp
      induction hp with
      | intro p _ ihp =>
        intro ps hpi hacc
        have hl : Acc (MoveIn l) ps := ih hn.2 ps hacc
        induction hl with
        | intro ps _ ihl =>
          refine ⟨_, ?_⟩
          rintro ps' ⟨j, hj, p', hs, rfl⟩
          have hacc' : ∀ k, Acc Succ (upd ps j p' k) := by
            intro k
            by_cases hk : k = j
            · subst hk; simpa [upd] using (hacc k).inv hs
            · simpa [upd, hk] using hacc k
          rcases List.mem_cons.mp hj with rfl | hj
          · refine ihp p' (hpi ▸ hs) _ ?_ hacc'
            simp [upd]
          · have hij : i ≠ j := fun h => hn.1 (h ▸ hj)
            refine ihl _ ⟨j, hj, p', hs, rfl⟩ ?_ hacc'
            simpa [upd, hij] using hpi
    exact key _ (h i) ps rfl h

/-- how far a goroutine still has to go -/
def Tag.togo : Tag → Nat
  | .init => 4
  | .running => 3
  | .returned => 2
  | .released => 1
  | .done => 0

def togo {n : Nat} (tag : Fin n → Tag) : Nat := ((List.finRange n).map fun i => (tag i).togo).sum

theorem sum_upd_lt {n : Nat} (tag : Fin n → Tag) (i : Fin n) (x : Tag) (hx : x.togo < (tag i).togo)
    (l : List (Fin n)) (hn : l.Nodup) :
    (l.map fun j => (upd tag i x j).togo).sum ≤ (l.map fun j => (tag j).togo).sum ∧
    (i ∈ l → (l.map fun j => (upd tag i x j).togo).sum < (l.map fun j => (tag j).togo).sum) := by
  induction l with
  | nil => simp
  | cons j l ih =>
    rw [List.nodup_cons] at hn
    obtain ⟨h1, h2⟩ := ih hn.2
    simp only [List.map_cons, List.sum_cons]
    by_cases hj : j = i
    · subst hj
      have hu : upd tag j x j = x := by simp [upd]
      rw [hu]
      exact ⟨by omega, fun _ => by omega⟩
    · have hu : upd tag i x j = tag j := by simp [upd, hj]
      rw [hu]
      refine ⟨by omega, fun hi => ?_⟩
      rcases List.mem_cons.mp hi with h | h
      · exact absurd h.symm hj
      · have := h2 h; omega

theorem togo_upd {n : Nat} {tag : Fin n → Tag} {i : Fin n} {x : Tag} (hx : x.togo < (tag i).togo) :
    togo (upd tag i x) < togo tag :=
  (sum_upd_lt tag i x hx _ (List.nodup_finRange n)).2 (List.mem_finRange i)

/-- Every program terminates: there is no infinite sequence of steps. -/
theorem succ_acc (p : Prog) : Acc Succ p := by
  induction p with
  | ret r => exact ⟨_, fun q ⟨σ, σ', h⟩ => by cases h⟩
  | act a k ih =>
    refine ⟨_, ?_⟩
    rintro q ⟨σ, σ', h⟩
    cases h with
    | act x hx => exact ih x
  | par lim ctx t it n st ps k ihp ihk =>
    have key : ∀ N, ∀ (st : BState n) (ps : Fin n → Prog), togo st.tag = N → (∀ i, Acc Succ (ps i)) →
        Acc Succ (.par lim ctx t it n st ps k) := by
      intro N
      induction N using Nat.strongRecOn with
      | ind N ihN =>
        intro st ps hN hps
        have hmv := acc_moveIn (List.finRange n) (List.nodup_finRange n) ps hps
        induction hmv with
        | intro ps _ ihm =>
          refine ⟨_, ?_⟩
          rintro q ⟨σ, σ', h⟩
          cases h with
          | acquire i h hs => exact ihN _ (hN ▸ togo_upd (by rw [h]; decide)) _ _ rfl hps
          | abort i h hl hc => exact ihN _ (hN ▸ togo_upd (by rw [h]; decide)) _ _ rfl hps
          | child i h hs =>
            refine ihm _ ⟨i, List.mem_finRange i, _, ⟨_, _, hs⟩, rfl⟩ ?_
            intro j
            by_cases hj : j = i
            · subst hj; simpa [upd] using (hps j).inv ⟨_, _, hs⟩
            · simpa [upd, hj] using hps j
          | finish i h hr => exact ihN _ (hN ▸ togo_upd (by rw [h]; decide)) _ _ rfl hps
          | release i h => exact ihN _ (hN ▸ togo_upd (by rw [h]; decide)) _ _ rfl hps
          | wgDone i h => exact ihN _ (hN ▸ togo_upd (by rw [h]; decide)) _ _ rfl hps
          | join h => exact ihk _
    exact key _ st ps rfl ihp

/-- from some point on an execution consists of cancellations only -/
theorem finitely_many_steps (f : Nat → State) (hf : ∀ k, SysStep (f k) (f (k + 1))) :
    ∃ N, ∀ k, N ≤ k → ¬ Step (f k).prog (f k).sh (f (k + 1)).prog (f (k + 1)).sh := by
  have key : ∀ p, Acc Succ p → ∀ f : Nat → State, (f 0).prog = p → (∀ k, SysStep (f k) (f (k + 1))) →
      ∃ N, ∀ k, N ≤ k → ¬ Step (f k).prog (f k).sh (f (k + 1)).prog (f (k + 1)).sh := by
    intro p hp
    induction hp with
    | intro p _ ih =>
      intro f hp hf
      by_cases h : ∃ k, Step (f k).prog (f k).sh (f (k + 1)).prog (f (k + 1)).sh
      · classical
        let k := Nat.find h
        have hk := Nat.find_spec h
        have hsame : ∀ j, j ≤ k → (f j).prog = p := by
          intro j
          induction j with
          | zero => intro _; exact hp
          | succ j ihj =>
            intro hj
            have hnot := Nat.find_min h (show j < Nat.find h from hj)
            have h1 := ihj (by omega)
            have h2 := hf j
            generalize f j = x at h1 h2 hnot
            generalize f (j + 1) = y at h2 hnot
            cases h2 with
            | prog hst => exact absurd hst hnot
            | cancel id hid => exact h1
        have hlt : Succ (f (k + 1)).prog p := ⟨_, _, (hsame k (Nat.le_refl k)) ▸ hk⟩
        obtain ⟨N, hN⟩ := ih _ hlt (fun j => f (k + 1 + j)) rfl (fun j => hf (k + 1 + j))
        refine ⟨k + 1 + N, fun j hj => ?_⟩
        have := hN (j - (k + 1)) (by omega)
        have e1 : k + 1 + (j - (k + 1)) = j := by omega
        have e2 : k + 1 + (j - (k + 1) + 1) = j + 1 := by omega
        simp only [e1, e2] at this
        exact this
      · exact ⟨0, fun k _ hk => h ⟨k, hk⟩⟩
  exact key _ (succ_acc _) f rfl hf

/-- `q` is the program of a goroutine that runs inside `p` (or `p` itself) -/
inductive Inside : Prog → Prog → Prop
  | refl (p : Prog) : Inside p p
  | sub {lim ctx t it n st ps k q} (i : Fin n) (h : st.tag i = .running) (hq : Inside (ps i) q) :
      Inside (.par lim ctx t it n st ps k) q

namespace Safe
variable {req : Facts → (a : Act) → a.Resp → Prop} {ig : GoMap Str → Prop}

theorem safe_inside {p q : Prog} (h : Inside p q) {P : Post} {F O : Facts} (hs : Safe req ig p P F O) :
    ∃ P' O', Safe req ig q P' F O' := by
  induction h generalizing P O with
  | refl p => exact ⟨P, O, hs⟩
  | sub i h hq ih =>
    obtain ⟨G, B, Oi, h1, h2, h3⟩ := hs
    exact ih (h2 i)

/-- A safe program that has not returned can take a step. -/
theorem safe_progress {p : Prog} {P : Post} {F O : Facts} (h : Safe req ig p P F O) :
    (∃ r, p = .ret r) ∨ ∀ σ, ∃ p' σ', Step p σ p' σ' := by
  induction p generalizing P F O with
  | ret r => exact Or.inl ⟨r, rfl⟩
  | act a k ih =>
    refine Or.inr (fun σ => ?_)
    have : ∃ x, Exec.answer σ .go a = some x := by cases a <;> exact ⟨_, rfl⟩
    obtain ⟨x, hx⟩ := this
    exact ⟨_, _, .act x (Exec.answer_ok hx)⟩
  | par lim ctx t it n st ps k ihp ihk =>
    refine Or.inr (fun σ => ?_)
    obtain ⟨G, B, Oi, h1, h2, h3, h4⟩ := h
    -- a goroutine that holds a slot can move
    have hheld : ∀ i, Tag.holds (st.tag i) = true → ∃ p' σ', Step (.par lim ctx t it n st ps k) σ p' σ' := by
      intro i hi
      cases ht : st.tag i with
      | running =>
        rcases ihp i (h2 i) with ⟨r, hr⟩ | hst
        · exact ⟨_, _, .finish i ht hr⟩
        · obtain ⟨p', σ', hst⟩ := hst σ
          exact ⟨_, _, .child i ht hst⟩
      | returned => exact ⟨_, _, .release i ht⟩
      | init => rw [ht] at hi; cases hi
      | released => rw [ht] at hi; cases hi
      | done => rw [ht] at hi; cases hi
    by_cases hd : ∃ i, st.tag i ≠ .done
    · obtain ⟨i, hi⟩ := hd
      cases ht : st.tag i with
      | done => exact absurd ht hi
      | running => exact hheld i (by rw [ht]; rfl)
      | returned => exact hheld i (by rw [ht]; rfl)
      | released => exact ⟨_, _, .wgDone i ht⟩
      | init =>
        by_cases hs : lim = 0 ∨ st.held < lim
        · exact ⟨_, _, .acquire i ht hs⟩
        · have hl : lim ≠ 0 := fun h => hs (Or.inl h)
          have hge : ¬ st.held < lim := fun h => hs (Or.inr h)
          have hpos : 0 < cnt Tag.holds st.tag := by
            rw [← h3.held hl]; omega
          obtain ⟨j, hj⟩ := cnt_pos hpos
          exact hheld j hj
    · have hall : ∀ i, st.tag i = .done := fun i => by
        by_contra hne; exact hd ⟨i, hne⟩
      refine ⟨_, _, .join ?_⟩
      rw [h3.wg]
      unfold cnt
      rw [List.countP_eq_zero]
      intro i _
      simp [hall i]

end Safe

end Bab
