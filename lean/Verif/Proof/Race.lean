import Verif.Proof.ClaimRun
import Verif.Spec.Race
/-
A program logic for what goroutines do at the same time: which actions a goroutine never performs, given the tasks that
are known to be done. A task that is done stays done, so that all goroutines may know it.
-/

namespace Bab.Race
open Bab Spec Spec.Conc

/-- the tasks that are known to be done -/
abbrev Kn := Str → Prop
abbrev Post := Kn → Option Err → Prop

/-- the answers that fit the knowledge -/
def Fits (K : Kn) : (a : Act) → a.Resp → Prop
  | .claim n, x => K n → x = some .done
  | _, _ => True

/-- the task an action shows to be done -/
def learns : (a : Act) → a.Resp → Option Str
  | .claim n, some .done => some n
  | .status n, some .done => some n
  | .setDone n, _ => some n
  | _, _ => none

def next (K : Kn) (a : Act) (x : a.Resp) : Kn := fun n => K n ∨ learns a x = some n

/-- no goroutine of the program ever performs an action in `A` -/
def Never (A : Act → Prop) (K : Kn) : Prog → Prop
  | .ret _ => True
  | .act a k => ¬ A a ∧ ∀ x, Fits K a x → Never A K (k x)
  | .par _ _ _ _ _ _ ps k => (∀ i, Never A K (ps i)) ∧ ∀ r, Never A K (k r)

/-- two goroutines never perform an action in `A` and one in `B` at the same time, and if `s`, an item of a block never
performs both; `Q` holds at the end -/
def Calm (A B : Act → Prop) (s : Prop) : Prog → Kn → Post → Prop
  | .ret r, K, Q => Q K r
  | .act a k, K, Q => ∀ x, Fits K a x → Calm A B s (k x) (next K a x) Q
  | .par _ _ _ _ _ _ ps k, K, Q =>
      (∀ i j, i ≠ j ∨ s → Never A K (ps i) ∨ Never B K (ps j)) ∧
      (∀ i, Calm A B s (ps i) K fun _ _ => True) ∧ ∀ r, Calm A B s (k r) K Q

variable {A B : Act → Prop} {s : Prop}

theorem fits_mono {K K' : Kn} (h : ∀ x, K x → K' x) {a : Act} {x : a.Resp} (hf : Fits K' a x) : Fits K a x := by
  cases a with
  | claim n => exact fun hk => hf (h n hk)
  | _ => trivial

theorem next_mono {K K' : Kn} (h : ∀ x, K x → K' x) (a : Act) (x : a.Resp) : ∀ n, next K a x n → next K' a x n :=
  fun n hn => hn.imp (h n) id

theorem never_mono {K K' : Kn} (h : ∀ x, K x → K' x) {p : Prog} (hp : Never A K p) : Never A K' p := by
  induction p with
  | ret r => trivial
  | act a k ih => exact ⟨hp.1, fun x hx => ih x (hp.2 x (fits_mono h hx))⟩
  | par lim ctx t it n st ps k ih1 ih2 => exact ⟨fun i => ih1 i (hp.1 i), fun r => ih2 r (hp.2 r)⟩

theorem never_bind {K : Kn} {p : Prog} {f : Option Err → Prog} (hp : Never A K p) (hf : ∀ r, Never A K (f r)) :
    Never A K (p.bind f) := by
  induction p with
  | ret r => exact hf r
  | act a k ih => exact ⟨hp.1, fun x hx => ih x (hp.2 x hx)⟩
  | par lim ctx t it n st ps k ih1 ih2 => exact ⟨hp.1, fun r => ih2 r (hp.2 r)⟩

/-- a condition that more knowledge does not spoil -/
def Mono (Q : Post) : Prop := ∀ K K' r, (∀ x, K x → K' x) → Q K r → Q K' r

theorem calm_mono {p : Prog} {K K' : Kn} {Q : Post} (hQ : Mono Q) (h : ∀ x, K x → K' x) (hp : Calm A B s p K Q) : Calm A B s p K' Q := by
  induction p generalizing K K' Q with
  | ret r => exact hQ _ _ _ h hp
  | act a k ih => exact fun x hx => ih x hQ (next_mono h a x) (hp x (fits_mono h hx))
  | par lim ctx t it n st ps k ih1 ih2 =>
    exact ⟨fun i j hij => (hp.1 i j hij).imp (never_mono h) (never_mono h), fun i => ih1 i (fun _ _ _ _ _ => trivial) h (hp.2.1 i),
      fun r => ih2 r hQ h (hp.2.2 r)⟩

theorem calm_post {p : Prog} {K : Kn} {Q Q' : Post} (hp : Calm A B s p K Q) (h : ∀ K' r, (∀ x, K x → K' x) → Q K' r → Q' K' r) :
    Calm A B s p K Q' := by
  induction p generalizing K with
  | ret r => exact h _ _ (fun _ h => h) hp
  | act a k ih => exact fun x hx => ih x (hp x hx) fun K' r h1 => h K' r fun y hy => h1 y (Or.inl hy)
  | par lim ctx t it n st ps k ih1 ih2 => exact ⟨hp.1, hp.2.1, fun r => ih2 r (hp.2.2 r) h⟩

theorem calm_bind {p : Prog} {f : Option Err → Prog} {K : Kn} {Q Q' : Post} (hp : Calm A B s p K Q')
    (hf : ∀ K' r, (∀ x, K x → K' x) → Q' K' r → Calm A B s (f r) K' Q) : Calm A B s (p.bind f) K Q := by
  induction p generalizing K with
  | ret r => exact hf _ _ (fun _ h => h) hp
  | act a k ih => exact fun x hx => ih x (hp x hx) fun K' r h1 => hf K' r fun y hy => h1 y (Or.inl hy)
  | par lim ctx t it n st ps k ih1 ih2 => exact ⟨hp.1, hp.2.1, fun r => ih2 r (hp.2.2 r) hf⟩

/-! ## soundness -/

/-- the knowledge is right -/
def Interp (K : Kn) (σ : Shared) : Prop := ∀ n, K n → σ.status.get? n = some .done

theorem apply_done {a : Act} {σ : Shared} {x : a.Resp} (ha : a.Answers σ x) {n : Str} (h : σ.status.get? n = some .done) :
    (a.apply σ x).status.get? n = some .done := by
  cases a with
  | claim m =>
    have ha : x = σ.status.get? m := ha
    cases x with
    | some s => exact h
    | none =>
      have hne : m ≠ n := by rintro rfl; rw [h] at ha; cases ha
      show (σ.status.set m .running).get? n = _
      rw [GoMap.get?_set_ne _ _ hne]; exact h
  | setDone m =>
    show (σ.status.set m .done).get? n = _
    by_cases hm : m = n
    · subst hm; rw [GoMap.get?_set_self]
    · rw [GoMap.get?_set_ne _ _ hm]; exact h
  | _ => exact h

theorem step_done {p p' : Prog} {σ σ' : Shared} (h : Step p σ p' σ') {n : Str} (hn : σ.status.get? n = some .done) :
    σ'.status.get? n = some .done := by
  induction h with
  | act x ha => exact apply_done ha hn
  | child i _ _ ih => exact ih hn
  | _ => exact hn

theorem fits_of_answers {K : Kn} {σ : Shared} (hi : Interp K σ) {a : Act} {x : a.Resp} (ha : a.Answers σ x) : Fits K a x := by
  cases a with
  | claim n =>
    intro hk
    have ha : x = σ.status.get? n := ha
    rw [ha]; exact hi n hk
  | _ => trivial

theorem learns_right {σ : Shared} {a : Act} {x : a.Resp} (ha : a.Answers σ x) {n : Str} (h : learns a x = some n) :
    (a.apply σ x).status.get? n = some .done := by
  cases a with
  | claim m =>
    have ha : x = σ.status.get? m := ha
    rcases x with _ | _ | _
    · cases h
    · cases h
    · cases h; exact ha.symm
  | status m =>
    have ha : x = σ.status.get? m := ha
    rcases x with _ | _ | _
    · cases h
    · cases h
    · cases h; exact ha.symm
  | setDone m =>
    have h : m = n := Option.some.inj h
    subst h
    show (σ.status.set m .done).get? m = _
    rw [GoMap.get?_set_self]
  | _ => cases h

theorem interp_next {K : Kn} {σ : Shared} (hi : Interp K σ) {a : Act} {x : a.Resp} (ha : a.Answers σ x) :
    Interp (next K a x) (a.apply σ x) := by
  rintro n (hn | hn)
  · exact apply_done ha (hi n hn)
  · exact learns_right ha hn

theorem never_step {p p' : Prog} {σ σ' : Shared} (h : Step p σ p' σ') {K : Kn} (hi : Interp K σ) (hp : Never A K p) : Never A K p' := by
  induction h with
  | act x ha => exact hp.2 x (fits_of_answers hi ha)
  | @child lim ctx t it n st ps k σ p' σ' i _ _ ih =>
    refine ⟨fun j => ?_, hp.2⟩
    by_cases hj : j = i
    · subst hj; simpa [upd] using ih hi (hp.1 j)
    · simpa [upd, hj] using hp.1 j
  | join _ => exact hp.2 _
  | _ => exact hp

theorem calm_step {p p' : Prog} {σ σ' : Shared} (h : Step p σ p' σ') {K : Kn} {Q : Post} (hQ : Mono Q) (hi : Interp K σ)
    (hp : Calm A B s p K Q) : ∃ K', (∀ x, K x → K' x) ∧ Interp K' σ' ∧ Calm A B s p' K' Q := by
  induction h generalizing K Q with
  | act x ha => exact ⟨_, fun _ h => Or.inl h, interp_next hi ha, hp x (fits_of_answers hi ha)⟩
  | @child lim ctx t it n st ps k σ p' σ' i _ hs ih =>
    obtain ⟨K', h1, h2, h3⟩ := ih (fun _ _ _ _ _ => trivial) hi (hp.2.1 i)
    have hn : ∀ (C : Act → Prop) j, Never C K (ps j) → Never C K' (upd ps i p' j) := by
      intro C j hj
      by_cases hji : j = i
      · subst hji; simpa [upd] using never_mono h1 (never_step hs hi hj)
      · simpa [upd, hji] using never_mono h1 hj
    refine ⟨K', h1, h2, fun j l hjl => (hp.1 j l hjl).imp (hn A j) (hn B l), fun j => ?_, fun r => calm_mono hQ h1 (hp.2.2 r)⟩
    by_cases hji : j = i
    · subst hji; simpa [upd] using h3
    · simpa [upd, hji] using calm_mono (fun _ _ _ _ _ => trivial) h1 (hp.2.1 j)
  | join _ => exact ⟨K, fun _ h => h, hi, hp.2.2 _⟩
  | _ => exact ⟨K, fun _ h => h, hi, hp⟩

theorem calm_reach {st t : State} (h : Reach st t) {K : Kn} {Q : Post} (hQ : Mono Q) (hi : Interp K st.sh)
    (hp : Calm A B s st.prog K Q) : ∃ K', Interp K' t.sh ∧ Calm A B s t.prog K' Q := by
  induction h with
  | refl => exact ⟨K, hi, hp⟩
  | step _ hs ih =>
    obtain ⟨K1, h1, h2⟩ := ih
    cases hs with
    | prog hs =>
      obtain ⟨K2, -, h3, h4⟩ := calm_step hs hQ h1 h2
      exact ⟨K2, h3, h4⟩
    | cancel id _ => exact ⟨K1, h1, h2⟩

theorem never_next {K : Kn} {p : Prog} {a : Act} (hp : Never A K p) (h : Next p a) : ¬ A a := by
  induction h with
  | here => exact hp.1
  | sub i _ _ ih => exact ih (hp.1 i)

theorem calm_together {K : Kn} {p : Prog} {Q : Post} {a b : Act} (hp : Calm A B s p K Q) (h : Together p a b) : A a → ¬ B b := by
  induction h generalizing Q with
  | here i j hij _ _ ha hb =>
    intro hA hB
    rcases hp.1 i j (Or.inl hij) with h | h
    · exact never_next h ha hA
    · exact never_next h hb hB
  | sub i _ _ ih => exact ih (hp.2.1 i)

theorem calm_within {K : Kn} {p : Prog} {Q : Post} {a : Act} (hp : Calm A A True p K Q) (h : Within p a) : ¬ A a := by
  cases h with
  | sub i _ hn => exact (hp.1 i i (Or.inr trivial)).elim (never_next · hn) (never_next · hn)

end Bab.Race
