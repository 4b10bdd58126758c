import Verif.Spec.Silent
import Verif.Proof.Exec
/-
C120: programs that are equal apart from announcements, and that the runner gives such programs for a Babfile and the same one
with everything silent.
-/

namespace Bab
open Spec

namespace Silent

/-- the first program is the second one with announcements in between -/
inductive Q : Prog → Prog → Prop
  | ret (r : Option Err) : Q (.ret r) (.ret r)
  | act (a : Act) {k k' : a.Resp → Prog} (h : ∀ x, Q (k x) (k' x)) : Q (.act a k) (.act a k')
  | emit {e e' : Ev} {p q : Prog} (he : unsaid e = unsaid e') (h : Q p q) : Q (.note e p) (.note e' q)
  | par {lim ctx t it n st} {ps ps' : Fin n → Prog} {k k' : Option Err → Prog} (hp : ∀ i, Q (ps i) (ps' i)) (h : ∀ r, Q (k r) (k' r)) :
      Q (.par lim ctx t it n st ps k) (.par lim ctx t it n st ps' k')
  | left {e : Ev} {p q : Prog} (he : unsaid e = none) (h : Q p q) : Q (.note e p) q

/-- the shared states are equal apart from announcements -/
structure R (σ τ : Shared) : Prop where
  status : σ.status = τ.status
  gvars : σ.gvars = τ.gvars
  cancelled : σ.cancelled = τ.cancelled
  ctxs : σ.ctxs = τ.ctxs
  trace : besides σ.trace = besides τ.trace

theorem besides_append (a b : List Ev) : besides (a ++ b) = besides a ++ besides b := List.filterMap_append

theorem R.cancel {σ τ : Shared} (h : R σ τ) (ctx : CtxPath) : σ.isCancelled ctx = τ.isCancelled ctx := by
  unfold Shared.isCancelled; rw [h.cancelled]

theorem R.answers {σ τ : Shared} (h : R σ τ) {a : Act} {x : a.Resp} : a.Answers σ x ↔ a.Answers τ x := by
  cases a <;> simp only [Act.Answers, h.status, h.gvars, h.cancel, h.ctxs]

theorem R.apply {σ τ : Shared} (h : R σ τ) (a : Act) (x : a.Resp) : R (a.apply σ x) (a.apply τ x) := by
  obtain ⟨h1, h2, h3, h4, h5⟩ := h
  cases a with
  | claim n => cases x <;> exact ⟨by simp [Act.apply, Act.effect, h1], h2, h3, h4, by simp [Act.apply, besides_append, h5]⟩
  | _ => exact ⟨by simp [Act.apply, Act.effect, h1], by simp [Act.apply, Act.effect, h2], by simp [Act.apply, Act.effect, h3],
      by simp [Act.apply, Act.effect, h4], by simp [Act.apply, besides_append, h5]⟩

theorem R.emit {σ τ : Shared} (h : R σ τ) {e e' : Ev} (he : unsaid e = unsaid e') : R (Act.apply σ (.emit e) ()) (Act.apply τ (.emit e') ()) :=
  ⟨h.status, h.gvars, h.cancelled, h.ctxs, by simp only [Act.apply, Act.evs, besides_append, h.trace]; simp [besides, he, List.filterMap_cons]⟩

theorem R.skip {σ τ : Shared} (h : R σ τ) {e : Ev} (he : unsaid e = none) : R (Act.apply σ (.emit e) ()) τ :=
  ⟨h.status, h.gvars, h.cancelled, h.ctxs, by simp only [Act.apply, Act.evs, besides_append, h.trace]; simp [besides, he]⟩

theorem R.add {σ τ : Shared} (h : R σ τ) (es : List Ev) : R { σ with trace := σ.trace ++ es } { τ with trace := τ.trace ++ es } :=
  ⟨h.status, h.gvars, h.cancelled, h.ctxs, by simp only [besides_append, h.trace]⟩

theorem upd_q {n : Nat} {ps ps' : Fin n → Prog} (hp : ∀ i, Q (ps i) (ps' i)) {i : Fin n} {p p' : Prog} (h : Q p p') :
    ∀ j, Q (upd ps i p j) (upd ps' i p' j) := by
  intro j
  unfold upd
  split
  · exact h
  · exact hp j

/-- several steps -/
inductive Steps : Prog → Shared → Prog → Shared → Prop
  | refl {p σ} : Steps p σ p σ
  | step {p σ q τ r ρ} (h : Step p σ q τ) (hs : Steps q τ r ρ) : Steps p σ r ρ

theorem Steps.trans {p q r : Prog} {σ τ ρ : Shared} (h : Steps p σ q τ) (h' : Steps q τ r ρ) : Steps p σ r ρ := by
  induction h with
  | refl => exact h'
  | step h _ ih => exact .step h (ih h')

theorem upd_upd {n : Nat} {ps : Fin n → Prog} {i : Fin n} {p q : Prog} : upd (upd ps i p) i q = upd ps i q := by
  funext j; unfold upd; split <;> rfl

theorem Steps.child {lim ctx t it n} {st : BState n} {ps : Fin n → Prog} {k : Option Err → Prog} {i : Fin n} (ht : st.tag i = .running) {p q : Prog}
    {σ τ : Shared} (h : Steps p σ q τ) : Steps (.par lim ctx t it n st (upd ps i p) k) σ (.par lim ctx t it n st (upd ps i q) k) τ := by
  induction h with
  | refl => exact .refl
  | @step p σ q τ r ρ h _ ih =>
    refine .step (.child i ht (p' := q) (σ' := τ) (by simpa [upd] using h)) ?_
    rw [upd_upd]
    exact ih

theorem upd_self {n : Nat} {ps : Fin n → Prog} {i : Fin n} : upd ps i (ps i) = ps := by
  funext j; unfold upd; split
  · rename_i h; rw [h]
  · rfl

theorem Steps.inside {lim ctx t it n} {st : BState n} {ps : Fin n → Prog} {k : Option Err → Prog} {i : Fin n} (ht : st.tag i = .running) {q : Prog}
    {σ τ : Shared} (h : Steps (ps i) σ q τ) : Steps (.par lim ctx t it n st ps k) σ (.par lim ctx t it n st (upd ps i q) k) τ := by
  have := Steps.child (lim := lim) (ctx := ctx) (t := t) (it := it) (ps := ps) (k := k) ht h
  rwa [upd_self] at this

/-- announcements that are left can be made -/
theorem drain {p : Prog} {r : Option Err} (h : Q p (.ret r)) {σ τ : Shared} (hR : R σ τ) : ∃ σ', Steps p σ (.ret r) σ' ∧ R σ' τ := by
  generalize hq : Prog.ret r = q at h
  induction h generalizing σ with
  | ret r' => cases hq; exact ⟨σ, .refl, hR⟩
  | left he _ ih =>
    obtain ⟨σ', h1, h2⟩ := ih (hR.skip he) hq
    exact ⟨σ', .step (.act (a := .emit _) () trivial) h1, h2⟩
  | _ => cases hq

/-- a step of the first program is made by the second one, or it is an announcement -/
theorem forth {p p' : Prog} {σ σ' : Shared} (h : Step p σ p' σ') {q : Prog} (hQ : Q p q) {τ : Shared} (hR : R σ τ) :
    ∃ q' τ', Steps q τ q' τ' ∧ Q p' q' ∧ R σ' τ' := by
  induction h generalizing q τ with
  | @act a k σ x hx =>
    cases hQ with
    | act _ h => exact ⟨_, _, .step (.act x (hR.answers.mp hx)) .refl, h x, hR.apply a x⟩
    | emit he h => exact ⟨_, _, .step (.act (a := .emit _) () trivial) .refl, h, hR.emit he⟩
    | left he h => exact ⟨_, _, .refl, h, hR.skip he⟩
  | acquire i h hs => cases hQ with | par hp hk => exact ⟨_, _, .step (.acquire i h hs) .refl, .par hp hk, hR⟩
  | abort i h hl hc => cases hQ with | par hp hk => exact ⟨_, _, .step (.abort i h hl (hR.cancel _ ▸ hc)) .refl, .par hp hk, hR.add _⟩
  | child i h hs ih =>
    cases hQ with
    | @par _ _ _ _ _ _ _ ps' _ _ hp hk =>
      obtain ⟨q', τ', h1, h2, h3⟩ := ih (hp i) hR
      exact ⟨_, _, h1.inside h, .par (upd_q hp h2) hk, h3⟩
  | finish i h hr =>
    cases hQ with
    | @par _ _ _ _ _ _ _ ps' _ _ hp hk =>
      have h1 := hp i
      rw [hr] at h1
      generalize hx : ps' i = x at h1
      cases h1
      exact ⟨_, _, .step (.finish i h hx) .refl, .par hp hk, hR⟩
  | release i h => cases hQ with | par hp hk => exact ⟨_, _, .step (.release i h) .refl, .par hp hk, hR⟩
  | wgDone i h => cases hQ with | par hp hk => exact ⟨_, _, .step (.wgDone i h) .refl, .par hp hk, hR⟩
  | join h => cases hQ with | par hp hk => exact ⟨_, _, .step (.join h) .refl, hk _, hR⟩

/-- a step of the second program is made by the first one, after announcements -/
theorem back {q q' : Prog} {τ τ' : Shared} (h : Step q τ q' τ') {p : Prog} (hQ : Q p q) {σ : Shared} (hR : R σ τ) :
    ∃ p' σ', Steps p σ p' σ' ∧ Q p' q' ∧ R σ' τ' := by
  induction h generalizing p σ with
  | @act a k τ x hx =>
    generalize hz : Prog.act a k = z at hQ
    induction hQ generalizing σ with
    | act a' h => cases hz; exact ⟨_, _, .step (.act x (hR.answers.mpr hx)) .refl, h x, hR.apply a x⟩
    | emit he h => cases hz; exact ⟨_, _, .step (.act (a := .emit _) () trivial) .refl, h, hR.emit he⟩
    | left he _ ih =>
      obtain ⟨p', σ', h1, h2, h3⟩ := ih (hR.skip he) hz
      exact ⟨p', σ', .step (.act (a := .emit _) () trivial) h1, h2, h3⟩
    | _ => cases hz
  | @acquire lim ctx t it n st ps k τ i h hs =>
    generalize hz : Prog.par lim ctx t it n st ps k = z at hQ
    induction hQ generalizing σ with
    | par hp hk => cases hz; exact ⟨_, _, .step (.acquire i h hs) .refl, .par hp hk, hR⟩
    | left he _ ih =>
      obtain ⟨p', σ', h1, h2, h3⟩ := ih (hR.skip he) hz
      exact ⟨p', σ', .step (.act (a := .emit _) () trivial) h1, h2, h3⟩
    | _ => cases hz
  | @abort lim ctx t it n st ps k τ i h hl hc =>
    generalize hz : Prog.par lim ctx t it n st ps k = z at hQ
    induction hQ generalizing σ with
    | par hp hk => cases hz; exact ⟨_, _, .step (.abort i h hl (by rw [hR.cancel]; exact hc)) .refl, .par hp hk, hR.add _⟩
    | left he _ ih =>
      obtain ⟨p', σ', h1, h2, h3⟩ := ih (hR.skip he) hz
      exact ⟨p', σ', .step (.act (a := .emit _) () trivial) h1, h2, h3⟩
    | _ => cases hz
  | @child lim ctx t it n st ps k τ q' τ' i h hs ihs =>
    generalize hz : Prog.par lim ctx t it n st ps k = z at hQ
    induction hQ generalizing σ with
    | @par _ _ _ _ _ _ ps0 _ _ _ hp hk =>
      cases hz
      obtain ⟨p', σ', h1, h2, h3⟩ := ihs (hp i) hR
      exact ⟨_, _, h1.inside h, .par (upd_q hp h2) hk, h3⟩
    | left he _ ih =>
      obtain ⟨p', σ', h1, h2, h3⟩ := ih (hR.skip he) hz
      exact ⟨p', σ', .step (.act (a := .emit _) () trivial) h1, h2, h3⟩
    | _ => cases hz
  | @finish lim ctx t it n st ps k τ r i h hr =>
    generalize hz : Prog.par lim ctx t it n st ps k = z at hQ
    induction hQ generalizing σ with
    | @par _ _ _ _ _ _ ps0 _ _ _ hp hk =>
      cases hz
      have h1 := hp i
      rw [hr] at h1
      obtain ⟨σ', h2, h3⟩ := drain h1 hR
      refine ⟨_, _, (h2.inside h).trans (.step (.finish (r := r) i h (by simp [upd])) .refl), .par (fun j => ?_) hk, h3⟩
      unfold upd
      split
      · rename_i hj; rw [hj, hr]; exact .ret r
      · exact hp j
    | left he _ ih =>
      obtain ⟨p', σ', h1, h2, h3⟩ := ih (hR.skip he) hz
      exact ⟨p', σ', .step (.act (a := .emit _) () trivial) h1, h2, h3⟩
    | _ => cases hz
  | @release lim ctx t it n st ps k τ i h =>
    generalize hz : Prog.par lim ctx t it n st ps k = z at hQ
    induction hQ generalizing σ with
    | par hp hk => cases hz; exact ⟨_, _, .step (.release i h) .refl, .par hp hk, hR⟩
    | left he _ ih =>
      obtain ⟨p', σ', h1, h2, h3⟩ := ih (hR.skip he) hz
      exact ⟨p', σ', .step (.act (a := .emit _) () trivial) h1, h2, h3⟩
    | _ => cases hz
  | @wgDone lim ctx t it n st ps k τ i h =>
    generalize hz : Prog.par lim ctx t it n st ps k = z at hQ
    induction hQ generalizing σ with
    | par hp hk => cases hz; exact ⟨_, _, .step (.wgDone i h) .refl, .par hp hk, hR⟩
    | left he _ ih =>
      obtain ⟨p', σ', h1, h2, h3⟩ := ih (hR.skip he) hz
      exact ⟨p', σ', .step (.act (a := .emit _) () trivial) h1, h2, h3⟩
    | _ => cases hz
  | @join lim ctx t it n st ps k τ h =>
    generalize hz : Prog.par lim ctx t it n st ps k = z at hQ
    induction hQ generalizing σ with
    | par hp hk => cases hz; exact ⟨_, _, .step (.join h) .refl, hk _, hR⟩
    | left he _ ih =>
      obtain ⟨p', σ', h1, h2, h3⟩ := ih (hR.skip he) hz
      exact ⟨p', σ', .step (.act (a := .emit _) () trivial) h1, h2, h3⟩
    | _ => cases hz

theorem Steps.reach {a : State} {p q : Prog} {σ τ : Shared} (h : Steps p σ q τ) (hr : Reach a ⟨p, σ⟩) : Reach a ⟨q, τ⟩ := by
  induction h with
  | refl => exact hr
  | step h _ ih => exact ih (.step hr (.prog h))

/-- every state of the first program has a counterpart of the second one -/
theorem reach_forth {p q : Prog} (hQ : Q p q) {g : GoMap Str} {s : State} (h : Reach ⟨p, Shared.init g⟩ s) :
    ∃ s', Reach ⟨q, Shared.init g⟩ s' ∧ Q s.prog s'.prog ∧ R s.sh s'.sh := by
  induction h with
  | refl => exact ⟨_, .refl, hQ, ⟨rfl, rfl, rfl, rfl, rfl⟩⟩
  | step _ hs ih =>
    obtain ⟨⟨q', τ⟩, h1, h2, h3⟩ := ih
    cases hs with
    | prog hs =>
      obtain ⟨q2, τ2, k1, k2, k3⟩ := forth hs h2 h3
      exact ⟨⟨q2, τ2⟩, k1.reach h1, k2, k3⟩
    | cancel id hi =>
      dsimp only at h2 h3
      refine ⟨⟨q', _⟩, .step h1 (.cancel id (by have := h3.ctxs; omega)), h2, ⟨h3.status, h3.gvars, by simp [h3.cancelled], h3.ctxs, ?_⟩⟩
      simp only [besides_append, h3.trace]

/-- every state of the second program has a counterpart of the first one -/
theorem reach_back {p q : Prog} (hQ : Q p q) {g : GoMap Str} {s' : State} (h : Reach ⟨q, Shared.init g⟩ s') :
    ∃ s, Reach ⟨p, Shared.init g⟩ s ∧ Q s.prog s'.prog ∧ R s.sh s'.sh := by
  induction h with
  | refl => exact ⟨_, .refl, hQ, ⟨rfl, rfl, rfl, rfl, rfl⟩⟩
  | step _ hs ih =>
    obtain ⟨⟨q', τ⟩, h1, h2, h3⟩ := ih
    cases hs with
    | prog hs =>
      obtain ⟨q2, τ2, k1, k2, k3⟩ := back hs h2 h3
      exact ⟨⟨q2, τ2⟩, k1.reach h1, k2, k3⟩
    | cancel id hi =>
      dsimp only at h2 h3
      refine ⟨⟨q', _⟩, .step h1 (.cancel id (by have := h3.ctxs; omega)), h2, ⟨h3.status, h3.gvars, by simp [h3.cancelled], h3.ctxs, ?_⟩⟩
      simp only [besides_append, h3.trace]

end Silent
end Bab
