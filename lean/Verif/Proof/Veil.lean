import Verif.Spec.Veil
import Verif.Proof.Exec
/-
C121: programs that are equal apart from where the output of processes goes, and that the runner gives such programs for a Babfile
and the same one without settings `output` and `color`.
-/

namespace Bab
open Spec

namespace Veil

variable {E : List (Str × Str)}

/-- the programs are equal apart from where the output of processes goes -/
inductive Q (E : List (Str × Str)) : Prog → Prog → Prop
  | ret (r : Option Err) : Q E (.ret r) (.ret r)
  | act (a : Act) {k k' : a.Resp → Prog} (h : ∀ x, Q E (k x) (k' x)) : Q E (.act a k) (.act a k')
  | emit {e e' : Ev} {p q : Prog} (he : veiled E e = veiled E e') (h : Q E p q) : Q E (.note e p) (.note e' q)
  | start {ctx : CtxPath} {loc : Loc} {p p' : ProcSpec} {k k' : Bool → Prog} (hp : hidden E p = hidden E p') (h : ∀ x, Q E (k x) (k' x)) :
      Q E (.act (.start ctx loc p) k) (.act (.start ctx loc p') k')
  | par {lim ctx t it n st} {ps ps' : Fin n → Prog} {k k' : Option Err → Prog} (hp : ∀ i, Q E (ps i) (ps' i)) (h : ∀ r, Q E (k r) (k' r)) :
      Q E (.par lim ctx t it n st ps k) (.par lim ctx t it n st ps' k')

theorem Q.symm {p q : Prog} (h : Q E p q) : Q E q p := by
  induction h with
  | ret r => exact .ret r
  | act a _ ih => exact .act a ih
  | emit he _ ih => exact .emit he.symm ih
  | start hp _ ih => exact .start hp.symm ih
  | par _ _ ihp ih => exact .par ihp ih

/-- the shared states are equal apart from where the output of processes goes -/
structure R (E : List (Str × Str)) (σ τ : Shared) : Prop where
  status : σ.status = τ.status
  gvars : σ.gvars = τ.gvars
  cancelled : σ.cancelled = τ.cancelled
  ctxs : σ.ctxs = τ.ctxs
  trace : σ.trace.map (veiled E) = τ.trace.map (veiled E)

theorem R.cancel {σ τ : Shared} (h : R E σ τ) (ctx : CtxPath) : σ.isCancelled ctx = τ.isCancelled ctx := by
  unfold Shared.isCancelled; rw [h.cancelled]

theorem R.answers {σ τ : Shared} (h : R E σ τ) {a : Act} {x : a.Resp} : a.Answers σ x ↔ a.Answers τ x := by
  cases a <;> simp only [Act.Answers, h.status, h.gvars, h.cancel, h.ctxs]

theorem R.apply {σ τ : Shared} (h : R E σ τ) (a : Act) (x : a.Resp) : R E (a.apply σ x) (a.apply τ x) := by
  obtain ⟨h1, h2, h3, h4, h5⟩ := h
  cases a with
  | claim n => cases x <;> exact ⟨by simp [Act.apply, Act.effect, h1], h2, h3, h4, by simp [Act.apply, h5]⟩
  | _ => exact ⟨by simp [Act.apply, Act.effect, h1], by simp [Act.apply, Act.effect, h2], by simp [Act.apply, Act.effect, h3],
      by simp [Act.apply, Act.effect, h4], by simp [Act.apply, h5]⟩

theorem R.emit {σ τ : Shared} (h : R E σ τ) {e e' : Ev} (he : veiled E e = veiled E e') : R E (Act.apply σ (.emit e) ()) (Act.apply τ (.emit e') ()) :=
  ⟨h.status, h.gvars, h.cancelled, h.ctxs, by simp [Act.apply, Act.evs, h.trace, he]⟩

theorem R.start {σ τ : Shared} (h : R E σ τ) {ctx : CtxPath} {loc : Loc} {p p' : ProcSpec} (hp : hidden E p = hidden E p') (x : Bool) :
    R E (Act.apply σ (.start ctx loc p) x) (Act.apply τ (.start ctx loc p') x) := by
  refine ⟨h.status, h.gvars, h.cancelled, h.ctxs, ?_⟩
  cases x <;> simp [Act.apply, Act.evs, h.trace, veiled, hp]

theorem R.add {σ τ : Shared} (h : R E σ τ) (es : List Ev) : R E { σ with trace := σ.trace ++ es } { τ with trace := τ.trace ++ es } :=
  ⟨h.status, h.gvars, h.cancelled, h.ctxs, by simp [h.trace]⟩

theorem upd_q {n : Nat} {ps ps' : Fin n → Prog} (hp : ∀ i, Q E (ps i) (ps' i)) {i : Fin n} {p p' : Prog} (h : Q E p p') :
    ∀ j, Q E (upd ps i p j) (upd ps' i p' j) := by
  intro j
  unfold upd
  split
  · exact h
  · exact hp j

/-- a step of the first program can be made by the second one -/
theorem forth {p p' : Prog} {σ σ' : Shared} (h : Step p σ p' σ') {q : Prog} (hQ : Q E p q) {τ : Shared} (hR : R E σ τ) :
    ∃ q' τ', Step q τ q' τ' ∧ Q E p' q' ∧ R E σ' τ' := by
  induction h generalizing q τ with
  | @act a k σ x hx =>
    cases hQ with
    | act _ h => exact ⟨_, _, .act x (hR.answers.mp hx), h x, hR.apply a x⟩
    | emit he h => exact ⟨_, _, .act (a := .emit _) () trivial, h, hR.emit he⟩
    | @start ctx loc p p' k k' hp h =>
      exact ⟨_, _, Step.act (a := .start ctx loc p') x (fun hx' => by rw [← hR.cancel]; exact hx hx'), h x, hR.start hp x⟩
  | acquire i h hs => cases hQ with | par hp hk => exact ⟨_, _, .acquire i h hs, .par hp hk, hR⟩
  | abort i h hl hc => cases hQ with | par hp hk => exact ⟨_, _, .abort i h hl (hR.cancel _ ▸ hc), .par hp hk, hR.add _⟩
  | child i h hs ih =>
    cases hQ with
    | par hp hk =>
      obtain ⟨q', τ', h1, h2, h3⟩ := ih (hp i) hR
      exact ⟨_, _, .child i h h1, .par (upd_q hp h2) hk, h3⟩
  | finish i h hr =>
    cases hQ with
    | @par _ _ _ _ _ _ _ ps' _ _ hp hk =>
      have h1 := hp i
      rw [hr] at h1
      generalize hx : ps' i = x at h1
      cases h1
      exact ⟨_, _, .finish i h hx, .par hp hk, hR⟩
  | release i h => cases hQ with | par hp hk => exact ⟨_, _, .release i h, .par hp hk, hR⟩
  | wgDone i h => cases hQ with | par hp hk => exact ⟨_, _, .wgDone i h, .par hp hk, hR⟩
  | join h => cases hQ with | par hp hk => exact ⟨_, _, .join h, hk _, hR⟩

/-- every state of the first program has a counterpart of the second one -/
theorem reach_forth {p q : Prog} (hQ : Q E p q) {g : GoMap Str} {s : State} (h : Reach ⟨p, Shared.init g⟩ s) :
    ∃ s', Reach ⟨q, Shared.init g⟩ s' ∧ Q E s.prog s'.prog ∧ R E s.sh s'.sh := by
  induction h with
  | refl => exact ⟨_, .refl, hQ, ⟨rfl, rfl, rfl, rfl, rfl⟩⟩
  | step _ hs ih =>
    obtain ⟨⟨q', τ⟩, h1, h2, h3⟩ := ih
    cases hs with
    | prog hs =>
      obtain ⟨q2, τ2, k1, k2, k3⟩ := forth hs h2 h3
      exact ⟨⟨q2, τ2⟩, .step h1 (.prog k1), k2, k3⟩
    | cancel id hi =>
      dsimp only at h2 h3
      refine ⟨⟨q', _⟩, .step h1 (.cancel id (by have := h3.ctxs; omega)), h2, ⟨h3.status, h3.gvars, by simp [h3.cancelled], h3.ctxs, ?_⟩⟩
      simp [h3.trace]

end Veil
end Bab
