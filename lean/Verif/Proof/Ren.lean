import Verif.Spec.Transparent
import Verif.Proof.GoMap
/-
Programs that do the same apart from names of tasks and from reading the global variables, which never change.
-/

namespace Bab
open Spec

namespace Ren

/-- what may differ between two programs: results, events, names of tasks and the global variables -/
structure Diff where
  E : Option Err → Option Err → Prop
  V : Ev → Ev → Prop
  N : Str → Str → Prop
  G : GoMap Str
  G' : GoMap Str
  inj : ∀ {a a' b b'}, N a a' → N b b' → (a = b ↔ a' = b')
  ends : ∀ {r r'}, E r r' → (r = none ↔ r' = none)
  canc : ∀ i, V (.cancel i) (.cancel i)

/-- the difference seen from the other side -/
def Diff.flip (d : Diff) : Diff where
  E r r' := d.E r' r
  V e e' := d.V e' e
  N n n' := d.N n' n
  G := d.G'
  G' := d.G
  inj h h' := (d.inj h h').symm
  ends h := (d.ends h).symm
  canc := d.canc

inductive Rel (d : Diff) : Prog → Prog → Prop
  | ret {r r'} (h : d.E r r') : Rel d (.ret r) (.ret r')
  | claim {n n'} {k k' : Option Status → Prog} (hn : d.N n n') (he : d.V (.claimed n) (.claimed n'))
      (h : ∀ x, Rel d (k x) (k' x)) : Rel d (.act (.claim n) k) (.act (.claim n') k')
  | setDone {n n'} {k k' : Unit → Prog} (hn : d.N n n') (he : d.V (.done n) (.done n'))
      (h : ∀ x, Rel d (k x) (k' x)) : Rel d (.act (.setDone n) k) (.act (.setDone n') k')
  | status {n n'} {k k' : Option Status → Prog} (hn : d.N n n')
      (h : ∀ x, Rel d (k x) (k' x)) : Rel d (.act (.status n) k) (.act (.status n') k')
  | snapshot {k k' : GoMap Status → Prog} (h : ∀ x y, Rel d (k x) (k' y)) : Rel d (.act .snapshot k) (.act .snapshot k')
  | globalsL {k : GoMap Str → Prog} {q} (h : Rel d (k d.G) q) : Rel d (.act .globals k) q
  | globalsR {p} {k : GoMap Str → Prog} (h : Rel d p (k d.G')) : Rel d p (.act .globals k)
  | cancelled {c} {k k' : Bool → Prog} (h : ∀ x, Rel d (k x) (k' x)) : Rel d (.act (.cancelled c) k) (.act (.cancelled c) k')
  | newCtx {k k' : Nat → Prog} (h : ∀ x, Rel d (k x) (k' x)) : Rel d (.act .newCtx k) (.act .newCtx k')
  | start {c l l' spec} {k k' : Bool → Prog} (he : d.V (.procStart l spec) (.procStart l' spec))
      (hf : d.V (.procFail l) (.procFail l')) (h : ∀ x, Rel d (k x) (k' x)) :
      Rel d (.act (.start c l spec) k) (.act (.start c l' spec) k')
  | wait {l l'} {k k' : Option Nat → Prog} (he : ∀ x, d.V (.procEnd l x) (.procEnd l' x)) (h : ∀ x, Rel d (k x) (k' x)) :
      Rel d (.act (.wait l) k) (.act (.wait l') k')
  | prompt {l l' p} {k k' : Except Err Str → Prog} (he : ∀ x, d.V (.answered l p.prompt x) (.answered l' p.prompt x))
      (h : ∀ x, Rel d (k x) (k' x)) : Rel d (.act (.prompt l p) k) (.act (.prompt l' p) k')
  | tui {k k' : Bool → Prog} (he : ∀ b, d.V (.tuiStart b) (.tuiStart b)) (h : ∀ x, Rel d (k x) (k' x)) :
      Rel d (.act .tui k) (.act .tui k')
  | emit {e e'} {k k' : Unit → Prog} (he : d.V e e') (h : ∀ x, Rel d (k x) (k' x)) :
      Rel d (.act (.emit e) k) (.act (.emit e') k')
  | fuel {k k' : Unit → Prog} (h : ∀ x, Rel d (k x) (k' x)) : Rel d (.act .fuel k) (.act .fuel k')
  | par {lim ctx t t' it n} {st st' : BState n} {ps ps' : Fin n → Prog} {k k' : Option Err → Prog}
      (he : ∀ j : Fin n, d.V (.subAbort t it j) (.subAbort t' it j))
      (h1 : st.held = st'.held) (h2 : st.wg = st'.wg) (h3 : st.tag = st'.tag) (h4 : d.E st.first st'.first)
      (hp : ∀ i, Rel d (ps i) (ps' i)) (h : ∀ r r', d.E r r' → Rel d (k r) (k' r')) :
      Rel d (.par lim ctx t it n st ps k) (.par lim ctx t' it n st' ps' k')

theorem Rel.flip {d : Diff} {p q : Prog} (h : Rel d p q) : Rel d.flip q p := by
  induction h with
  | ret h => exact .ret h
  | claim hn he _ ih => exact .claim hn he ih
  | setDone hn he _ ih => exact .setDone hn he ih
  | status hn _ ih => exact .status hn ih
  | snapshot _ ih => exact .snapshot fun x y => ih y x
  | globalsL _ ih => exact .globalsR ih
  | globalsR _ ih => exact .globalsL ih
  | cancelled _ ih => exact .cancelled ih
  | newCtx _ ih => exact .newCtx ih
  | start he hf _ ih => exact .start he hf ih
  | wait he _ ih => exact .wait he ih
  | prompt he _ ih => exact .prompt he ih
  | tui he _ ih => exact .tui he ih
  | emit he _ ih => exact .emit he ih
  | fuel _ ih => exact .fuel ih
  | par he h1 h2 h3 h4 _ _ ihp ih =>
    exact .par (d := d.flip) he h1.symm h2.symm h3.symm h4 ihp fun r r' hr => ih r' r hr

/-- the shared states of the two executions -/
structure Sh (d : Diff) (σ τ : Shared) : Prop where
  status : ∀ n n', d.N n n' → σ.status.get? n = τ.status.get? n'
  gl : σ.gvars = d.G
  gr : τ.gvars = d.G'
  cancelled : σ.cancelled = τ.cancelled
  ctxs : σ.ctxs = τ.ctxs
  trace : List.Forall₂ d.V σ.trace τ.trace

theorem Sh.flip {d : Diff} {σ τ : Shared} (h : Sh d σ τ) : Sh d.flip τ σ where
  status n n' hn := (h.status n' n hn).symm
  gl := h.gr
  gr := h.gl
  cancelled := h.cancelled.symm
  ctxs := h.ctxs.symm
  trace := h.trace.flip

theorem Sh.isCancelled {d : Diff} {σ τ : Shared} (h : Sh d σ τ) (c : CtxPath) : σ.isCancelled c = τ.isCancelled c := by
  unfold Shared.isCancelled
  rw [h.cancelled]

/-- the trace grows by related events -/
theorem Sh.grow {d : Diff} {σ τ : Shared} (h : Sh d σ τ) {es es' : List Ev} (he : List.Forall₂ d.V es es') :
    Sh d { σ with trace := σ.trace ++ es } { τ with trace := τ.trace ++ es' } where
  status := h.status
  gl := h.gl
  gr := h.gr
  cancelled := h.cancelled
  ctxs := h.ctxs
  trace := List.rel_append h.trace he

theorem Sh.set {d : Diff} {σ τ : Shared} (h : Sh d σ τ) {n n' : Str} (hn : d.N n n') (s : Status) :
    Sh d { σ with status := σ.status.set n s } { τ with status := τ.status.set n' s } where
  status m m' hm := by
    simp only [GoMap.get?_set]
    have := d.inj hn hm
    by_cases e : n = m
    · rw [if_pos e, if_pos (this.mp e)]
    · rw [if_neg e, if_neg (fun e' => e (this.mpr e'))]
      exact h.status _ _ hm
  gl := h.gl
  gr := h.gr
  cancelled := h.cancelled
  ctxs := h.ctxs
  trace := h.trace

/-- any number of steps -/
inductive Steps : Prog → Shared → Prog → Shared → Prop
  | refl {p σ} : Steps p σ p σ
  | head {p σ p' σ' p'' σ''} (h : Step p σ p' σ') (hs : Steps p' σ' p'' σ'') : Steps p σ p'' σ''

theorem Steps.one {p σ p' σ'} (h : Step p σ p' σ') : Steps p σ p' σ' := .head h .refl

theorem Steps.trans {p σ p' σ' p'' σ''} (h : Steps p σ p' σ') (h' : Steps p' σ' p'' σ'') : Steps p σ p'' σ'' := by
  induction h with
  | refl => exact h'
  | head hs _ ih => exact .head hs (ih h')

theorem upd_upd {n : Nat} {α : Type} (f : Fin n → α) (i : Fin n) (x y : α) : upd (upd f i x) i y = upd f i y := by
  funext j
  unfold upd
  split <;> rfl

theorem upd_self {n : Nat} {α : Type} (f : Fin n → α) (i : Fin n) : upd f i (f i) = f := by
  funext j
  unfold upd
  split
  · rename_i h; rw [h]
  · rfl

theorem upd_at {n : Nat} {α : Type} (f : Fin n → α) (i : Fin n) (x : α) : upd f i x i = x := by simp [upd]

theorem Steps.child {lim ctx t it n} {st : BState n} {ps k} {i : Fin n} {p σ p' σ'} (h : Steps p σ p' σ') (ht : st.tag i = .running) :
    Steps (.par lim ctx t it n st (upd ps i p) k) σ (.par lim ctx t it n st (upd ps i p') k) σ' := by
  induction h with
  | refl => exact .refl
  | @head p σ p' σ' _ _ hs _ ih =>
    refine .head (p' := .par lim ctx t it n st (upd ps i p') k) ?_ ih
    have := Step.child (lim := lim) (ctx := ctx) (t := t) (it := it) (st := st) (ps := upd ps i p) (k := k) i ht
      (by rw [upd_at]; exact hs)
    rw [upd_upd] at this
    exact this

theorem apply_globals {σ : Shared} {x : GoMap Str} : Act.apply σ .globals x = σ := by
  unfold Act.apply Act.effect Act.evs
  simp

theorem step_globals {τ : Shared} {k : GoMap Str → Prog} : Step (.act .globals k) τ (k τ.gvars) τ := by
  have h : Step (.act .globals k) τ (k τ.gvars) (Act.apply τ .globals τ.gvars) := Step.act (a := .globals) (k := k) τ.gvars rfl
  rw [apply_globals] at h
  exact h

/-- when the one is at its end the other one has at most to read global variables -/
theorem ends {d : Diff} {p q : Prog} (h : Rel d p q) {r : Option Err} (hp : p = .ret r) {τ : Shared} (ht : τ.gvars = d.G') :
    ∃ r', Steps q τ (.ret r') τ ∧ d.E r r' := by
  induction h with
  | ret he => cases hp; exact ⟨_, .refl, he⟩
  | @globalsR p k _ ih =>
    obtain ⟨r', h1, h2⟩ := ih hp
    refine ⟨r', .head (step_globals) ?_, h2⟩
    rw [ht]
    exact h1
  | _ => cases hp

theorem upd_rel {d : Diff} {n : Nat} {ps ps' : Fin n → Prog} (hp : ∀ i, Rel d (ps i) (ps' i)) {i : Fin n} {p p' : Prog}
    (h : Rel d p p') : ∀ j, Rel d (upd ps i p j) (upd ps' i p' j) := by
  intro j
  unfold upd
  split
  · exact h
  · exact hp j

theorem once_rel {d : Diff} {f f' r r' : Option Err} (h : d.E f f') (h' : d.E r r') : d.E (once f r) (once f' r') := by
  unfold once
  have := d.ends h
  cases f <;> cases f' <;> simp_all

/-- whatever the one program does the other one can do -/
theorem step {d : Diff} {p q : Prog} (hr : Rel d p q) {σ σ' τ : Shared} {p' : Prog} (h : Step p σ p' σ') (hs : Sh d σ τ) :
    ∃ q' τ', Steps q τ q' τ' ∧ Rel d p' q' ∧ Sh d σ' τ' := by
  induction hr generalizing p' σ σ' τ with
  | ret _ => cases h
  | @claim n n' k k' hn he hk _ =>
    cases h with
    | act x hx =>
      have hx : x = σ.status.get? n := hx
      refine ⟨_, _, .one (.act (a := .claim n') x (by show x = _; rw [hx, hs.status _ _ hn])), hk x, ?_⟩
      cases x with
      | none => exact (hs.set hn .running).grow (.cons he .nil)
      | some x => exact hs.grow .nil
  | @setDone n n' k k' hn he hk _ =>
    cases h with
    | act x hx => exact ⟨_, _, .one (.act (a := .setDone n') x trivial), hk x, (hs.set hn .done).grow (.cons he .nil)⟩
  | @status n n' k k' hn hk _ =>
    cases h with
    | act x hx =>
      have hx : x = σ.status.get? n := hx
      exact ⟨_, _, .one (.act (a := .status n') x (by show x = _; rw [hx, hs.status _ _ hn])), hk x, hs.grow .nil⟩
  | snapshot hk _ =>
    cases h with
    | act x hx => exact ⟨_, _, .one (.act (a := .snapshot) τ.status rfl), hk _ _, hs.grow .nil⟩
  | globalsL hk _ =>
    cases h with
    | act x hx =>
      have hx : x = σ.gvars := hx
      rw [hs.gl] at hx
      subst hx
      exact ⟨_, _, .refl, hk, by rw [apply_globals]; exact hs⟩
  | globalsR _ ih =>
    obtain ⟨q', τ', h1, h2⟩ := ih h hs
    refine ⟨q', τ', .head step_globals ?_, h2⟩
    rw [hs.gr]
    exact h1
  | @cancelled c k k' hk _ =>
    cases h with
    | act x hx =>
      have hx : x = σ.isCancelled c := hx
      exact ⟨_, _, .one (.act (a := .cancelled c) x (by show x = _; rw [hx, hs.isCancelled])), hk x, hs.grow .nil⟩
  | newCtx hk _ =>
    cases h with
    | act x hx =>
      have hx : x = σ.ctxs := hx
      refine ⟨_, _, .one (.act (a := .newCtx) x (by show x = _; rw [hx, hs.ctxs])), hk x, ?_⟩
      exact ⟨hs.status, hs.gl, hs.gr, hs.cancelled, by show σ.ctxs + 1 = τ.ctxs + 1; rw [hs.ctxs], List.rel_append hs.trace .nil⟩
  | @start c l l' spec k k' he hf hk _ =>
    cases h with
    | act x hx =>
      have hx : x = true → σ.isCancelled c = false := hx
      refine ⟨_, _, .one (.act (a := .start c l' spec) x (by show x = true → _; rw [← hs.isCancelled]; exact hx)), hk x, ?_⟩
      cases x with
      | true => exact hs.grow (.cons he .nil)
      | false => exact hs.grow (.cons hf .nil)
  | @wait l l' k k' he hk _ =>
    cases h with
    | act x hx => exact ⟨_, _, .one (.act (a := .wait l') x trivial), hk x, hs.grow (.cons (he x) .nil)⟩
  | @prompt l l' p k k' he hk _ =>
    cases h with
    | act x hx => exact ⟨_, _, .one (.act (a := .prompt l' p) x hx), hk x, hs.grow (.cons (he x) .nil)⟩
  | tui he hk _ =>
    cases h with
    | act x hx => exact ⟨_, _, .one (.act (a := .tui) x trivial), hk x, hs.grow (.cons (he x) .nil)⟩
  | @emit e e' k k' he hk _ =>
    cases h with
    | act x hx => exact ⟨_, _, .one (.act (a := .emit e') x trivial), hk x, hs.grow (.cons he .nil)⟩
  | fuel hk _ =>
    cases h with
    | act x hx => exact ⟨_, _, .one (.act (a := .fuel) x trivial), hk x, hs.grow .nil⟩
  | @par lim ctx t t' it n st st' ps ps' k k' he h1 h2 h3 h4 hp hk ihp _ =>
    cases h with
    | acquire i ht hl =>
      refine ⟨_, _, .one (.acquire i (h3 ▸ ht) (h1 ▸ hl)), ?_, hs⟩
      exact .par he (by simp only [h1]) h2 (by simp only [h3]) h4 hp hk
    | abort i ht hl hc =>
      refine ⟨_, _, .one (.abort i (h3 ▸ ht) hl (by rw [← hs.isCancelled]; exact hc)), ?_, hs.grow (.cons (he i) .nil)⟩
      exact .par he h1 (by simp only [h2]) (by simp only [h3]) h4 hp hk
    | child i ht hc =>
      obtain ⟨q', τ', g1, g2, g3⟩ := ihp i hc hs
      have := g1.child (lim := lim) (ctx := ctx) (t := t') (it := it) (st := st') (ps := ps') (k := k') (i := i) (h3 ▸ ht)
      rw [upd_self] at this
      exact ⟨_, τ', this, .par he h1 h2 h3 h4 (upd_rel hp g2) hk, g3⟩
    | finish i ht hret =>
      obtain ⟨r', g1, g2⟩ := ends (hp i) hret hs.gr
      have := g1.child (lim := lim) (ctx := ctx) (t := t') (it := it) (st := st') (ps := ps') (k := k') (i := i) (h3 ▸ ht)
      rw [upd_self] at this
      refine ⟨_, τ, this.trans (.one (.finish i (h3 ▸ ht) (upd_at ps' i _))), ?_, hs⟩
      refine .par he h1 h2 (by simp only [h3]) (once_rel h4 g2) ?_ hk
      intro j
      unfold upd
      split
      · rename_i hj
        rw [hj, hret]
        exact .ret g2
      · exact hp j
    | release i ht =>
      refine ⟨_, _, .one (.release i (h3 ▸ ht)), ?_, hs⟩
      exact .par he (by simp only [h1]) h2 (by simp only [h3]) h4 hp hk
    | wgDone i ht =>
      refine ⟨_, _, .one (.wgDone i (h3 ▸ ht)), ?_, hs⟩
      exact .par he h1 (by simp only [h2]) (by simp only [h3]) h4 hp hk
    | join hw => exact ⟨_, _, .one (.join (h2 ▸ hw)), hk _ _ h4, hs⟩

theorem reach_steps {s : State} {p : Prog} {σ : Shared} (h : Reach s ⟨p, σ⟩) {p' : Prog} {σ' : Shared} (hs : Steps p σ p' σ') :
    Reach s ⟨p', σ'⟩ := by
  induction hs with
  | refl => exact h
  | head h1 _ ih => exact ih (h.step (.prog h1))

/-- whatever happens in the one execution can happen in the other one -/
theorem reach {d : Diff} {p q : Prog} (hr : Rel d p q) {σ τ : Shared} (hs : Sh d σ τ) {s : State} (h : Reach ⟨p, σ⟩ s) :
    ∃ s', Reach ⟨q, τ⟩ s' ∧ Rel d s.prog s'.prog ∧ Sh d s.sh s'.sh ∧ ∀ r, s.prog = .ret r → ∃ r', s'.prog = .ret r' ∧ d.E r r' := by
  have key : ∃ s', Reach ⟨q, τ⟩ s' ∧ Rel d s.prog s'.prog ∧ Sh d s.sh s'.sh := by
    induction h with
    | refl => exact ⟨_, .refl, hr, hs⟩
    | @step t u _ hst ih =>
      obtain ⟨⟨q1, τ1⟩, h1, h2, h3⟩ := ih
      cases hst with
      | prog hp =>
        obtain ⟨q2, τ2, g1, g2, g3⟩ := step h2 hp h3
        exact ⟨⟨q2, τ2⟩, reach_steps h1 g1, g2, g3⟩
      | @cancel p2 σ2 id hid =>
        refine ⟨_, h1.step (.cancel id (by have := h3.ctxs; simp only at this; omega)), h2, ?_⟩
        refine ⟨h3.status, h3.gl, h3.gr, ?_, h3.ctxs, List.rel_append h3.trace (.cons (d.canc id) .nil)⟩
        have := h3.cancelled
        simp only at this
        simp only [this]
  obtain ⟨⟨q1, τ1⟩, h1, h2, h3⟩ := key
  cases hp : s.prog with
  | ret r =>
    obtain ⟨r', g1, g2⟩ := ends h2 hp h3.gr
    refine ⟨⟨.ret r', τ1⟩, reach_steps h1 g1, .ret g2, h3, ?_⟩
    intro r2 hr2
    cases hr2
    exact ⟨r', rfl, g2⟩
  | act a k => exact ⟨⟨q1, τ1⟩, h1, hp ▸ h2, h3, fun r hr => by cases hr⟩
  | par => exact ⟨⟨q1, τ1⟩, h1, hp ▸ h2, h3, fun r hr => by cases hr⟩

end Ren
end Bab
