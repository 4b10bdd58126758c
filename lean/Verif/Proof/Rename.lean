import Verif.Spec.Rename
import Verif.Proof.RenRun
/-
Programs that do the same apart from names of tasks: each step of the one is a step of the other.
-/

namespace Bab
open Spec

namespace Rename

/-- what may differ between two programs: results, events and names of tasks -/
structure Diff where
  E : Option Err → Option Err → Prop
  V : Ev → Ev → Prop
  N : Str → Str → Prop
  inj : ∀ {a a' b b'}, N a a' → N b b' → (a = b ↔ a' = b')
  ends : ∀ {r r'}, E r r' → (r = none ↔ r' = none)
  canc : ∀ i, V (.cancel i) (.cancel i)

/-- the difference seen from the other side -/
def Diff.flip (d : Diff) : Diff where
  E r r' := d.E r' r
  V e e' := d.V e' e
  N n n' := d.N n' n
  inj h h' := (d.inj h h').symm
  ends h := (d.ends h).symm
  canc := d.canc

/-- what a prompt can answer -/
def Fair (r : Except Err Str) : Prop := ∀ e, r = .error e → e = .canceled ∨ ∃ reason, e = .prompt reason

inductive Rel (d : Diff) : Prog → Prog → Prop
  | ret {r r'} (h : d.E r r') : Rel d (.ret r) (.ret r')
  | claim {n n'} {k k' : Option Status → Prog} (hn : d.N n n') (he : d.V (.claimed n) (.claimed n'))
      (h : ∀ x, Rel d (k x) (k' x)) : Rel d (.act (.claim n) k) (.act (.claim n') k')
  | setDone {n n'} {k k' : Unit → Prog} (hn : d.N n n') (he : d.V (.done n) (.done n'))
      (h : ∀ x, Rel d (k x) (k' x)) : Rel d (.act (.setDone n) k) (.act (.setDone n') k')
  | status {n n'} {k k' : Option Status → Prog} (hn : d.N n n')
      (h : ∀ x, Rel d (k x) (k' x)) : Rel d (.act (.status n) k) (.act (.status n') k')
  | snapshot {k k' : GoMap Status → Prog}
      (h : ∀ x y, (∀ n n', d.N n n' → GoMap.get? x n = GoMap.get? y n') → Rel d (k x) (k' y)) :
      Rel d (.act .snapshot k) (.act .snapshot k')
  | globals {k k' : GoMap Str → Prog} (h : ∀ x, Rel d (k x) (k' x)) : Rel d (.act .globals k) (.act .globals k')
  | setGlobal {n v} {k k' : Unit → Prog} (h : ∀ x, Rel d (k x) (k' x)) : Rel d (.act (.setGlobal n v) k) (.act (.setGlobal n v) k')
  | cancelled {c} {k k' : Bool → Prog} (h : ∀ x, Rel d (k x) (k' x)) : Rel d (.act (.cancelled c) k) (.act (.cancelled c) k')
  | newCtx {k k' : Nat → Prog} (h : ∀ x, Rel d (k x) (k' x)) : Rel d (.act .newCtx k) (.act .newCtx k')
  | start {c l l' spec} {k k' : Bool → Prog} (he : d.V (.procStart l spec) (.procStart l' spec))
      (hf : d.V (.procFail l) (.procFail l')) (h : ∀ x, Rel d (k x) (k' x)) :
      Rel d (.act (.start c l spec) k) (.act (.start c l' spec) k')
  | wait {l l'} {k k' : Option Nat → Prog} (he : ∀ x, d.V (.procEnd l x) (.procEnd l' x)) (h : ∀ x, Rel d (k x) (k' x)) :
      Rel d (.act (.wait l) k) (.act (.wait l') k')
  | prompt {l l' p} {k k' : Except Err Str → Prog} (he : ∀ x, d.V (.answered l p.prompt x) (.answered l' p.prompt x))
      (h : ∀ x, Fair x → Rel d (k x) (k' x)) : Rel d (.act (.prompt l p) k) (.act (.prompt l' p) k')
  | tui {k k' : Bool → Prog} (he : ∀ b, d.V (.tuiStart b) (.tuiStart b)) (h : ∀ x, Rel d (k x) (k' x)) :
      Rel d (.act .tui k) (.act .tui k')
  | emit {e e'} {k k' : Unit → Prog} (he : d.V e e') (h : ∀ x, Rel d (k x) (k' x)) :
      Rel d (.act (.emit e) k) (.act (.emit e') k')
  | fuel {k k' : Unit → Prog} (h : ∀ x, Rel d (k x) (k' x)) : Rel d (.act .fuel k) (.act .fuel k')
  | par {lim ctx t t' it n} {st st' : BState n} {ps ps' : Fin n → Prog} {k k' : Option Err → Prog}
      (he : ∀ j : Fin n, d.V (.subAbort t it j) (.subAbort t' it j))
      (h1 : st.held = st'.held) (h2 : st.wg = st'.wg) (h3 : st.tag = st'.tag) (h4 : d.E st.first st'.first)
      (hp : ∀ i, Rel d (ps i) (ps' i)) (h : ∀ r r', d.E r r' → Rel d (k r) (k' r')) :
      Rel d (.par lim ctx t it n st ps k) (.par lim ctx t' it n st' ps' k')

theorem Rel.flip {d : Diff} {p q : Prog} (h : Rel d p q) : Rel d.flip q p := by
  induction h with
  | ret h => exact .ret h
  | claim hn he _ ih => exact .claim hn he ih
  | setDone hn he _ ih => exact .setDone hn he ih
  | status hn _ ih => exact .status hn ih
  | snapshot _ ih => exact .snapshot fun x y h => ih y x fun n n' hn => (h n' n hn).symm
  | globals _ ih => exact .globals ih
  | setGlobal _ ih => exact .setGlobal ih
  | cancelled _ ih => exact .cancelled ih
  | newCtx _ ih => exact .newCtx ih
  | start he hf _ ih => exact .start he hf ih
  | wait he _ ih => exact .wait he ih
  | prompt he _ ih => exact .prompt he ih
  | tui he _ ih => exact .tui he ih
  | emit he _ ih => exact .emit he ih
  | fuel _ ih => exact .fuel ih
  | par he h1 h2 h3 h4 _ _ ihp ih =>
    exact .par (d := d.flip) he h1.symm h2.symm h3.symm h4 ihp fun r r' hr => ih r' r hr

/-- the shared states of the two executions -/
structure Sh (d : Diff) (σ τ : Shared) : Prop where
  status : ∀ n n', d.N n n' → σ.status.get? n = τ.status.get? n'
  gvars : σ.gvars = τ.gvars
  cancelled : σ.cancelled = τ.cancelled
  ctxs : σ.ctxs = τ.ctxs
  trace : List.Forall₂ d.V σ.trace τ.trace

theorem Sh.flip {d : Diff} {σ τ : Shared} (h : Sh d σ τ) : Sh d.flip τ σ where
  status n n' hn := (h.status n' n hn).symm
  gvars := h.gvars.symm
  cancelled := h.cancelled.symm
  ctxs := h.ctxs.symm
  trace := h.trace.flip

theorem Sh.isCancelled {d : Diff} {σ τ : Shared} (h : Sh d σ τ) (c : CtxPath) : σ.isCancelled c = τ.isCancelled c := by
  unfold Shared.isCancelled
  rw [h.cancelled]

/-- the trace grows by related events -/
theorem Sh.grow {d : Diff} {σ τ : Shared} (h : Sh d σ τ) {es es' : List Ev} (he : List.Forall₂ d.V es es') :
    Sh d { σ with trace := σ.trace ++ es } { τ with trace := τ.trace ++ es' } where
  status := h.status
  gvars := h.gvars
  cancelled := h.cancelled
  ctxs := h.ctxs
  trace := List.rel_append h.trace he

theorem Sh.set {d : Diff} {σ τ : Shared} (h : Sh d σ τ) {n n' : Str} (hn : d.N n n') (s : Status) :
    Sh d { σ with status := σ.status.set n s } { τ with status := τ.status.set n' s } where
  status m m' hm := by
    simp only [GoMap.get?_set]
    have := d.inj hn hm
    by_cases e : n = m
    · rw [if_pos e, if_pos (this.mp e)]
    · rw [if_neg e, if_neg (fun e' => e (this.mpr e'))]
      exact h.status _ _ hm
  gvars := h.gvars
  cancelled := h.cancelled
  ctxs := h.ctxs
  trace := h.trace

theorem upd_rel {d : Diff} {n : Nat} {ps ps' : Fin n → Prog} (hp : ∀ i, Rel d (ps i) (ps' i)) {i : Fin n} {p p' : Prog}
    (h : Rel d p p') : ∀ j, Rel d (upd ps i p j) (upd ps' i p' j) := by
  intro j
  unfold upd
  split
  · exact h
  · exact hp j

theorem once_rel {d : Diff} {f f' r r' : Option Err} (h : d.E f f') (h' : d.E r r') : d.E (once f r) (once f' r') := by
  unfold once
  have := d.ends h
  cases f <;> cases f' <;> simp_all

theorem ends {d : Diff} {p q : Prog} (h : Rel d p q) {r : Option Err} (hp : p = .ret r) : ∃ r', q = .ret r' ∧ d.E r r' := by
  cases h with
  | ret he => cases hp; exact ⟨_, rfl, he⟩
  | _ => cases hp

/-- whatever step the one program makes the other one can make -/
theorem step {d : Diff} {p q : Prog} (hr : Rel d p q) {σ σ' τ : Shared} {p' : Prog} (h : Step p σ p' σ') (hs : Sh d σ τ) :
    ∃ q' τ', Step q τ q' τ' ∧ Rel d p' q' ∧ Sh d σ' τ' := by
  induction hr generalizing p' σ σ' τ with
  | ret _ => cases h
  | @claim n n' k k' hn he hk _ =>
    cases h with
    | act x hx =>
      have hx : x = σ.status.get? n := hx
      refine ⟨_, _, .act (a := .claim n') x (by show x = _; rw [hx, hs.status _ _ hn]), hk x, ?_⟩
      cases x with
      | none => exact (hs.set hn .running).grow (.cons he .nil)
      | some x => exact hs.grow .nil
  | @setDone n n' k k' hn he hk _ =>
    cases h with
    | act x hx => exact ⟨_, _, .act (a := .setDone n') x trivial, hk x, (hs.set hn .done).grow (.cons he .nil)⟩
  | @status n n' k k' hn hk _ =>
    cases h with
    | act x hx =>
      have hx : x = σ.status.get? n := hx
      exact ⟨_, _, .act (a := .status n') x (by show x = _; rw [hx, hs.status _ _ hn]), hk x, hs.grow .nil⟩
  | snapshot hk _ =>
    cases h with
    | act x hx =>
      have hx : x = σ.status := hx
      exact ⟨_, _, .act (a := .snapshot) τ.status rfl, hk _ _ (by rw [hx]; exact hs.status), hs.grow .nil⟩
  | globals hk _ =>
    cases h with
    | act x hx =>
      have hx : x = σ.gvars := hx
      exact ⟨_, _, .act (a := .globals) x (by show x = _; rw [hx, hs.gvars]), hk x, hs.grow .nil⟩
  | @setGlobal n v k k' hk _ =>
    cases h with
    | act x hx =>
      refine ⟨_, _, .act (a := .setGlobal n v) x trivial, hk x, ?_⟩
      exact ⟨hs.status, by show σ.gvars.set n v = τ.gvars.set n v; rw [hs.gvars], hs.cancelled, hs.ctxs, List.rel_append hs.trace .nil⟩
  | @cancelled c k k' hk _ =>
    cases h with
    | act x hx =>
      have hx : x = σ.isCancelled c := hx
      exact ⟨_, _, .act (a := .cancelled c) x (by show x = _; rw [hx, hs.isCancelled]), hk x, hs.grow .nil⟩
  | newCtx hk _ =>
    cases h with
    | act x hx =>
      have hx : x = σ.ctxs := hx
      refine ⟨_, _, .act (a := .newCtx) x (by show x = _; rw [hx, hs.ctxs]), hk x, ?_⟩
      exact ⟨hs.status, hs.gvars, hs.cancelled, by show σ.ctxs + 1 = τ.ctxs + 1; rw [hs.ctxs], List.rel_append hs.trace .nil⟩
  | @start c l l' spec k k' he hf hk _ =>
    cases h with
    | act x hx =>
      have hx : x = true → σ.isCancelled c = false := hx
      refine ⟨_, _, .act (a := .start c l' spec) x (by show x = true → _; rw [← hs.isCancelled]; exact hx), hk x, ?_⟩
      cases x with
      | true => exact hs.grow (.cons he .nil)
      | false => exact hs.grow (.cons hf .nil)
  | @wait l l' k k' he hk _ =>
    cases h with
    | act x hx => exact ⟨_, _, .act (a := .wait l') x trivial, hk x, hs.grow (.cons (he x) .nil)⟩
  | @prompt l l' p k k' he hk _ =>
    cases h with
    | act x hx => exact ⟨_, _, .act (a := .prompt l' p) x hx, hk x hx, hs.grow (.cons (he x) .nil)⟩
  | tui he hk _ =>
    cases h with
    | act x hx => exact ⟨_, _, .act (a := .tui) x trivial, hk x, hs.grow (.cons (he x) .nil)⟩
  | @emit e e' k k' he hk _ =>
    cases h with
    | act x hx => exact ⟨_, _, .act (a := .emit e') x trivial, hk x, hs.grow (.cons he .nil)⟩
  | fuel hk _ =>
    cases h with
    | act x hx => exact ⟨_, _, .act (a := .fuel) x trivial, hk x, hs.grow .nil⟩
  | @par lim ctx t t' it n st st' ps ps' k k' he h1 h2 h3 h4 hp hk ihp _ =>
    cases h with
    | acquire i ht hl =>
      exact ⟨_, _, .acquire i (h3 ▸ ht) (h1 ▸ hl), .par he (by simp only [h1]) h2 (by simp only [h3]) h4 hp hk, hs⟩
    | abort i ht hl hc =>
      refine ⟨_, _, .abort i (h3 ▸ ht) hl (by rw [← hs.isCancelled]; exact hc), ?_, hs.grow (.cons (he i) .nil)⟩
      exact .par he h1 (by simp only [h2]) (by simp only [h3]) h4 hp hk
    | child i ht hc =>
      obtain ⟨q', τ', g1, g2, g3⟩ := ihp i hc hs
      exact ⟨_, τ', .child i (h3 ▸ ht) g1, .par he h1 h2 h3 h4 (upd_rel hp g2) hk, g3⟩
    | finish i ht hret =>
      obtain ⟨r', g1, g2⟩ := ends (hp i) hret
      exact ⟨_, τ, .finish i (h3 ▸ ht) g1, .par he h1 h2 (by simp only [h3]) (once_rel h4 g2) hp hk, hs⟩
    | release i ht =>
      exact ⟨_, _, .release i (h3 ▸ ht), .par he (by simp only [h1]) h2 (by simp only [h3]) h4 hp hk, hs⟩
    | wgDone i ht =>
      exact ⟨_, _, .wgDone i (h3 ▸ ht), .par he h1 (by simp only [h2]) (by simp only [h3]) h4 hp hk, hs⟩
    | join hw => exact ⟨_, _, .join (h2 ▸ hw), hk _ _ h4, hs⟩

/-- whatever happens in the one execution can happen in the other one -/
theorem reach {d : Diff} {p q : Prog} (hr : Rel d p q) {σ τ : Shared} (hs : Sh d σ τ) {s : State} (h : Reach ⟨p, σ⟩ s) :
    ∃ s', Reach ⟨q, τ⟩ s' ∧ Rel d s.prog s'.prog ∧ Sh d s.sh s'.sh := by
  induction h with
  | refl => exact ⟨_, .refl, hr, hs⟩
  | @step t u _ hst ih =>
    obtain ⟨⟨q1, τ1⟩, h1, h2, h3⟩ := ih
    cases hst with
    | prog hp =>
      obtain ⟨q2, τ2, g1, g2, g3⟩ := step h2 hp h3
      exact ⟨⟨q2, τ2⟩, h1.step (.prog g1), g2, g3⟩
    | @cancel p2 σ2 id hid =>
      refine ⟨_, h1.step (.cancel id (by have := h3.ctxs; simp only at this; omega)), h2, ?_⟩
      refine ⟨h3.status, h3.gvars, ?_, h3.ctxs, List.rel_append h3.trace (.cons (d.canc id) .nil)⟩
      have := h3.cancelled
      simp only at this
      simp only [this]

end Rename
end Bab
