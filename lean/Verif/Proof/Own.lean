import Verif.Model.Prog
import Verif.Proof.GoMap
/-
A program logic for "the events of one task follow a given life cycle".

A task is claimed at most once, by one call of `runTask`. `Unclaimed`, `Owner` and `Quiet` describe
programs before the claim, the program that made the claim, and all other programs after the claim.
They are preserved by every step, so the events of the task form a run of the life cycle `δ`.
-/

namespace Bab

namespace Own

/-- the action claims the task `n` -/
def claims (n : Str) : (a : Act) → a.Resp → Bool
  | .claim m, none => m = n
  | _, _ => false

section
variable {Q : Type} (n : Str) (mine : Ev → Bool) (δ : Q → Ev → Q → Prop) (q0 : Q)

/-- the events that belong to the task, among those listed, lead from `q` to `q'` -/
def Run : Q → List Ev → Q → Prop
  | q, [], q' => q = q'
  | q, e :: es, q' => (mine e = true ∧ ∃ q1, δ q e q1 ∧ Run q1 es q') ∨ (mine e = false ∧ Run q es q')

/-- emits no event of the task unless it makes the claim, which is out of the question -/
def Quiet : Prog → Prop
  | .ret _ => True
  | .act a k => ∀ x, claims n a x = false → (∀ e ∈ a.evs x, mine e = false) ∧ Quiet (k x)
  | .par _ _ t it m _ ps k => (∀ j : Fin m, mine (.subAbort t it j) = false) ∧ (∀ i, Quiet (ps i)) ∧ ∀ r, Quiet (k r)

/-- an invariant of a block that relates its goroutines to the state of the life cycle -/
def BlockInv (lim : Nat) (ctx : CtxPath) (t : Str) (it m : Nat)
    (I : BState m → (Fin m → Prog) → Q → Prop) : Prop :=
  ∀ st ps q σ st' ps' σ', I st ps q → σ.status.get? n ≠ none →
    Step (.par lim ctx t it m st ps .ret) σ (.par lim ctx t it m st' ps' .ret) σ' →
    σ'.status.get? n ≠ none ∧ ∃ es q', σ'.trace = σ.trace ++ es ∧ Run mine δ q es q' ∧ I st' ps' q'

/-- continues the life cycle of the task from state `q`; when it returns `r` in state `q'`,
`P q' r` holds. In a block none of the goroutines has to do with the task, or one of them has, or
the block as a whole takes part in the life cycle. -/
def Owner (P : Q → Option Err → Prop) : Q → Prog → Prop
  | q, .ret r => P q r
  | q, .act a k => ∀ x, claims n a x = false → ∃ q', Run mine δ q (a.evs x) q' ∧ Owner P q' (k x)
  | q, .par lim ctx t it m st ps k =>
      ((∀ j : Fin m, mine (.subAbort t it j) = false) ∧
      (((∀ i, Quiet n mine (ps i)) ∧ ∀ r, Owner P q (k r)) ∨
       (∃ i, Owner (fun _ _ => True) q (ps i) ∧ (∀ j, j ≠ i → Quiet n mine (ps j)) ∧
          ∀ q' r, Owner P q' (k r)))) ∨
      ∃ I, I st ps q ∧ BlockInv n mine δ lim ctx t it m I ∧ ∀ q' r, Owner P q' (k r)

/-- emits no event of the task before it claims it; from the claim on it is the owner -/
def Unclaimed : Prog → Prop
  | .ret _ => True
  | .act a k => ∀ x, (∀ e ∈ a.evs x, mine e = false) ∧
      (claims n a x = true → Owner n mine δ (fun _ _ => True) q0 (k x)) ∧
      (claims n a x = false → Unclaimed (k x))
  | .par _ _ t it m _ ps k => (∀ j : Fin m, mine (.subAbort t it j) = false) ∧ (∀ i, Unclaimed (ps i)) ∧
      ∀ r, Unclaimed (k r)

variable {n mine δ q0}

theorem run_append {q q1 q2 : Q} {a b : List Ev} (h1 : Run mine δ q a q1) (h2 : Run mine δ q1 b q2) :
    Run mine δ q (a ++ b) q2 := by
  induction a generalizing q with
  | nil => cases h1; exact h2
  | cons e a ih =>
    rcases h1 with ⟨hm, q', hd, hr⟩ | ⟨hm, hr⟩
    · exact Or.inl ⟨hm, q', hd, ih hr⟩
    · exact Or.inr ⟨hm, ih hr⟩

theorem run_quiet {q : Q} {a : List Ev} (h : ∀ e ∈ a, mine e = false) : Run mine δ q a q := by
  induction a with
  | nil => rfl
  | cons e a ih => exact Or.inr ⟨h e (by simp), ih (fun e he => h e (by simp [he]))⟩

theorem run_one {q q' : Q} {e : Ev} (hm : mine e = true) (h : δ q e q') : Run mine δ q [e] q' :=
  Or.inl ⟨hm, q', h, rfl⟩

theorem quiet_of_unclaimed {p : Prog} (h : Unclaimed n mine δ q0 p) : Quiet n mine p := by
  induction p with
  | ret r => trivial
  | act a k ih =>
    intro x hx
    obtain ⟨h1, _, h3⟩ := h x
    exact ⟨h1, ih x (h3 hx)⟩
  | par lim ctx t it m st ps k ih1 ih2 =>
    exact ⟨h.1, fun i => ih1 i (h.2.1 i), fun r => ih2 r (h.2.2 r)⟩

theorem owner_of_quiet {p : Prog} (h : Quiet n mine p) {P : Q → Option Err → Prop}
    (hP : ∀ q r, P q r) (q : Q) : Owner n mine δ P q p := by
  induction p generalizing q with
  | ret r => exact hP q r
  | act a k ih =>
    intro x hx
    obtain ⟨h1, h2⟩ := h x hx
    exact ⟨q, run_quiet h1, ih x h2 q⟩
  | par lim ctx t it m st ps k ih1 ih2 =>
    exact Or.inl ⟨h.1, Or.inl ⟨h.2.1, fun r => ih2 r (h.2.2 r) q⟩⟩

theorem quiet_bind {p : Prog} {f : Option Err → Prog} (h : Quiet n mine p)
    (hf : ∀ r, Quiet n mine (f r)) : Quiet n mine (p.bind f) := by
  induction p with
  | ret r => exact hf r
  | act a k ih => intro x hx; exact ⟨(h x hx).1, ih x (h x hx).2⟩
  | par lim ctx t it m st ps k _ ih2 => exact ⟨h.1, h.2.1, fun r => ih2 r (h.2.2 r)⟩

theorem owner_mono {p : Prog} {P P' : Q → Option Err → Prop} {q : Q}
    (h : Owner n mine δ P q p) (hP : ∀ q r, P q r → P' q r) : Owner n mine δ P' q p := by
  induction p generalizing q with
  | ret r => exact hP q r h
  | act a k ih =>
    intro x hx
    obtain ⟨q', h1, h2⟩ := h x hx
    exact ⟨q', h1, ih x h2⟩
  | par lim ctx t it m st ps k _ ih2 =>
    rcases h with ⟨h0, ⟨h1, h2⟩ | ⟨i, h1, h2, h3⟩⟩ | ⟨I, h1, h2, h3⟩
    · exact Or.inl ⟨h0, Or.inl ⟨h1, fun r => ih2 r (h2 r)⟩⟩
    · exact Or.inl ⟨h0, Or.inr ⟨i, h1, h2, fun q' r => ih2 r (h3 q' r)⟩⟩
    · exact Or.inr ⟨I, h1, h2, fun q' r => ih2 r (h3 q' r)⟩

theorem owner_bind {p : Prog} {f : Option Err → Prog} {P P' : Q → Option Err → Prop} {q : Q}
    (h : Owner n mine δ P q p) (hf : ∀ q r, P q r → Owner n mine δ P' q (f r)) :
    Owner n mine δ P' q (p.bind f) := by
  induction p generalizing q with
  | ret r => exact hf q r h
  | act a k ih =>
    intro x hx
    obtain ⟨q', h1, h2⟩ := h x hx
    exact ⟨q', h1, ih x h2⟩
  | par lim ctx t it m st ps k _ ih2 =>
    rcases h with ⟨h0, ⟨h1, h2⟩ | ⟨i, h1, h2, h3⟩⟩ | ⟨I, h1, h2, h3⟩
    · exact Or.inl ⟨h0, Or.inl ⟨h1, fun r => ih2 r (h2 r)⟩⟩
    · exact Or.inl ⟨h0, Or.inr ⟨i, h1, h2, fun q' r => ih2 r (h3 q' r)⟩⟩
    · exact Or.inr ⟨I, h1, h2, fun q' r => ih2 r (h3 q' r)⟩

/-- a quiet program does not change the state of the life cycle -/
theorem owner_quiet_bind {p : Prog} {f : Option Err → Prog} {P : Q → Option Err → Prop} {q : Q}
    (h : Quiet n mine p) (hf : ∀ r, Owner n mine δ P q (f r)) : Owner n mine δ P q (p.bind f) := by
  induction p with
  | ret r => exact hf r
  | act a k ih =>
    intro x hx
    exact ⟨q, run_quiet (h x hx).1, ih x (h x hx).2⟩
  | par lim ctx t it m st ps k _ ih2 =>
    exact Or.inl ⟨h.1, Or.inl ⟨h.2.1, fun r => ih2 r (h.2.2 r)⟩⟩

theorem unclaimed_bind {p : Prog} {f : Option Err → Prog} (h : Unclaimed n mine δ q0 p)
    (hf : ∀ r, Unclaimed n mine δ q0 (f r)) : Unclaimed n mine δ q0 (p.bind f) := by
  induction p with
  | ret r => exact hf r
  | act a k ih =>
    intro x
    obtain ⟨h1, h2, h3⟩ := h x
    refine ⟨h1, fun hc => ?_, fun hc => ih x (h3 hc)⟩
    exact owner_bind (h2 hc) (fun q r _ => owner_of_quiet (quiet_of_unclaimed (hf r)) (fun _ _ => trivial) q)
  | par lim ctx t it m st ps k _ ih2 => exact ⟨h.1, h.2.1, fun r => ih2 r (h.2.2 r)⟩

/-! ### Steps -/

theorem claimed_of_claims {a : Act} {x : a.Resp} {σ : Shared} (h : a.Answers σ x)
    (hs : σ.status.get? n ≠ none) : claims n a x = false := by
  cases a <;> try rfl
  rename_i m
  cases x with
  | none =>
    simp only [claims, decide_eq_false_iff_not]
    rintro rfl
    exact hs h.symm
  | some s => rfl

/-- the status of a task never goes back to "never claimed" -/
theorem status_apply {a : Act} {x : a.Resp} {σ : Shared}
    (hs : σ.status.get? n ≠ none) : (a.apply σ x).status.get? n ≠ none := by
  have key : ∀ m s, (σ.status.set m s).get? n ≠ none := by
    intro m s
    rw [GoMap.get?_set]
    split
    · simp
    · exact hs
  cases a <;> try exact hs
  · cases x with
    | none => exact key _ _
    | some s => exact hs
  · exact key _ _

theorem status_apply_none {a : Act} {x : a.Resp} {σ : Shared}
    (hc : claims n a x = true) : (a.apply σ x).status.get? n ≠ none := by
  cases a <;> try (simp [claims] at hc)
  rename_i m
  cases x with
  | none =>
    simp only [decide_eq_true_eq] at hc
    subst hc
    show (σ.status.set m .running).get? m ≠ none
    rw [GoMap.get?_set_self]; simp
  | some s => simp at hc

theorem quiet_step {p p' : Prog} {σ σ' : Shared} (h : Step p σ p' σ') (hq : Quiet n mine p)
    (hs : σ.status.get? n ≠ none) :
    Quiet n mine p' ∧ σ'.status.get? n ≠ none ∧
      ∃ es, σ'.trace = σ.trace ++ es ∧ ∀ e ∈ es, mine e = false := by
  induction h with
  | act x ha =>
    obtain ⟨h1, h2⟩ := hq x (claimed_of_claims ha hs)
    exact ⟨h2, status_apply hs, _, rfl, h1⟩
  | acquire i h1 h2 => exact ⟨hq, hs, [], by simp, by simp⟩
  | abort i h1 h2 h3 =>
    exact ⟨hq, hs, _, rfl, by
      intro e he
      rw [List.mem_singleton] at he
      subst he; exact hq.1 i⟩
  | child i h1 h2 ih =>
    obtain ⟨h3, h4, h5⟩ := ih (hq.2.1 i) hs
    refine ⟨⟨hq.1, ?_, hq.2.2⟩, h4, h5⟩
    intro j
    unfold upd
    split
    · exact h3
    · exact hq.2.1 j
  | finish i h1 h2 => exact ⟨hq, hs, [], by simp, by simp⟩
  | release i h1 => exact ⟨hq, hs, [], by simp, by simp⟩
  | wgDone i h1 => exact ⟨hq, hs, [], by simp, by simp⟩
  | join h1 => exact ⟨hq.2.2 _, hs, [], by simp, by simp⟩

theorem owner_step {p p' : Prog} {σ σ' : Shared} (h : Step p σ p' σ') {q : Q}
    {P : Q → Option Err → Prop} (ho : Owner n mine δ P q p) (hs : σ.status.get? n ≠ none) :
    σ'.status.get? n ≠ none ∧
      ∃ es q', σ'.trace = σ.trace ++ es ∧ Run mine δ q es q' ∧ Owner n mine δ P q' p' := by
  induction h generalizing q P with
  | act x ha =>
    obtain ⟨q', h1, h2⟩ := ho x (claimed_of_claims ha hs)
    exact ⟨status_apply hs, _, q', rfl, h1, h2⟩
  | acquire i h1 h2 =>
    rcases ho with ho | ⟨I, g1, g2, g3⟩
    · exact ⟨hs, [], q, by simp, rfl, Or.inl ho⟩
    · obtain ⟨k0, es, q', k1, k2, k3⟩ := g2 _ _ _ _ _ _ _ g1 hs (.acquire i h1 h2)
      exact ⟨k0, es, q', k1, k2, Or.inr ⟨I, k3, g2, g3⟩⟩
  | abort i h1 h2 h3 =>
    rcases ho with ho | ⟨I, g1, g2, g3⟩
    · refine ⟨hs, _, q, rfl, run_quiet ?_, Or.inl ho⟩
      intro e he
      rw [List.mem_singleton] at he
      subst he; exact ho.1 i
    · obtain ⟨k0, es, q', k1, k2, k3⟩ := g2 _ _ _ _ _ _ _ g1 hs (.abort i h1 h2 h3)
      exact ⟨k0, es, q', k1, k2, Or.inr ⟨I, k3, g2, g3⟩⟩
  | child i h1 h2 ih =>
    rcases ho with ⟨g0, ⟨g1, g2⟩ | ⟨i', g1, g2, g3⟩⟩ | ⟨I, g1, g2, g3⟩
    · obtain ⟨h3, h4, es, h5, h6⟩ := quiet_step h2 (g1 i) hs
      refine ⟨h4, es, q, h5, run_quiet h6, Or.inl ⟨g0, Or.inl ⟨?_, g2⟩⟩⟩
      intro j
      unfold upd
      split
      · exact h3
      · exact g1 j
    · by_cases hi : i = i'
      · subst hi
        obtain ⟨h4, es, q', h5, h6, h7⟩ := ih g1 hs
        refine ⟨h4, es, q', h5, h6, Or.inl ⟨g0, Or.inr ⟨i, ?_, ?_, g3⟩⟩⟩
        · simpa [upd] using h7
        · intro j hj
          simpa [upd, hj] using g2 j hj
      · obtain ⟨h3, h4, es, h5, h6⟩ := quiet_step h2 (g2 i hi) hs
        refine ⟨h4, es, q, h5, run_quiet h6, Or.inl ⟨g0, Or.inr ⟨i', ?_, ?_, g3⟩⟩⟩
        · simpa [upd, Ne.symm hi] using g1
        · intro j hj
          unfold upd
          split
          · exact h3
          · exact g2 j hj
    · obtain ⟨k0, es, q', k1, k2, k3⟩ := g2 _ _ _ _ _ _ _ g1 hs (.child i h1 h2)
      exact ⟨k0, es, q', k1, k2, Or.inr ⟨I, k3, g2, g3⟩⟩
  | finish i h1 h2 =>
    rcases ho with ho | ⟨I, g1, g2, g3⟩
    · exact ⟨hs, [], q, by simp, rfl, Or.inl ho⟩
    · obtain ⟨k0, es, q', k1, k2, k3⟩ := g2 _ _ _ _ _ _ _ g1 hs (.finish i h1 h2)
      exact ⟨k0, es, q', k1, k2, Or.inr ⟨I, k3, g2, g3⟩⟩
  | release i h1 =>
    rcases ho with ho | ⟨I, g1, g2, g3⟩
    · exact ⟨hs, [], q, by simp, rfl, Or.inl ho⟩
    · obtain ⟨k0, es, q', k1, k2, k3⟩ := g2 _ _ _ _ _ _ _ g1 hs (.release i h1)
      exact ⟨k0, es, q', k1, k2, Or.inr ⟨I, k3, g2, g3⟩⟩
  | wgDone i h1 =>
    rcases ho with ho | ⟨I, g1, g2, g3⟩
    · exact ⟨hs, [], q, by simp, rfl, Or.inl ho⟩
    · obtain ⟨k0, es, q', k1, k2, k3⟩ := g2 _ _ _ _ _ _ _ g1 hs (.wgDone i h1)
      exact ⟨k0, es, q', k1, k2, Or.inr ⟨I, k3, g2, g3⟩⟩
  | join h1 =>
    refine ⟨hs, [], q, by simp, rfl, ?_⟩
    rcases ho with ⟨g0, ⟨g1, g2⟩ | ⟨i', g1, g2, g3⟩⟩ | ⟨I, g1, g2, g3⟩
    · exact g2 _
    · exact g3 _ _
    · exact g3 _ _

theorem unclaimed_step {p p' : Prog} {σ σ' : Shared} (h : Step p σ p' σ')
    (hu : Unclaimed n mine δ q0 p) (hs : σ.status.get? n = none) :
    ∃ es, σ'.trace = σ.trace ++ es ∧ (∀ e ∈ es, mine e = false) ∧
      ((σ'.status.get? n = none ∧ Unclaimed n mine δ q0 p') ∨
       (σ'.status.get? n ≠ none ∧ Owner n mine δ (fun _ _ => True) q0 p')) := by
  induction h with
  | @act a k σ x ha =>
    obtain ⟨h1, h2, h3⟩ := hu x
    refine ⟨_, rfl, h1, ?_⟩
    cases hc : claims n a x with
    | true => exact Or.inr ⟨status_apply_none hc, h2 hc⟩
    | false =>
      by_cases hs' : (a.apply σ x).status.get? n = none
      · exact Or.inl ⟨hs', h3 hc⟩
      · -- some other way the status became known: then it suffices that the rest is quiet
        exact Or.inr ⟨hs', owner_of_quiet (quiet_of_unclaimed (h3 hc)) (fun _ _ => trivial) q0⟩
  | acquire i h1 h2 => exact ⟨[], by simp, by simp, Or.inl ⟨hs, hu⟩⟩
  | abort i h1 h2 h3 =>
    refine ⟨_, rfl, ?_, Or.inl ⟨hs, hu⟩⟩
    intro e he
    rw [List.mem_singleton] at he
    subst he; exact hu.1 i
  | child i h1 h2 ih =>
    obtain ⟨es, h3, h4, h5⟩ := ih (hu.2.1 i) hs
    refine ⟨es, h3, h4, ?_⟩
    rcases h5 with ⟨h5, h6⟩ | ⟨h5, h6⟩
    · refine Or.inl ⟨h5, hu.1, ?_, hu.2.2⟩
      intro j
      unfold upd
      split
      · exact h6
      · exact hu.2.1 j
    · refine Or.inr ⟨h5, Or.inl ⟨hu.1, Or.inr ⟨i, ?_, ?_, ?_⟩⟩⟩
      · simpa [upd] using h6
      · intro j hj
        simpa [upd, hj] using quiet_of_unclaimed (hu.2.1 j)
      · intro q' r
        exact owner_of_quiet (quiet_of_unclaimed (hu.2.2 r)) (fun _ _ => trivial) q'
  | finish i h1 h2 => exact ⟨[], by simp, by simp, Or.inl ⟨hs, hu⟩⟩
  | release i h1 => exact ⟨[], by simp, by simp, Or.inl ⟨hs, hu⟩⟩
  | wgDone i h1 => exact ⟨[], by simp, by simp, Or.inl ⟨hs, hu⟩⟩
  | join h1 => exact ⟨[], by simp, by simp, Or.inl ⟨hs, hu.2.2 _⟩⟩

/-- In every reachable state the events of the task so far are a run of its life cycle; while the
task is not claimed there are none. -/
theorem reach_run {p : Prog} {σ : Shared} (hu : Unclaimed n mine δ q0 p)
    (h0 : σ.status.get? n = none) (ht : σ.trace = []) (hc : ∀ id, mine (.cancel id) = false)
    {s : State} (h : Reach ⟨p, σ⟩ s) :
    (s.sh.status.get? n = none ∧ (∀ e ∈ s.sh.trace, mine e = false) ∧ Unclaimed n mine δ q0 s.prog) ∨
    (s.sh.status.get? n ≠ none ∧ ∃ q, Run mine δ q0 s.sh.trace q ∧
      Owner n mine δ (fun _ _ => True) q s.prog) := by
  induction h with
  | refl => exact Or.inl ⟨h0, by simp [ht], hu⟩
  | step _ hs ih =>
    cases hs with
    | prog hstep =>
      rcases ih with ⟨g1, g2, g3⟩ | ⟨g1, q, g2, g3⟩
      · obtain ⟨es, h1, h2, h3⟩ := unclaimed_step hstep g3 g1
        rcases h3 with ⟨h3, h4⟩ | ⟨h3, h4⟩
        · refine Or.inl ⟨h3, ?_, h4⟩
          intro e he
          simp only [h1, List.mem_append] at he
          rcases he with he | he
          · exact g2 e he
          · exact h2 e he
        · refine Or.inr ⟨h3, q0, ?_, h4⟩
          simp only [h1]
          exact run_append (run_quiet g2) (run_quiet h2)
      · obtain ⟨h1, es, q', h2, h3, h4⟩ := owner_step hstep g3 g1
        refine Or.inr ⟨h1, q', ?_, h4⟩
        simp only [h2]
        exact run_append g2 h3
    | cancel id hid =>
      rcases ih with ⟨g1, g2, g3⟩ | ⟨g1, q, g2, g3⟩
      · refine Or.inl ⟨g1, ?_, g3⟩
        intro e he
        simp only [List.mem_append, List.mem_singleton] at he
        rcases he with he | he
        · exact g2 e he
        · subst he; exact hc id
      · refine Or.inr ⟨g1, q, ?_, g3⟩
        refine run_append g2 (run_quiet ?_)
        intro e he
        rw [List.mem_singleton] at he
        subst he; exact hc id

end
end Own
end Bab
