import Verif.Proof.Skip
import Verif.Spec.Vars
/-
The variables of a task during its life.
-/

namespace Bab
open Spec Own

theorem lastAnswer_append {n k : Str} (a : List Ev) (e : Ev) :
    lastAnswer n k (a ++ [e]) =
      ((answerOf n e).bind fun p => if p.1 = k then some p.2 else none).or (lastAnswer n k a) := by
  induction a with
  | nil => simp [lastAnswer]
  | cons x a ih =>
    simp only [List.cons_append, lastAnswer, ih, Option.or_assoc]

theorem lastAnswer_other {n k : Str} (a : List Ev) (e : Ev) (h : answerOf n e = none) :
    lastAnswer n k (a ++ [e]) = lastAnswer n k a := by
  rw [lastAnswer_append, h]; simp

theorem answerOf_mine {n : Str} {e : Ev} (h : mineTask n e = false) : answerOf n e = none := by
  cases e with
  | answered loc x r =>
    cases r with
    | error e => rfl
    | ok v =>
      simp only [answerOf]
      split
      · rename_i hl
        exfalso
        simp [mineTask, Spec.key, hl.1, hl.2] at h
      · rfl
  | _ => rfl

section
variable {c : Cfg} {tasks : TaskMap} {gvars : GoMap Str} {main : Str} {s : State}

/-- `o` are the variables resolved at the start of the task with the answers given since -/
def OwnIs (c : Cfg) (n : Str) (T : Task) (a : List Ev) (o : GoMap Str) : Prop :=
  ∃ g m0 call, .taskVars n g m0 call ∈ a ∧ resolveVars T.vars g c.env = .ok m0 ∧
    ∀ k, o.get? k = (lastAnswer n k a).or (m0.get? k)

theorem OwnIs.snoc {n : Str} {T : Task} {a : List Ev} {o : GoMap Str} (h : OwnIs c n T a o) {e : Ev}
    (he : answerOf n e = none) : OwnIs c n T (a ++ [e]) o := by
  obtain ⟨g, m0, call, h1, h2, h3⟩ := h
  refine ⟨g, m0, call, by simp [h1], h2, fun k => ?_⟩
  rw [lastAnswer_other _ _ he]
  exact h3 k

/-- the variables of a task that has its own ones -/
theorem vars_inv {n : Str} {T : Task} {a : List Ev} {q : Life}
    (h : Run (mineTask n) (LifeStep c n (some T)) (lifeStart (some T)) a q) :
    ((q = .fresh ∨ ∃ k t, q = .deps k t) → ∀ k, lastAnswer n k a = none) ∧
    (∀ i ex sk o, q = .items i ex sk (some o) → OwnIs c n T a o) ∧
    (∀ i ex sk o ph, q = .inItem i ex sk (some o) ph → OwnIs c n T a o) := by
  refine run_inv (J := fun a q => ((q = .fresh ∨ ∃ k t, q = .deps k t) → ∀ k, lastAnswer n k a = none) ∧
    (∀ i ex sk o, q = .items i ex sk (some o) → OwnIs c n T a o) ∧
    (∀ i ex sk o ph, q = .inItem i ex sk (some o) ph → OwnIs c n T a o)) ?_ ?_ ?_ h
  · rcases lifeStart_some T with hl | hl <;> rw [hl] <;> simp [lastAnswer]
  · rintro a e q q' ⟨hJ1, hJ2, hJ3⟩ hm hd
    generalize hTT : some T = TT at hd
    cases hd with
    | unknown => cases hTT
    | runs =>
      refine ⟨fun _ k => ?_, by simp, by simp⟩
      rw [lastAnswer_other _ _ rfl]; exact hJ1 (Or.inl rfl) k
    | echo =>
      refine ⟨fun _ k => ?_, by simp, by simp⟩
      rw [lastAnswer_other _ _ rfl]; exact hJ1 (Or.inr ⟨_, _, rfl⟩) k
    | depOk =>
      refine ⟨fun _ k => ?_, by simp, by simp⟩
      rw [lastAnswer_other _ _ rfl]; exact hJ1 (Or.inr ⟨_, _, rfl⟩) k
    | vars t g m call hr hv =>
      cases hTT
      refine ⟨by simp, ?_, by simp⟩
      intro i ex sk o hq
      have : o = m := by
        cases hT : T.vars with
        | none => simp [hT] at hq
        | some V => simp [hT] at hq; exact hq.2.2.2.symm
      subst this
      refine ⟨g, o, call, by simp, hv, fun k => ?_⟩
      rw [lastAnswer_other _ _ rfl, hJ1 (Or.inr ⟨_, _, rfl⟩) k]
      rfl
    | skipPlatform =>
      refine ⟨by simp, ?_, by simp⟩
      rintro i ex sk o ⟨⟩
      exact (hJ2 _ _ _ _ rfl).snoc rfl
    | skipCond =>
      refine ⟨by simp, ?_, by simp⟩
      rintro i ex sk o ⟨⟩
      exact (hJ2 _ _ _ _ rfl).snoc rfl
    | start =>
      refine ⟨by simp, by simp, ?_⟩
      rintro i ex sk o ph ⟨⟩
      exact (hJ2 _ _ _ _ rfl).snoc rfl
    | @inner _ i ex sk own ph own' ph' _ hi =>
      refine ⟨by simp, by simp, ?_⟩
      rintro i' ex' sk' o ph'' hq
      cases hi with
      | answer x v =>
        cases own with
        | none => simp at hq
        | some o0 =>
          simp at hq
          obtain ⟨rfl, rfl, rfl, rfl, rfl⟩ := hq
          obtain ⟨g, m0, call, h1, h2, h3⟩ := hJ3 _ _ _ _ _ rfl
          refine ⟨g, m0, call, by simp [h1], h2, fun k => ?_⟩
          rw [lastAnswer_append, GoMap.get?_set, h3 k]
          simp only [answerOf, and_self, if_true, Option.bind_some]
          by_cases hk : x = k
          · simp [hk]
          · simp [hk]
      | _ => cases hq; exact (hJ3 _ _ _ _ _ rfl).snoc rfl
    | itemOk =>
      refine ⟨by simp, ?_, by simp⟩
      rintro i ex sk o ⟨⟩
      exact (hJ3 _ _ _ _ _ rfl).snoc rfl
    | _ => exact ⟨by simp, by simp, by simp⟩
  · rintro a e q ⟨h1, h2, h3⟩ hm
    refine ⟨fun hq k => ?_, fun i ex sk o hq => (h2 i ex sk o hq).snoc (answerOf_mine hm),
      fun i ex sk o ph hq => (h3 i ex sk o ph hq).snoc (answerOf_mine hm)⟩
    rw [lastAnswer_other _ _ (answerOf_mine hm)]
    exact h1 hq k

/-- the variables a task with own variables uses -/
theorem uses_own (h : Reach (start c tasks gvars main) s) {a b : List Ev} {e : Ev} {n : Str} {T : Task}
    {m : GoMap Str} (ht : s.sh.trace = a ++ e :: b) (he : uses e = some (n, m)) (hT : tasks.get? n = some T)
    (hv : T.vars ≠ none) : OwnIs c n T a m := by
  have hkey : Spec.key e = some (n, none) := by
    cases e with
    | sees loc m' =>
      simp only [uses] at he
      split at he
      · rename_i hs
        cases he
        simp [Spec.key, hs]
      · cases he
    | parBegin n' i m' => cases he; rfl
    | itemSkip n' i w => cases w with
      | platform => cases he
      | cond m' => cases he; rfl
    | itemStart n' i w => cases w with
      | none => cases he
      | some m' => cases he; rfl
    | _ => cases he
  obtain ⟨q1, q2, q3, h1, h2, -⟩ := task_at h ht hkey
  rw [hT] at h1 h2
  obtain ⟨-, k2, k3⟩ := vars_inv h1
  obtain ⟨c1, c2⟩ := cond_inv h1
  have hsome : T.vars.isSome = true := by
    cases hTv : T.vars with
    | none => exact absurd hTv hv
    | some V => rfl
  generalize hTT : some T = TT at h2
  cases h2 with
  | @skipCond _ i ex sk own item m' hi hp hc hev ho =>
    cases hTT; cases he
    have := c1 _ _ _ _ rfl
    rw [hsome] at this
    obtain ⟨o, rfl⟩ := Option.isSome_iff_exists.mp this
    rw [ho o rfl]; exact k2 _ _ _ _ rfl
  | @start _ i ex sk own item w hi hs =>
    cases hTT
    have := c1 _ _ _ _ rfl
    rw [hsome] at this
    obtain ⟨o, rfl⟩ := Option.isSome_iff_exists.mp this
    rcases hs.2 with ⟨-, rfl⟩ | ⟨-, m', rfl, -, ho⟩
    · cases he
    · cases he
      rw [ho o rfl]; exact k2 _ _ _ _ rfl
  | @inner _ i ex sk own ph own' ph' _ hi =>
    have := (c2 _ _ _ _ _ rfl).1
    rw [hsome] at this
    obtain ⟨o, rfl⟩ := Option.isSome_iff_exists.mp this
    cases hi with
    | sees m' ho => cases he; rw [ho o rfl]; exact k3 _ _ _ _ _ rfl
    | parBegin m' ho => cases he; rw [ho o rfl]; exact k3 _ _ _ _ _ rfl
    | _ => cases he
  | _ => cases he

end
end Bab
