import Verif.Model.Main
import Verif.Props.Outcome
/-
C54: the exit status.
-/

namespace Bab
open Spec Own

namespace Spec

/-- `e` is or wraps, at any depth, the error `c` -/
inductive Wraps : GoErr → GoErr → Prop
  | self (e : GoErr) : Wraps e e
  | wrap {m : Str} {e c : GoErr} : Wraps e c → Wraps (.wrap m e) c
  | many {es : List GoErr} {e c : GoErr} : e ∈ es → Wraps e c → Wraps (.many es) c

/-- the error under all wrapping of an error of the runner -/
def cause : Err → Err
  | .wrap _ e => cause e
  | e => e

end Spec

mutual
theorem isCanceled_iff : ∀ e : GoErr, e.isCanceled = true ↔ Wraps e .canceled
  | .canceled => by
    rw [GoErr.isCanceled]
    exact ⟨fun _ => .self _, fun _ => rfl⟩
  | .plain m => by
    rw [GoErr.isCanceled]
    exact ⟨fun h => (by cases h), fun h => (by cases h)⟩
  | .wrap m e => by
    rw [GoErr.isCanceled, isCanceled_iff e]
    exact ⟨fun h => .wrap h, fun h => by cases h; assumption⟩
  | .many es => by
    rw [GoErr.isCanceled, anyCanceled_iff es]
    constructor
    · rintro ⟨e, he, h⟩; exact .many he h
    · intro h
      cases h with
      | many he h => exact ⟨_, he, h⟩
theorem anyCanceled_iff : ∀ es : List GoErr, GoErr.anyCanceled es = true ↔ ∃ e ∈ es, Wraps e .canceled
  | [] => by simp [GoErr.anyCanceled]
  | e :: es => by
    rw [GoErr.anyCanceled, Bool.or_eq_true, isCanceled_iff e, anyCanceled_iff es]
    simp
end

/-- C54: the exit status is 0 exactly if the invocation returned no error or one that wraps `context.Canceled`, at any depth;
otherwise it is 1. -/
theorem C54_exit (r : Option GoErr) :
    ((exitStatus r).1 = 0 ↔ ∀ e, r = some e → Wraps e .canceled) ∧ ((exitStatus r).1 = 0 ∨ (exitStatus r).1 = 1) := by
  cases r with
  | none => simp [exitStatus]
  | some e =>
    rw [exitStatus]
    by_cases h : e.isCanceled = true
    · rw [if_pos h]
      refine ⟨⟨fun _ e' he => ?_, fun _ => rfl⟩, .inl rfl⟩
      obtain rfl := Option.some.inj he
      exact (isCanceled_iff e).mp h
    · rw [if_neg h]
      refine ⟨⟨fun h0 => by simp at h0, fun hh => ?_⟩, .inr rfl⟩
      exact absurd ((isCanceled_iff e).mpr (hh e rfl)) h

theorem toGo_wraps (x : Texts) (e : Err) : Wraps (e.toGo x) .canceled ↔ cause e = .canceled := by
  induction e with
  | wrap m e ih =>
    rw [Err.toGo, cause]
    rw [← ih]
    exact ⟨fun h => by cases h; assumption, fun h => .wrap h⟩
  | canceled => simp only [Err.toGo, cause, iff_true]; exact .self _
  | _ => simp only [Err.toGo, cause, reduceCtorEq, iff_false]; intro h; cases h

/-- C54 for running a task: however deep the failure and however often it was wrapped on the way up, the exit status is 0
only if no error was returned or its cause is cancellation. -/
theorem C54_cause (x : Texts) (r : Option Err) :
    (exitStatus (r.map (Err.toGo x))).1 = 0 ↔ ∀ e, r = some e → cause e = .canceled := by
  rw [(C54_exit _).1]
  cases r with
  | none => simp
  | some e =>
    simp only [Option.map_some, Option.some.injEq, forall_eq']
    exact toGo_wraps x e

/-- C54 with C15 and C16: if a run ends with status 0 and its error is not cancellation, no command or item failed and
the task was done. -/
theorem C54_zero_means_success {x : Texts} {c : Cfg} {tasks : TaskMap} {gvars : GoMap Str} {main : Str} {s : State}
    (h : Reach (start c tasks gvars main) s) {r : Option Err} (hp : s.prog = .ret r)
    (h0 : (exitStatus (r.map (Err.toGo x))).1 = 0) (hc : ∀ e, r = some e → cause e ≠ .canceled) :
    .done main ∈ s.sh.trace ∧ ∀ e ∈ s.sh.trace, ¬ Trouble e := by
  cases r with
  | some e => exact absurd ((C54_cause x _).mp h0 e rfl) (hc e rfl)
  | none => exact ⟨C16_success_means_done h hp, C15_no_swallowed_failure h hp⟩

/-- C54: an error that is not cancellation leaves a message, if it has one; every error of a failed validation has its
own message. -/
theorem C54_messages (e : GoErr) (h : ¬ Wraps e .canceled) :
    (∀ es, e.asMany = some es → (exitStatus (some e)).2 = es.map GoErr.text) ∧
      (e.asMany = none → e.text ≠ [] → (exitStatus (some e)).2 = [e.text]) := by
  have hn : ¬ e.isCanceled = true := fun hh => h ((isCanceled_iff e).mp hh)
  rw [exitStatus, if_neg hn]
  constructor
  · intro es he; simp only [handleError, he]
  · intro he ht; simp only [handleError, he, if_pos ht]

/-- a prompt aborted with Ctrl-C is not `context.Canceled` (tui/prompt.go 18) and so exits with status 1 -/
example : (exitStatus (some (.wrap "prompt".toList (.plain "prompt cancelled".toList)))).1 = 1 := by decide

example : (exitStatus (some (.wrap "task".toList (.wrap "cmd".toList .canceled)))).1 = 0 ∧
    exitStatus (some (.many [.plain ['a'], .plain ['b']])) = (1, [['a'], ['b']]) := by decide

end Bab
