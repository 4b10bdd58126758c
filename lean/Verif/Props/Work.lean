import Verif.Proof.Work
import Verif.Props.Cycle
/-
C79: when a run ends with success.
-/

namespace Bab
open Spec

section
variable {c : Cfg} {tasks : TaskMap} {gvars : GoMap Str} {main : Str} {s s' : State}

/-- C79. A run that ends with success and was not interrupted shows that all that is due works: every task that is due exists and its
condition, variables and environment make sense, every command that is due can be worked out, and so on. -/
theorem C79_works (hd : c.dry = false) (hask : Unasked c tasks gvars main) (h : Reach (start c tasks gvars main) s) (hp : s.prog = .ret none)
    (hc : ∀ id, .cancel id ∉ s.sh.trace) {x : Thing} (hx : Spec.Due c tasks gvars main x) : Works c tasks gvars x := by
  have hcalm : ∀ e ∈ s.sh.trace, Calm e := by
    intro e he
    have h1 := C15_no_swallowed_failure h hp e he
    cases e with
    | cancel id => exact hc id he
    | tuiStart ok =>
      cases ok with
      | false => exact h1 trivial
      | true => exact id
    | _ => first | exact id | exact h1
  have hev := (Work.Ends.sound (Work.n_runTask hd hask (tasks.length + 2) {} true main .main) rfl rfl rfl
    (fun s hs k => C17_recursion_is_bounded hs) h hcalm).2.2.2
  have had := Due.had hd hask h hp hc hx
  cases x with
  | task n => exact hev _ had
  | item loc it m =>
    have leaf : LeafDone (· ∈ s.sh.trace) false loc it → ItemWorks c tasks loc m it := by
      intro hl
      cases it with
      | command v =>
        have hl : .procEnd loc none ∈ s.sh.trace := hl
        obtain ⟨a, b, ht⟩ := List.append_of_mem hl
        obtain ⟨_, spec, hspec⟩ := Safe.event_ok h ht
        have hspec : .procStart loc spec ∈ s.sh.trace := by rw [ht]; exact List.mem_append_left _ hspec
        have h0 := hev _ hspec v (Due.item_facts hx).1
        obtain ⟨T, v', m', tenv, text, env, dir, fr, hT, hdue, he, hpr, _⟩ := Due.events hd hask h _ hspec
        obtain ⟨h1, rfl⟩ := Due.item_unique hx hdue
        cases h1
        obtain ⟨k1, k2, k3⟩ := prepare_inv hpr
        exact ⟨T, tenv, text, hT, he, h0, k1, ⟨env, k2⟩, dir, k3⟩
      | task t => trivial
      | log l =>
        obtain ⟨t, o, hl⟩ : ∃ t o, Ev.logged loc t l.level o ∈ s.sh.trace := hl
        have hl : DueEntry c tasks gvars main (.log loc t l.level) := Due.events hd hask h _ hl
        generalize l.level = lv at hl
        cases hl with
        | log hdue htext =>
          obtain ⟨h1, rfl⟩ := Due.item_unique hx hdue
          cases h1
          exact ⟨t, htext⟩
      | prompt p =>
        obtain ⟨a, hl⟩ : ∃ a, Ev.answered loc p.prompt (.ok a) ∈ s.sh.trace := hl
        exact (hev _ hl).elim
      | parallel _ _ _ _ _ _ _ _ _ _ => exact hl.elim
    obtain ⟨n, i, sub⟩ := loc
    cases sub with
    | some j => exact leaf had.1
    | none =>
      cases it with
      | parallel _ _ _ _ _ _ _ _ _ _ => rfl
      | _ => exact leaf had

/-- C79. The other way round: if all that is due works, references decrease a rank and the items of parallel blocks keep out of each
other's way, then every run in which nothing goes wrong outside ends with success; whatever the schedule. -/
theorem C79_success (hd : c.dry = false) (hask : Unasked c tasks gvars main) (hall : ∀ x, Spec.Due c tasks gvars main x → Works c tasks gvars x)
    {rank : Str → Nat} (hr : ∀ a b, Refers tasks a b → rank b < rank a) (hsep : Separate tasks) (h : Reach (start c tasks gvars main) s)
    (hcalm : ∀ e ∈ s.sh.trace, Calm e) {r : Option Err} (hp : s.prog = .ret r) : r = none := by
  have hends := (Work.Ends.sound (Work.w_runTask hd hask hall (tasks.length + 2) {} true main .main) rfl rfl rfl
    (fun s hs k => C17_recursion_is_bounded hs) h hcalm).1
  rw [hp] at hends
  cases hends with
  | ret hq =>
    cases r with
    | none => rfl
    | some e => exact absurd ((C19_separate_partial hr hsep h).2 _ hp e rfl) (hq e rfl)

/-- C79. Together: a run in which nothing goes wrong outside ends with success exactly if all that is due works. -/
theorem C79_exact (hd : c.dry = false) (hask : Unasked c tasks gvars main) {rank : Str → Nat} (hr : ∀ a b, Refers tasks a b → rank b < rank a)
    (hsep : Separate tasks) (h : Reach (start c tasks gvars main) s) (hcalm : ∀ e ∈ s.sh.trace, Calm e) {r : Option Err} (hp : s.prog = .ret r) :
    r = none ↔ ∀ x, Spec.Due c tasks gvars main x → Works c tasks gvars x := by
  constructor
  · rintro rfl x hx
    exact C79_works hd hask h hp (fun id hid => hcalm _ hid) hx
  · exact fun hall => C79_success hd hask hall hr hsep h hcalm hp

/-- C79. So a run that has succeeded once succeeds again, unless something goes wrong outside: no schedule makes it fail. -/
theorem C79_again (hd : c.dry = false) (hask : Unasked c tasks gvars main) {rank : Str → Nat} (hr : ∀ a b, Refers tasks a b → rank b < rank a)
    (hsep : Separate tasks) (h : Reach (start c tasks gvars main) s) (hp : s.prog = .ret none) (hc : ∀ id, .cancel id ∉ s.sh.trace)
    (h' : Reach (start c tasks gvars main) s') (hcalm : ∀ e ∈ s'.sh.trace, Calm e) {r : Option Err} (hp' : s'.prog = .ret r) : r = none :=
  C79_success hd hask (fun _ hx => C79_works hd hask h hp hc hx) hr hsep h' hcalm hp'

/-- C79. For Babfiles that validation accepts: the run ends with success exactly if all that is due works. -/
theorem C79_accepted {grow : Nat → Nat} {o1 o2 o3 o4 : TaskMap} (hwf : tasks.WF) (h1 : o1.Perm tasks) (h2 : o2.Perm tasks)
    (h3 : o3.Perm tasks) (hv : validateAll grow o1 o2 o3 o4 tasks = []) (hsep : Separate tasks) (hd : c.dry = false)
    (hask : Unasked c tasks gvars main) (h : Reach (start c tasks gvars main) s) (hcalm : ∀ e ∈ s.sh.trace, Calm e) {r : Option Err}
    (hp : s.prog = .ret r) : r = none ↔ ∀ x, Spec.Due c tasks gvars main x → Works c tasks gvars x := by
  obtain ⟨rank, hr⟩ := C37_accepted_ranked hwf h1 h2 h3 hv
  exact C79_exact hd hask hr hsep h hcalm hp

end

namespace Sample

/-- the run `good` meets the hypotheses: nothing went wrong outside -/
theorem good_calm : ∀ e ∈ good.sh.trace, Calm e := by
  intro e he
  have h : ∀ e ∈ good.sh.trace, (match e with
    | .cancel _ => false | .tuiStart b => b | .procEnd _ r => r.isNone | .procFail _ => false | .answered _ _ _ => false | _ => true) = true := by
    decide +kernel
  have := h e he
  cases e with
  | procEnd _ r => cases r <;> first | exact id | cases this
  | tuiStart b => cases b <;> first | exact id | cases this
  | answered _ _ r => cases this
  | cancel _ => cases this
  | procFail _ => cases this
  | _ => exact id

/-- everything that is due in `build` works, and a run with another schedule ends with success -/
example : (∀ x, Spec.Due {} build [] (s "all") x → Works {} build [] x) ∧ Reach (start {} build [] (s "all")) goodToo ∧
    Exec.result goodToo = some none := by
  refine ⟨?_, Exec.reach _ _, by decide +kernel⟩
  have hp : good.prog = .ret none := by
    have : Exec.result good = some none := by decide +kernel
    unfold Exec.result at this
    split at this
    · next h => rw [h]; cases this; rfl
    · cases this
  exact (C79_accepted (grow := doubling) (o1 := build) (o2 := build) (o3 := build.reverse) (o4 := build)
    (by unfold GoMap.WF; decide +kernel) (.refl _) (.refl _) (List.reverse_perm _) (by decide +kernel) build_separate rfl
    build_unasked good_reach good_calm hp).mp rfl

/-- a task whose second command uses a variable that does not exist -/
def unset : TaskMap := [(s "t", { name := s "t", run := [cmd "one", cmd "echo ${{ x }}"] })]

unseal placed in
/-- it does not work, and a run in which nothing goes wrong outside fails -/
example : ¬ (∀ x, Spec.Due {} unset [] (s "t") x → Works {} unset [] x) ∧
    (Exec.result (Exec.drive [.auto 100] (start {} unset [] (s "t")))).map Option.isSome = some true := by
  refine ⟨fun h => ?_, by decide +kernel⟩
  obtain ⟨T, tenv, text, hT, _, _, ht, _⟩ := h (.item ⟨s "t", 1, none⟩ (cmd "echo ${{ x }}") [])
    (.item (T := { name := s "t", run := [cmd "one", cmd "echo ${{ x }}"] }) .main rfl rfl rfl rfl rfl rfl)
  have : (match interpolate (s "echo ${{ x }}") ⟨[], fun _ => none⟩ with | .ok _ => false | .error _ => true) = true := by decide +kernel
  rw [show interpolate (s "echo ${{ x }}") ⟨[], fun _ => none⟩ = .ok text from ht] at this
  cases this

end Sample

end Bab
