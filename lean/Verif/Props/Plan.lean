import Verif.Proof.Plan
import Verif.Props.Confine
import Verif.Props.Outcome
/-
C76: without prompts and parallel blocks it is determined what is done and in which order. C77: a dry run shows just that.
-/

namespace Bab
open Spec

section
variable {c : Cfg} {tasks : TaskMap} {gvars : GoMap Str} {main : Str} {s s' : State} {es es' : List PlanEntry} {res res' : Option (List Str)}

namespace Plan

theorem start_along (h : Spec.Plan c tasks gvars (!c.dry) [] (.task main) [] es res) :
    Along gvars (Post [] res) (start c tasks gvars main).prog (start c tasks gvars main).sh.status es := by
  have := follows (dry := c.dry) h (tasks.length + 2) {} true [] (by intro n; simp [GoMap.get?]) (by
    have := List.length_filter_le (fun q : Str × Task => decide (q.1 ∉ ([] : List Str))) tasks
    unfold left; omega)
  exact this

theorem needs_closed (hs : ∀ n, Needs tasks main n → Sequential tasks n) : Closed tasks (Needs tasks main) :=
  ⟨hs, fun _ _ _ h1 h2 h3 => Sim.needs_closed h1 h2 h3⟩

theorem ends {r : Option Err} {st : GoMap Status} (h : Post [] res r st) : r = none ↔ res ≠ none := by
  cases res with
  | none => simpa [Post] using h
  | some D => simp [h.1]

end Plan

/-- C76. If nothing a task needs asks or runs in parallel, then there is a plan for it, whether tasks that items call are to be
run or named. -/
theorem C76_plan (hs : ∀ n, Needs tasks main n → Sequential tasks n) (inline : Bool) :
    ∃ es res, Spec.Plan c tasks gvars inline [] (.task main) [] es res :=
  Plan.exists_plan (Plan.needs_closed hs) (.inl rfl) []

/-- C76. Every invocation follows the plan: at any time it has done the beginning of it. When it has ended, it has done all of it
and succeeds just if the plan does; or a command failed or bab was interrupted, and then it has ended with an error. -/
theorem C76_order (h : Spec.Plan c tasks gvars (!c.dry) [] (.task main) [] es res) (hr : Reach (start c tasks gvars main) s) :
    entries s.sh.trace <+: es ∧
    ∀ r, s.prog = .ret r → (entries s.sh.trace = es ∧ (r = none ↔ res ≠ none)) ∨ (Disturbed s.sh.trace ∧ r ≠ none) := by
  obtain ⟨-, -, rest, h1, h2⟩ := Plan.sound (σ := (start c tasks gvars main).sh) hr rfl rfl rfl (Plan.start_along h)
  refine ⟨⟨rest, h1⟩, ?_⟩
  intro r hp
  rw [hp] at h2
  rcases h2 with h2 | ⟨h2, h3⟩
  · cases h2 with
    | ret h2 => exact .inl ⟨by rw [← h1, List.append_nil], Plan.ends h2⟩
  · cases h3 with
    | ret => exact .inr ⟨h2, by simp⟩

/-- C76. The plan can be carried out: some invocation does all of it, and nothing comes in between. -/
theorem C76_possible (h : Spec.Plan c tasks gvars (!c.dry) [] (.task main) [] es res) :
    ∃ s r, Reach (start c tasks gvars main) s ∧ s.prog = .ret r ∧ ¬ Disturbed s.sh.trace ∧ entries s.sh.trace = es ∧ (r = none ↔ res ≠ none) := by
  obtain ⟨s, r, h1, h2, h3, tr, h4, h5, h6⟩ := Plan.Along.exec (σ := (start c tasks gvars main).sh) (Plan.start_along h) rfl rfl
  have h4 : s.sh.trace = tr := h4
  exact ⟨s, r, h1, h2, h4 ▸ h6, h4 ▸ h5, Plan.ends h3⟩

/-- C76. There is only one plan. -/
theorem C76_unique {inline : Bool} (h : Spec.Plan c tasks gvars inline [] (.task main) [] es res)
    (h' : Spec.Plan c tasks gvars inline [] (.task main) [] es' res') : es = es' ∧ (res = none ↔ res' = none) := by
  have key : ∀ (c : Cfg), c.dry = !inline → Spec.Plan c tasks gvars inline [] (.task main) [] es res →
      Spec.Plan c tasks gvars inline [] (.task main) [] es' res' → es = es' ∧ (res = none ↔ res' = none) := by
    intro c hd h h'
    have hi : inline = !c.dry := by rw [hd, Bool.not_not]
    rw [hi] at h h'
    obtain ⟨s, r, h1, h2, h3, h4, h5⟩ := C76_possible h
    rcases (C76_order h' h1).2 r h2 with ⟨h6, h7⟩ | ⟨h6, _⟩
    · refine ⟨h4.symm.trans h6, ?_⟩
      have := h5.symm.trans h7
      constructor
      · intro h; by_contra h'; exact this.mpr h' h
      · intro h; by_contra h'; exact this.mp h' h
    · exact absurd h6 h3
  obtain ⟨s, hs⟩ : ∃ d, d = { c with dry := !inline } := ⟨_, rfl⟩
  exact key _ (by rw [hs]) (hs ▸ Plan.dry_irrelevant h) (hs ▸ Plan.dry_irrelevant h')

/-- C76. So two invocations do the same in the same order: what one has done is the beginning of what any other has done in the end,
if nothing came in between there. -/
theorem C76_same (hs : ∀ n, Needs tasks main n → Sequential tasks n) (hr : Reach (start c tasks gvars main) s)
    (hr' : Reach (start c tasks gvars main) s') {r' : Option Err} (hp : s'.prog = .ret r') (hd : ¬ Disturbed s'.sh.trace) :
    entries s.sh.trace <+: entries s'.sh.trace ∧
    ∀ r, s.prog = .ret r → ¬ Disturbed s.sh.trace → entries s.sh.trace = entries s'.sh.trace ∧ (r = none ↔ r' = none) := by
  obtain ⟨es, res, h⟩ := C76_plan (c := c) (gvars := gvars) hs (!c.dry)
  rcases (C76_order h hr').2 _ hp with ⟨h1, h2⟩ | ⟨h1, _⟩
  · refine ⟨h1 ▸ (C76_order h hr).1, ?_⟩
    intro r hr1 hr2
    rcases (C76_order h hr).2 _ hr1 with ⟨h3, h4⟩ | ⟨h3, _⟩
    · exact ⟨h3.trans h1.symm, h4.trans h2.symm⟩
    · exact absurd h3 hr2
  · exact absurd h1 hd

/-- C77. If nothing a task needs asks, runs in parallel or calls tasks in its items, then a dry run that was not interrupted shows what
a run does: at any time a run has done the beginning of what was shown. When it ends with success, it has done all of it and the
dry run ended with success too; when it ends with an error, a command failed, bab was interrupted, or the dry run showed
all that was done and ended with an error too. -/
theorem C77_dry_run (hs : ∀ n, Needs tasks main n → NoCalls tasks n)
    (hr : Reach (start { c with dry := true } tasks gvars main) s) {r : Option Err} (hp : s.prog = .ret r) (hc : ∀ id, .cancel id ∉ s.sh.trace)
    (hr' : Reach (start { c with dry := false } tasks gvars main) s') :
    entries s'.sh.trace <+: entries s.sh.trace ∧
    ∀ r', s'.prog = .ret r' → (entries s'.sh.trace = entries s.sh.trace ∧ (r' = none ↔ r = none)) ∨ (Disturbed s'.sh.trace ∧ r' ≠ none) := by
  have hq : ∀ n, Needs tasks main n → Sequential tasks n := by
    intro n hn T hT it hit
    rcases hs n hn T hT it hit with h | h
    · exact .inl h
    · exact .inr (.inl h)
  obtain ⟨es, res, h⟩ := C76_plan (c := c) (gvars := gvars) hq true
  have hf : Spec.Plan c tasks gvars false [] (.task main) [] es res :=
    Plan.same_plan (G := Needs tasks main) hs (fun n T d h1 h2 h3 => Sim.needs_closed h1 h2 (.inl h3)) h (.inl rfl)
  have h1 := C76_order (c := { c with dry := true }) (Plan.dry_irrelevant hf) hr
  have h2 := C76_order (c := { c with dry := false }) (Plan.dry_irrelevant h) hr'
  rcases h1.2 _ hp with ⟨h3, h4⟩ | ⟨⟨e, he, hd⟩, _⟩
  · rw [h3]
    refine ⟨h2.1, ?_⟩
    intro r' hr'
    rcases h2.2 r' hr' with ⟨h5, h6⟩ | h5
    · exact .inl ⟨h5, h6.trans h4.symm⟩
    · exact .inr h5
  · exfalso
    have := C20_dry_run_has_no_effects hr rfl e he
    cases e with
    | cancel id => exact hc id he
    | procFail loc => exact this.2.1 loc rfl
    | procEnd loc x => exact this.2.2.1 loc x rfl
    | _ => exact hd

end

namespace Sample

/-- a task with dependencies that share one, a message, a variable, a call of what is done already and an item for another platform -/
def steps : TaskMap :=
  [ (s "all", { name := s "all", deps := [s "lib", s "gen"], run := [cmd "gcc", call "lib", .command { cmd := s "del", platforms := [s "windows"] }, .log { log := s "ok", level := s "info" }] }),
    (s "lib", { name := s "lib", vars := some [(s "a", s "${{ b }}")], deps := [s "gen"], run := [cmd "ar ${{ a }}"] }),
    (s "gen", { name := s "gen", run := [cmd "m4", .command { cmd := s "lint", cond := s "false" }] }) ]

/-- the global variables -/
def stepVars : GoMap Str := [(s "b", s "x")]

/-- without the call -/
def plainSteps : TaskMap :=
  [ (s "all", { name := s "all", deps := [s "lib", s "gen"], run := [cmd "gcc", .log { log := s "ok", level := s "info" }] }),
    (s "lib", { name := s "lib", vars := some [(s "a", s "${{ b }}")], deps := [s "gen"], run := [cmd "ar ${{ a }}"] }),
    (s "gen", { name := s "gen", run := [cmd "m4", .command { cmd := s "lint", cond := s "false" }] }) ]

theorem steps_sequential (n : Str) : Sequential steps n := by
  intro T hT it hit
  have := GoMap.mem_of_get? hT
  simp only [steps, List.mem_cons, Prod.mk.injEq, List.not_mem_nil, or_false] at this
  rcases this with ⟨-, rfl⟩ | ⟨-, rfl⟩ | ⟨-, rfl⟩
  all_goals simp only [List.mem_cons, List.not_mem_nil, or_false] at hit
  · rcases hit with rfl | rfl | rfl | rfl
    · exact .inl ⟨_, rfl⟩
    · exact .inr (.inr ⟨_, rfl⟩)
    · exact .inl ⟨_, rfl⟩
    · exact .inr (.inl ⟨_, rfl⟩)
  · exact .inl ⟨_, hit⟩
  · rcases hit with rfl | rfl
    · exact .inl ⟨_, rfl⟩
    · exact .inl ⟨_, rfl⟩

theorem plainSteps_noCalls (n : Str) : NoCalls plainSteps n := by
  intro T hT it hit
  have := GoMap.mem_of_get? hT
  simp only [plainSteps, List.mem_cons, Prod.mk.injEq, List.not_mem_nil, or_false] at this
  rcases this with ⟨-, rfl⟩ | ⟨-, rfl⟩ | ⟨-, rfl⟩
  all_goals simp only [List.mem_cons, List.not_mem_nil, or_false] at hit
  · rcases hit with rfl | rfl
    · exact .inl ⟨_, rfl⟩
    · exact .inr ⟨_, rfl⟩
  · exact .inl ⟨_, hit⟩
  · rcases hit with rfl | rfl
    · exact .inl ⟨_, rfl⟩
    · exact .inl ⟨_, rfl⟩

theorem ret_of_result {s : State} {r : Option Err} (h : Exec.result s = some r) : s.prog = .ret r := by
  unfold Exec.result at h
  split at h
  · next h' => rw [h']; cases h; rfl
  · cases h

/-- the plan of `all` -/
def stepsPlan : List PlanEntry :=
  [.cmd ⟨s "gen", 0, none⟩ (s "m4"), .cmd ⟨s "lib", 0, none⟩ (s "ar x"), .cmd ⟨s "all", 0, none⟩ (s "gcc"), .log ⟨s "all", 3, none⟩ (s "ok") (s "info")]

end Sample

example : ∃ res, Spec.Plan {} Sample.steps Sample.stepVars true [] (.task (Sample.s "all")) [] Sample.stepsPlan res ∧ res ≠ none := by
  obtain ⟨es, res, h⟩ := C76_plan (c := {}) (gvars := Sample.stepVars) (main := Sample.s "all") (fun n _ => Sample.steps_sequential n) true
  rcases (C76_order h (Exec.reach _ [.auto 200])).2 none (Sample.ret_of_result (by decide +kernel)) with ⟨h1, h2⟩ | ⟨_, h2⟩
  · have : entries (Exec.drive [.auto 200] (start {} Sample.steps Sample.stepVars (Sample.s "all"))).sh.trace = Sample.stepsPlan := by decide +kernel
    exact ⟨res, by rwa [← this, h1], h2.mp rfl⟩
  · exact absurd rfl h2

/-- the second command fails: the rest of the plan is not done -/
example : entries (Exec.drive [.auto 29, .rep (.fail 3) 40] (start {} Sample.steps Sample.stepVars (Sample.s "all"))).sh.trace = Sample.stepsPlan.take 2 ∧
    Exec.result (Exec.drive [.auto 29, .rep (.fail 3) 40] (start {} Sample.steps Sample.stepVars (Sample.s "all"))) =
      some (some (.wrap (.dep (Sample.s "lib")) (.wrap (.command (Sample.s "lib") (Sample.s "ar x")) (.exit 3)))) := by decide +kernel

example : entries (Exec.drive [.auto 200] (start { dry := true } Sample.plainSteps Sample.stepVars (Sample.s "all"))).sh.trace =
      [.cmd ⟨Sample.s "gen", 0, none⟩ (Sample.s "m4"), .cmd ⟨Sample.s "lib", 0, none⟩ (Sample.s "ar x"), .cmd ⟨Sample.s "all", 0, none⟩ (Sample.s "gcc"),
        .log ⟨Sample.s "all", 1, none⟩ (Sample.s "ok") (Sample.s "info")] ∧
    Exec.result (Exec.drive [.auto 200] (start { dry := true } Sample.plainSteps Sample.stepVars (Sample.s "all"))) = some none ∧
    (∀ id, .cancel id ∉ (Exec.drive [.auto 200] (start { dry := true } Sample.plainSteps Sample.stepVars (Sample.s "all"))).sh.trace) ∧
    ∀ n, Needs Sample.plainSteps (Sample.s "all") n → NoCalls Sample.plainSteps n := by
  refine ⟨by decide +kernel, by decide +kernel, ?_, fun n _ => Sample.plainSteps_noCalls n⟩
  intro id h
  have : ∀ e ∈ (Exec.drive [.auto 200] (start { dry := true } Sample.plainSteps Sample.stepVars (Sample.s "all"))).sh.trace,
      (match e with | .cancel _ => false | _ => true) = true := by decide +kernel
  exact absurd (this _ h) (by simp)

/-- Limits of the property: a dry run names a task that an item calls, but does not show what it does. -/
theorem C77_calls_not_shown :
    entries (Exec.drive [.auto 200] (start { dry := true } Sample.steps Sample.stepVars (Sample.s "all"))).sh.trace =
      [.cmd ⟨Sample.s "gen", 0, none⟩ (Sample.s "m4"), .cmd ⟨Sample.s "lib", 0, none⟩ (Sample.s "ar x"), .cmd ⟨Sample.s "all", 0, none⟩ (Sample.s "gcc"),
        .task ⟨Sample.s "all", 1, none⟩ (Sample.s "lib"), .log ⟨Sample.s "all", 3, none⟩ (Sample.s "ok") (Sample.s "info")] := by decide +kernel

namespace Sample

/-- a task that asks for a name and uses it -/
def greet : TaskMap :=
  [(s "greet", { name := s "greet", vars := some [], run := [.prompt { prompt := s "who", type := .input, message := s "Who?" }, cmd "echo ${{ who }}"] })]

end Sample

/-- Limits of the property: a dry run of a task that asks for a value and uses it ends with an error, though a run succeeds. -/
theorem C77_prompt_fails :
    Exec.result (Exec.drive [.auto 200] (start {} Sample.greet [] (Sample.s "greet"))) = some none ∧
    ∃ e, Exec.result (Exec.drive [.auto 200] (start { dry := true } Sample.greet [] (Sample.s "greet"))) = some (some e) :=
  ⟨by decide +kernel, .wrap (.place 0) (.varNotFound (Sample.s "who")), by decide +kernel⟩

end Bab
