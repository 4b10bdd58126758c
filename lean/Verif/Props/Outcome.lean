import Verif.Proof.Fail
import Verif.Proof.Term
import Verif.Proof.Sample
/-
C15-C17, C20, C25, C26: how an invocation ends.
-/

namespace Bab
open Spec

section
variable {c : Cfg} {tasks : TaskMap} {gvars : GoMap Str} {main : Str} {s : State}

/-- C15. If an invocation reports success, then no command it started failed or could not be started,
every prompt was answered, and no item, dependency, parallel item, block or task ended with an
error. -/
theorem C15_no_swallowed_failure (h : Reach (start c tasks gvars main) s) (hp : s.prog = .ret none) :
    ∀ e ∈ s.sh.trace, ¬ Trouble e := by
  obtain ⟨-, -, -, O, hO, hs⟩ := Safe.runner_safe h
  rw [hp] at hs
  intro e he ht
  refine (hs rfl).2 e ht (hO e he ?_)
  cases e <;> trivial

example : ∃ s, Reach (start {} Sample.build [] (Sample.s "all")) s ∧ s.prog = .ret none ∧
    s.sh.trace.length = 55 := by
  refine ⟨Sample.good, Sample.good_reach, ?_, by decide +kernel⟩
  have h : Exec.result Sample.good = some none := by decide +kernel
  unfold Exec.result at h
  split at h
  · cases h; assumption
  · cases h

/-- why an item was skipped -/
theorem skip_reason (h : Reach (start c tasks gvars main) s) {n : Str} {i : Nat} {why : Skip}
    (hm : .itemSkip n i why ∈ s.sh.trace) :
    ∃ T item, tasks.get? n = some T ∧ T.run[i]? = some item ∧
      ((why = .platform ∧ item.onPlatform c.platform = false) ∨
       (∃ m, why = .cond m ∧ item.cond ≠ [] ∧ item.onPlatform c.platform = true ∧
          evaluate item.cond ⟨m, c.env⟩ = .ok false)) := by
  obtain ⟨a, b, ht⟩ := List.append_of_mem hm
  obtain ⟨q1, q2, q3, h1, h2, h3⟩ := task_at (n := n) h ht rfl
  generalize hT : tasks.get? n = T at h1 h2 h3
  cases h2 with
  | inner e h => cases h
  | @skipPlatform T _ _ _ _ item hi hp => exact ⟨T, item, rfl, hi, Or.inl ⟨rfl, hp⟩⟩
  | @skipCond T _ _ _ _ item m hi hp hc he ho => exact ⟨T, item, rfl, hi, Or.inr ⟨m, rfl, hc, hp, he⟩⟩

/-- why a task was skipped -/
theorem taskSkip_reason (h : Reach (start c tasks gvars main) s) {n : Str} {g : GoMap Str}
    (hm : .taskSkip n g ∈ s.sh.trace) :
    ∃ T, tasks.get? n = some T ∧ T.cond ≠ [] ∧ evaluate T.cond ⟨g, c.env⟩ = .ok false ∧
      GlobalsOk tasks gvars g := by
  obtain ⟨a, b, ht⟩ := List.append_of_mem hm
  have hg := Safe.event_ok h ht
  obtain ⟨q1, q2, q3, h1, h2, h3⟩ := task_at (n := n) h ht rfl
  generalize hT : tasks.get? n = T at h1 h2 h3
  cases h2 with
  | inner e h => cases h
  | @skip T _ hc he => exact ⟨T, rfl, hc, he, hg⟩

/-- C16. If a task is done and nothing was cancelled, then its condition was false, or all its
dependencies are done and each of its items was restricted to other platforms, had a false condition,
or was executed to completion, including all items of parallel blocks. -/
theorem C16_done_means_executed (h : Reach (start c tasks gvars main) s) (hc : ∀ id, .cancel id ∉ s.sh.trace)
    {n : Str} (hd : .done n ∈ s.sh.trace) :
    ∃ T, tasks.get? n = some T ∧
      ((T.cond ≠ [] ∧ ∃ g, GlobalsOk tasks gvars g ∧ evaluate T.cond ⟨g, c.env⟩ = .ok false) ∨
       ((∀ d ∈ T.deps, .done d ∈ s.sh.trace) ∧
        ∀ i item, T.run[i]? = some item →
          item.onPlatform c.platform = false ∨
          (item.cond ≠ [] ∧ ∃ m, .itemSkip n i (.cond m) ∈ s.sh.trace ∧ evaluate item.cond ⟨m, c.env⟩ = .ok false) ∨
          Executed (· ∈ s.sh.trace) c.dry n i item)) := by
  obtain ⟨a, b, ht⟩ := List.append_of_mem hd
  have hin : ∀ e ∈ a, e ∈ s.sh.trace := by intro e he; rw [ht]; simp [he]
  obtain ⟨T, hT, hdone⟩ := Safe.event_ok h ht
  refine ⟨T, hT, ?_⟩
  rcases hdone with ⟨g, hg⟩ | ⟨hdeps, hitems⟩
  · obtain ⟨T', hT', h1, h2, h3⟩ := taskSkip_reason h (hin _ hg)
    rw [hT] at hT'; cases hT'
    exact Or.inl ⟨h1, g, h3, h2⟩
  · refine Or.inr ⟨fun d hd => hin _ (hdeps d hd), fun i item hi => ?_⟩
    rcases hitems i item hi with ⟨why, hw⟩ | hdone
    · obtain ⟨T', item', hT', hi', hr⟩ := skip_reason h (hin _ hw)
      rw [hT] at hT'; cases hT'
      rw [hi] at hi'; cases hi'
      rcases hr with ⟨rfl, hr⟩ | ⟨m, rfl, h1, h2, h3⟩
      · exact Or.inl hr
      · exact Or.inr (Or.inl ⟨h1, m, hin _ hw, h3⟩)
    · refine Or.inr (Or.inr ?_)
      have hdone := Safe.itemDone_mono hin hdone
      cases item with
      | parallel items labels mode lim color bs bo pl w ln =>
        simp only [ItemDone] at hdone
        simp only [Executed]
        split
        · rename_i hdry
          rw [if_pos hdry] at hdone
          exact hdone
        · rename_i hdry
          rw [if_neg hdry] at hdone
          intro j sub hj
          rcases hdone.2 j sub hj with h1 | h1
          · exact h1
          · obtain ⟨x, y, hxy⟩ := List.append_of_mem h1
            obtain ⟨id, hid⟩ := Safe.event_ok h hxy
            exact absurd (by rw [hxy]; simp [hid]) (hc id)
      | command v => exact hdone
      | task v => exact hdone
      | log v => exact hdone
      | prompt v => exact hdone

/-- C16. If an invocation reports success, then the main task is done. -/
theorem C16_success_means_done (h : Reach (start c tasks gvars main) s) (hp : s.prog = .ret none) :
    .done main ∈ s.sh.trace := by
  obtain ⟨-, -, -, O, hO, hs⟩ := Safe.runner_safe h
  rw [hp] at hs
  exact (hs rfl).1

example : .done (Sample.s "x") ∈ Sample.good.sh.trace ∧
    ∀ e ∈ Sample.good.sh.trace, ∀ id, e ≠ .cancel id := by
  have h : .done (Sample.s "x") ∈ Sample.good.sh.trace ∧
      ∀ e ∈ Sample.good.sh.trace, (match e with | .cancel _ => false | _ => true) = true := by decide +kernel
  exact ⟨h.1, fun e he id hid => by have := h.2 e he; subst hid; cases this⟩

/-- a block with the limit 1 and two commands -/
def Sample.narrow : TaskMap :=
  [(Sample.s "t", { name := Sample.s "t", run := [Sample.par [Sample.cmd "one", Sample.cmd "two"] 1] })]

/-- the invocation is cancelled while the first command runs; the second one gives up waiting, and
the first one succeeds nevertheless -/
def Sample.cancelled : State :=
  Exec.drive [.auto 13, .cancel 0, .rep (.abort 1) 1, .auto 100] (start {} Sample.narrow [] (Sample.s "t"))

/-- C16 fails with cancellation: an invocation reports success although an item of a parallel block
was never executed. -/
theorem C16_cancelled_block_reports_success :
    ∃ (tasks : TaskMap) (main : Str) (s : State), Reach (start {} tasks [] main) s ∧
      Exec.result s = some none ∧ .done main ∈ s.sh.trace ∧
      ∃ T i item, tasks.get? main = some T ∧ T.run[i]? = some item ∧
        item.onPlatform "linux".toList = true ∧ item.cond = [] ∧ ¬ Executed (· ∈ s.sh.trace) false main i item := by
  refine ⟨Sample.narrow, Sample.s "t", Sample.cancelled, Exec.reach _ _, by decide +kernel, by decide +kernel,
    _, 0, _, rfl, rfl, rfl, rfl, ?_⟩
  intro h
  have := h 1 (Sample.cmd "two") rfl
  have hn : ¬ (.procEnd ⟨Sample.s "t", 0, some 1⟩ none ∈ Sample.cancelled.sh.trace) := by decide +kernel
  exact hn this

/-- C17. No execution goes on forever: from some point on there are only cancellations from outside.
This holds for every task map, whatever the cycles in it. -/
theorem C17_terminates (f : Nat → State) (_h0 : f 0 = start c tasks gvars main)
    (hf : ∀ k, SysStep (f k) (f (k + 1))) :
    ∃ N, ∀ k, N ≤ k → ¬ Step (f k).prog (f k).sh (f (k + 1)).prog (f (k + 1)).sh :=
  finitely_many_steps f hf

/-- C17. The recursion bound of the model is never hit: no goroutine of an invocation ever stands
before the action that stands for its exhaustion. So the recursion of `runTask` is never deeper than
the number of tasks plus two. -/
theorem C17_recursion_is_bounded (h : Reach (start c tasks gvars main) s) {k : Act.fuel.Resp → Prog} :
    ¬ Inside s.prog (.act .fuel k) := by
  intro hi
  obtain ⟨-, -, -, O, hO, hs⟩ := Safe.runner_safe h
  obtain ⟨P', O', hs'⟩ := Safe.safe_inside hi hs
  exact (hs' () trivial).2.1

/-- two tasks that depend on each other -/
def Sample.loop : TaskMap :=
  [(Sample.s "a", { name := Sample.s "a", deps := [Sample.s "b"], run := [Sample.cmd "x"] }),
   (Sample.s "b", { name := Sample.s "b", run := [Sample.call "a"] })]

/-- a cyclic task map ends with an error -/
example : ∃ e, Exec.result (Exec.drive [.auto 100] (start {} Sample.loop [] (Sample.s "a"))) = some (some e) :=
  ⟨.wrap (.dep (Sample.s "b")) (.circularDep ["a".toList, "b".toList]), by decide +kernel⟩

/-- C20. In dry-run mode no process is started, no prompt is shown or answered, nothing is logged or
echoed and no parallel block or view is opened. -/
theorem C20_dry_run_has_no_effects (h : Reach (start c tasks gvars main) s) (hdry : c.dry = true) :
    ∀ e ∈ s.sh.trace,
      (∀ loc spec, e ≠ .procStart loc spec) ∧ (∀ loc, e ≠ .procFail loc) ∧ (∀ loc r, e ≠ .procEnd loc r) ∧
      (∀ loc x r, e ≠ .answered loc x r) ∧ (∀ loc t l o, e ≠ .logged loc t l o) ∧
      (∀ n m o, e ≠ .echoTask n m o) ∧ (∀ loc t o, e ≠ .echoCmd loc t o) ∧
      (∀ n i m, e ≠ .parBegin n i m) ∧ (∀ n i j, e ≠ .subStart n i j) ∧ (∀ b, e ≠ .tuiStart b) := by
  intro e he
  obtain ⟨a, b, ht⟩ := List.append_of_mem he
  have hok := Safe.event_ok h ht
  refine ⟨?_, ?_, ?_, ?_, ?_, ?_, ?_, ?_, ?_, ?_⟩
  · rintro loc spec rfl; have := hok.1; rw [hdry] at this; cases this
  · rintro loc rfl; have := hok.1; rw [hdry] at this; cases this
  · rintro loc r rfl; have := hok.1; rw [hdry] at this; cases this
  · rintro loc x r rfl; have := hok.1; rw [hdry] at this; cases this
  · rintro loc t l o rfl; have := hok.1; rw [hdry] at this; cases this
  · rintro n m o rfl; have := hok.1; rw [hdry] at this; cases this
  · rintro loc t o rfl; have := hok.1; rw [hdry] at this; cases this
  · rintro n i m rfl; have := hok.1; rw [hdry] at this; cases this
  · rintro n i j rfl; have := hok.1; rw [hdry] at this; cases this
  · rintro b rfl; have : c.dry = false := hok; rw [hdry] at this; cases this

/-- C20. Outside of dry-run mode nothing is merely reported. -/
theorem C20_reports_only_in_dry_run (h : Reach (start c tasks gvars main) s) (hdry : c.dry = false) :
    ∀ e ∈ s.sh.trace,
      (∀ loc t, e ≠ .wouldRun loc t) ∧ (∀ loc t, e ≠ .wouldTask loc t) ∧ (∀ loc t l, e ≠ .wouldLog loc t l) ∧
      (∀ loc x, e ≠ .wouldPrompt loc x) ∧ (∀ loc, e ≠ .wouldParallel loc) := by
  intro e he
  obtain ⟨a, b, ht⟩ := List.append_of_mem he
  have hok := Safe.event_ok h ht
  refine ⟨?_, ?_, ?_, ?_, ?_⟩
  · rintro loc t rfl; have := hok.1; rw [hdry] at this; cases this
  · rintro loc t rfl; have := hok.1; rw [hdry] at this; cases this
  · rintro loc t l rfl; have := hok.1; rw [hdry] at this; cases this
  · rintro loc t rfl; have := hok.1; rw [hdry] at this; cases this
  · rintro loc rfl; have := hok.1; rw [hdry] at this; cases this

example : Exec.result (Exec.drive [.auto 400] (start { dry := true } Sample.build [] (Sample.s "all"))) = some none ∧
    .wouldRun ⟨Sample.s "all", 0, none⟩ (Sample.s "gcc") ∈
      (Exec.drive [.auto 400] (start { dry := true } Sample.build [] (Sample.s "all"))).sh.trace := by decide +kernel

/-- C25. No goroutine ever gets stuck: the invocation as a whole, and every goroutine that runs inside
it (with the blocks it has opened itself), has returned or can take a step. -/
theorem C25_no_deadlock (h : Reach (start c tasks gvars main) s) {q : Prog} (hq : Inside s.prog q) :
    (∃ r, q = .ret r) ∨ ∃ q' σ', Step q s.sh q' σ' := by
  obtain ⟨-, -, -, O, hO, hs⟩ := Safe.runner_safe h
  obtain ⟨P', O', hs'⟩ := Safe.safe_inside hq hs
  exact (Safe.safe_progress hs').imp id (fun h => h s.sh)

unseal placed in
/-- a state in the middle of a parallel block with a limit, where one goroutine has to wait -/
example : ∃ lim ctx t i n st ps k,
    (Exec.drive [.auto 11] (start {} Sample.narrow [] (Sample.s "t"))).prog = .par lim ctx t i n st ps k :=
  ⟨_, _, _, _, _, _, _, _, rfl⟩

/-- C26. Once the invocation has been cancelled no further process is started. -/
theorem C26_nothing_starts_after_cancellation (h : Reach (start c tasks gvars main) s) {a b : List Ev}
    (ht : s.sh.trace = a ++ .cancel 0 :: b) : ∀ loc spec, .procStart loc spec ∉ b := by
  intro loc spec hm
  obtain ⟨x, y, rfl⟩ := List.append_of_mem hm
  have ht' : s.sh.trace = (a ++ .cancel 0 :: x) ++ .procStart loc spec :: y := by rw [ht]; simp
  exact (Safe.event_ok h ht').2.2 (by simp)

example : ∃ a b, Sample.cancelled.sh.trace = a ++ .cancel 0 :: b := List.append_of_mem (by decide +kernel)

end

end Bab
