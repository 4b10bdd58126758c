import Verif.Proof.Shown
import Verif.Proof.Place
import Verif.Proof.Sample
/-
C71: what a task announces, logs and prints appears at its place: on the terminal outside of parallel blocks, else with the
labels of the items around it or in the view, below the items around it.
-/

namespace Bab
open Spec

section
variable {c : Cfg} {tasks : TaskMap} {gvars : GoMap Str} {main : Str} {s : State}

/-- **C71** A task runs with writers that the definitions give it. -/
theorem C71_task (h : Reach (start c tasks gvars main) s) {n : Str} {g m : GoMap Str} {call : Call} (hv : .taskVars n g m call ∈ s.sh.trace) :
    Writes c tasks main n call.out := by
  obtain ⟨a, b, ht⟩ := List.append_of_mem hv
  exact (Shown.reach h ht).1

/-- **C71** It is announced through writers that the definitions give it, and, unless it is silent, through the ones that it
runs with, before its variables are set up. Only the task that was called is announced as such, and on the terminal. -/
theorem C71_announced (h : Reach (start c tasks gvars main) s) :
    (∀ n b o, .echoTask n b o ∈ s.sh.trace → Writes c tasks main n o ∧ (b = true → n = main ∧ o = none)) ∧
    ∀ n g m call T a z, s.sh.trace = a ++ .taskVars n g m call :: z → tasks.get? n = some T → c.dry = false →
      isSilent [call.silent, T.silent, c.globalSilent] = false → ∃ b, .echoTask n b call.out ∈ a := by
  refine ⟨fun n b o hv => ?_, fun n g m call T a z ht hT hd hs => (Shown.reach h ht).2 T hT hd hs⟩
  obtain ⟨a, z, ht⟩ := List.append_of_mem hv
  exact Shown.reach h ht

theorem fresh_inv {n : Str} {T : Task} {a : List Ev} {q : Life} (h : Own.Run (mineTask n) (LifeStep c n (some T)) (lifeStart (some T)) a q) :
    (q = .fresh ∨ q = .deps 0 false) → ∀ e ∈ a, mineTask n e = true → ∃ g, e = .taskRuns n g := by
  refine run_inv (J := fun a q => (q = .fresh ∨ q = .deps 0 false) → ∀ e ∈ a, mineTask n e = true → ∃ g, e = .taskRuns n g) (by simp) ?_ ?_ h
  · intro a e q q' hJ hm hd hq
    cases hd with
    | runs g =>
      intro e he hk
      rcases List.mem_append.mp he with he | he
      · exact hJ (.inl rfl) e he hk
      · exact ⟨g, List.mem_singleton.mp he⟩
    | _ => simp at hq
  · intro a e q hJ hm hq x hx hk
    rcases List.mem_append.mp hx with hx | hx
    · exact hJ hq x hx hk
    · rw [List.mem_singleton.mp hx, hm] at hk; cases hk

/-- **C71** The announcement comes before everything else of the task, except that its condition holds, and there is at most one. -/
theorem C71_once (h : Reach (start c tasks gvars main) s) {n : Str} {b : Bool} {o : Option Sink} {a z : List Ev}
    (ht : s.sh.trace = a ++ .echoTask n b o :: z) :
    (∀ k, .depOk n k ∉ a) ∧ (∀ k e, .depFail n k e ∉ a) ∧ (∀ g m call, .taskVars n g m call ∉ a) ∧ (∀ r, .taskEnd n r ∉ a) ∧
      ∀ b' o', .echoTask n b' o' ∉ a ∧ .echoTask n b' o' ∉ z := by
  have key : ∀ {b o a z}, s.sh.trace = a ++ .echoTask n b o :: z → ∀ e ∈ a, mineTask n e = true → ∃ g, e = .taskRuns n g := by
    intro b o a z ht
    obtain ⟨q1, q2, q3, r1, r2, -⟩ := task_at h ht rfl
    generalize tasks.get? n = TT at r1 r2
    cases r2 with
    | echo => exact fresh_inv r1 (.inr rfl)
    | inner e h => cases h
  have no : ∀ {b o a z}, s.sh.trace = a ++ .echoTask n b o :: z → ∀ e : Ev, mineTask n e = true → (∀ g, e ≠ .taskRuns n g) → e ∉ a := by
    intro b o a z ht e h1 h2 he
    obtain ⟨g, hg⟩ := key ht e he h1
    exact h2 g hg
  have mine : ∀ {e : Ev}, Spec.key e = some (n, none) → mineTask n e = true := fun h => mineTask_iff.mpr h
  refine ⟨fun k => no ht _ (mine rfl) (by simp), fun k e => no ht _ (mine rfl) (by simp), fun g m call => no ht _ (mine rfl) (by simp),
    fun r => no ht _ (mine rfl) (by simp), fun b' o' => ⟨no ht _ (mine rfl) (by simp), fun hz => ?_⟩⟩
  obtain ⟨x, y, rfl⟩ := List.append_of_mem hz
  exact no (b := b') (o := o') (a := a ++ .echoTask n b o :: x) (z := y) (by rw [ht]; simp) (.echoTask n b o) (mine rfl) (by simp) (by simp)

theorem runs_call (h : Reach (start c tasks gvars main) s) {a : List Ev} (ha : a ⊆ s.sh.trace) {n : Str} {o : Option Sink} (hr : Runs a n o) {g m : GoMap Str}
    {call : Call} (hv : .taskVars n g m call ∈ s.sh.trace) : o = call.out := by
  obtain ⟨g', m', call', h1, h2⟩ := hr
  obtain ⟨-, -, h4⟩ := vars_unique h (ha h1) hv
  rw [← h2, h4]

/-- **C71** Commands are announced and messages are logged at the place of their item, seen from the writers of its task. -/
theorem C71_items (h : Reach (start c tasks gvars main) s) {loc : Loc} {text level : Str} {o : Option Sink}
    (hv : .echoCmd loc text o ∈ s.sh.trace ∨ .logged loc text level o ∈ s.sh.trace) :
    ∃ g m call, .taskVars loc.task g m call ∈ s.sh.trace ∧ At c tasks loc call.out o := by
  rcases hv with hv | hv
  all_goals
    obtain ⟨a, b, ht⟩ := List.append_of_mem hv
    obtain ⟨x, ⟨g, m, call, h1, h2⟩, h3⟩ := Shown.reach h ht
    exact ⟨g, m, call, by rw [ht]; simp [h1], h2 ▸ h3⟩

/-- **C71** The output of a command is shown at the place of its item, unless it is switched off. Only a command that writes to the
terminal gets the input. -/
theorem C71_output (h : Reach (start c tasks gvars main) s) {loc : Loc} {spec : ProcSpec} (hv : .procStart loc spec ∈ s.sh.trace) :
    ∃ g m call o, .taskVars loc.task g m call ∈ s.sh.trace ∧ At c tasks loc call.out o ∧
      (spec.out = .discard ∨ spec.out = o.elim .terminal .sink) ∧ (spec.stdin = true → o = none ∧ spec.out = .terminal) := by
  obtain ⟨a, b, ht⟩ := List.append_of_mem hv
  obtain ⟨x, o, ⟨g, m, call, h1, h2⟩, h3⟩ := Shown.reach h ht
  exact ⟨g, m, call, o, by rw [ht]; simp [h1], h2 ▸ h3⟩

/-- **C71** All items of a task go with the same call: there is only one. -/
theorem C71_one_call (h : Reach (start c tasks gvars main) s) {n : Str} {g m g' m' : GoMap Str} {call call' : Call}
    (hv : .taskVars n g m call ∈ s.sh.trace) (hv' : .taskVars n g' m' call' ∈ s.sh.trace) : call = call' :=
  (vars_unique h hv hv').2.2

/-- **C71** The places are determined, and different items of a block have different ones. -/
theorem C71_different {tty : Bool} {mode : ParallelMode} {o : Option Sink} {j j' : Nat} {x y : Sink} (hx : InBlock tty mode o j x)
    (hy : InBlock tty mode o j' y) : x = y ↔ j = j' := by
  cases hx <;> cases hy <;> simp_all

/-- **C71** Nothing that an item of a block prints reaches the terminal without its label or the view, and it gets no input. -/
theorem C71_never_raw (h : Reach (start c tasks gvars main) s) {n : Str} {i j : Nat} {spec : ProcSpec}
    (hv : .procStart ⟨n, i, some j⟩ spec ∈ s.sh.trace) : spec.out ≠ .terminal ∧ spec.stdin = false := by
  obtain ⟨_, _, _, o, -, hat, ho, hi⟩ := C71_output h hv
  cases hat with
  | item hT hb hs =>
    refine ⟨fun h0 => ?_, ?_⟩
    · rw [h0] at ho; rcases ho with ho | ho <;> cases ho
    · cases hb : spec.stdin with
      | false => rfl
      | true => obtain ⟨h1, -⟩ := hi hb; cases h1

/-- **C71** The view is used only on a terminal and for a block that asks for it, outside of other blocks. Such a block
does not start before its view. -/
theorem C71_view (h : Reach (start c tasks gvars main) s) :
    (∀ b, .tuiStart b ∈ s.sh.trace → c.stderrTTY = true ∧ ∃ n g m call T items labels mode lim color bs bo pl w ln,
      .taskVars n g m call ∈ s.sh.trace ∧ call.out = none ∧ tasks.get? n = some T ∧
      .parallel items labels mode lim color bs bo pl w ln ∈ T.run ∧ mode ≠ .interleaved) ∧
    ∀ n i m a z, s.sh.trace = a ++ .parBegin n i m :: z → c.stderrTTY = true → ∀ g m' call, .taskVars n g m' call ∈ s.sh.trace → call.out = none →
      ∀ T items labels mode lim color bs bo pl w ln, tasks.get? n = some T → T.run[i]? = some (.parallel items labels mode lim color bs bo pl w ln) →
      mode ≠ .interleaved → .tuiStart true ∈ a := by
  refine ⟨fun b hv => ?_, fun n i m a z ht htty g m' call hv ho T items labels mode lim color bs bo pl w ln hT hi hm => ?_⟩
  · obtain ⟨a, z, ht⟩ := List.append_of_mem hv
    obtain ⟨h1, n, T, items, labels, mode, lim, color, bs, bo, pl, w, ln, ⟨g, m, call, h2, h3⟩, h4⟩ := Shown.reach h ht
    exact ⟨h1, n, g, m, call, T, items, labels, mode, lim, color, bs, bo, pl, w, ln, by rw [ht]; simp [h2], h3, h4⟩
  · obtain ⟨o, h1, h2⟩ := Shown.reach h ht
    have := runs_call h (by rw [ht]; exact List.subset_append_left _ _) h1 hv
    exact h2 htty (this.trans ho) T items labels mode lim color bs bo pl w ln hT hi hm

end

namespace Sample

/-- a view with a task in it that has a block which writes lines -/
def nested : TaskMap :=
  [ (s "all", { name := s "all", run := [cmd "ls", .parallel [call "x", cmd "y"] [] .grouped 0 none none none [] [] 0] }),
    (s "x", { name := s "x", run := [.log { log := s "hello" }, par [cmd "a", cmd "b"]] }) ]

def nestedRun : State := Exec.drive [.auto 400] (start { stderrTTY := true } nested [] (s "all"))

theorem nestedRun_reach : Reach (start { stderrTTY := true } nested [] (s "all")) nestedRun := Exec.reach _ _

/-- the places of the output of the commands, and of the messages -/
example : nestedRun.sh.trace.filterMap (fun v => match v with | .procStart loc spec => some (loc.task, loc.sub, spec.out, spec.stdin) | _ => none) =
    [(s "all", none, .terminal, true), (s "x", some 0, .sink ⟨[0], [0]⟩, false), (s "x", some 1, .sink ⟨[0], [1]⟩, false),
      (s "all", some 1, .sink ⟨[1], []⟩, false)] ∧
    .logged ⟨s "x", 0, none⟩ (s "hello") [] (some ⟨[0], []⟩) ∈ nestedRun.sh.trace ∧
    .echoTask (s "all") true none ∈ nestedRun.sh.trace ∧ .echoTask (s "x") false (some ⟨[0], []⟩) ∈ nestedRun.sh.trace ∧
    .tuiStart true ∈ nestedRun.sh.trace := by decide +kernel

/-- without a terminal there is no view -/
example : (Exec.drive [.auto 400] (start {} nested [] (s "all"))).sh.trace.filterMap
    (fun v => match v with | .procStart loc spec => some (loc.task, loc.sub, spec.out) | _ => none) =
    [(s "all", none, .terminal), (s "x", some 0, .sink ⟨[], [0, 0]⟩), (s "x", some 1, .sink ⟨[], [0, 1]⟩), (s "all", some 1, .sink ⟨[], [1]⟩)] := by
  decide +kernel

end Sample

end Bab
