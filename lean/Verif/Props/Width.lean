import Verif.Proof.Width
import Verif.Props.Ends
import Verif.Props.Validate
import Verif.Proof.Sample
/-
C109: how many commands run at the same time.
-/

namespace Bab
open Spec.Width

section
variable {c : Cfg} {tasks : TaskMap} {gvars : GoMap Str} {main : Str} {s : State}

/-- C109. Let the tasks be given numbers that are enough for what each of them runs: a dependency needs no more than the task, nor does any
item of it; an item that is a parallel block needs no more than any choice of its items that the limit allows to run together. Then at every
moment of an invocation (after the events `a`) no more processes run than the number of the requested task. -/
theorem C109_at_once {w : Str → Nat} (hB : Budget tasks w) (h : Reach (start c tasks gvars main) s) {a b : List Ev}
    (ht : s.sh.trace = a ++ b) : atOnce a ≤ w main := by
  have key : ∀ {s : State}, Reach (start c tasks gvars main) s → atOnce s.sh.trace ≤ w main := by
    intro s h
    obtain ⟨k, h1, h2⟩ := Width.reach hB h
    have := h1.le
    unfold atOnce
    simp only [Width.starts, Width.ends] at h2
    omega
  rcases List.eq_nil_or_concat a with rfl | ⟨a', e, rfl⟩
  · exact Nat.zero_le _
  · obtain ⟨s', h1, h2⟩ := Ends.at_event h (a := a') (e := e) (b := b) (by rw [ht]; simp)
    have := key h1
    rw [h2] at this
    simpa using this

/-- C109. The numbers of starts and ends of processes tell how many run: no more end than have been started. -/
theorem C109_ends_le {w : Str → Nat} (hB : Budget tasks w) (h : Reach (start c tasks gvars main) s) :
    s.sh.trace.countP isEnd ≤ s.sh.trace.countP isStart := by
  obtain ⟨k, -, h2⟩ := Width.reach hB h
  simp only [Width.starts, Width.ends] at h2
  omega

/-- C109. Without parallel blocks, one command runs at a time. -/
theorem C109_one (hp : ∀ n T, tasks.get? n = some T → ∀ i ∈ T.run, ∀ items ls m l x y z p w ln, i ≠ .parallel items ls m l x y z p w ln)
    (h : Reach (start c tasks gvars main) s) {a b : List Ev} (ht : s.sh.trace = a ++ b) : atOnce a ≤ 1 := by
  refine C109_at_once (w := fun _ => 1) ⟨fun _ _ _ _ _ => Nat.le_refl _, fun n T hT i hi => ?_⟩ h ht
  cases i with
  | parallel items ls m l x y z p w ln => exact absurd rfl (hp n T hT _ hi items ls m l x y z p w ln)
  | command v => exact Nat.le_refl _
  | task t => exact Nat.le_refl _
  | log l => exact Nat.zero_le _
  | prompt p => exact Nat.zero_le _

/-- C109. Limits multiply. Let every parallel block have a limit of at most `L`, or at most `L` items, and let `depth` tell how deep blocks
are nested: tasks that are called from a block are less deep, dependencies and other tasks that are called are not deeper. Then at most
`L ^ depth` commands run at the same time. -/
theorem C109_power {L : Nat} (hL : 1 ≤ L) {depth : Str → Nat}
    (hd : ∀ n T, tasks.get? n = some T → ∀ d ∈ T.deps, depth d ≤ depth n)
    (ht : ∀ n T, tasks.get? n = some T → ∀ t, .task t ∈ T.run → depth t.task ≤ depth n)
    (hp : ∀ n T, tasks.get? n = some T → ∀ items ls m l x y z p w ln, .parallel items ls m l x y z p w ln ∈ T.run →
      (l ≠ 0 ∧ l ≤ L ∨ items.length ≤ L) ∧ 0 < depth n ∧ ∀ t, .task t ∈ items → depth t.task < depth n)
    (h : Reach (start c tasks gvars main) s) {a b : List Ev} (hs : s.sh.trace = a ++ b) : atOnce a ≤ L ^ depth main := by
  have h1 : ∀ k, 1 ≤ L ^ k := fun k => Nat.one_le_pow k L hL
  refine C109_at_once (w := fun n => L ^ depth n) ⟨fun n T hT d hdep => Nat.pow_le_pow_right hL (hd n T hT d hdep), fun n T hT i hi => ?_⟩ h hs
  cases i with
  | command v => exact h1 _
  | task t => exact Nat.pow_le_pow_right hL (ht n T hT t hi)
  | log l => exact Nat.zero_le _
  | prompt p => exact Nat.zero_le _
  | parallel items ls m l x y z p w ln =>
    obtain ⟨h2, h3, h4⟩ := hp n T hT items ls m l x y z p w ln hi
    intro together hsub hlen
    have h5 : together.length ≤ L := by
      rcases h2 with ⟨h2, h6⟩ | h2
      · exact Nat.le_trans (hlen h2) h6
      · exact Nat.le_trans hsub.length_le h2
    have h6 : ∀ it ∈ together, need (fun n => L ^ depth n) it ≤ L ^ (depth n - 1) := by
      intro it hit
      cases it with
      | command v => exact h1 _
      | task t => exact Nat.pow_le_pow_right hL (Nat.le_sub_one_of_lt (h4 t (hsub.subset hit)))
      | _ => exact Nat.zero_le _
    have h7 : (together.map (need fun n => L ^ depth n)).sum ≤ together.length * L ^ (depth n - 1) := by
      clear hsub hlen h5
      induction together with
      | nil => exact Nat.zero_le _
      | cons it l ih =>
        have := ih fun x hx => h6 x (List.mem_cons_of_mem _ hx)
        have := h6 it List.mem_cons_self
        simp only [List.map_cons, List.sum_cons, List.length_cons, Nat.add_mul, Nat.one_mul]
        omega
    calc _ ≤ together.length * L ^ (depth n - 1) := h7
      _ ≤ L * L ^ (depth n - 1) := Nat.mul_le_mul_right _ h5
      _ = L ^ depth n := by rw [Nat.mul_comm, ← Nat.pow_succ, Nat.succ_eq_add_one, Nat.sub_add_cancel h3]

/-- C109. In every accepted Babfile the number is bounded: if every parallel block has a limit of at most `L`, or at most `L` items, and `b`
tasks have blocks, at most `L ^ b` commands run at the same time. With one such task these are `L` commands. -/
theorem C109_accepted {grow : Nat → Nat} {o1 o2 o3 o4 : TaskMap} (hwf : tasks.WF) (h1 : o1.Perm tasks) (h2 : o2.Perm tasks) (h3 : o3.Perm tasks)
    (hv : validateAll grow o1 o2 o3 o4 tasks = []) {L : Nat} (hL : 1 ≤ L)
    (hp : ∀ n T, tasks.get? n = some T → ∀ items ls m l x y z p w ln, .parallel items ls m l x y z p w ln ∈ T.run → l ≠ 0 ∧ l ≤ L ∨ items.length ≤ L)
    (h : Reach (start c tasks gvars main) s) {a b : List Ev} (hs : s.sh.trace = a ++ b) : atOnce a ≤ L ^ (withBlocks tasks).length := by
  obtain ⟨rank, hr⟩ := C37_accepted_ranked hwf h1 h2 h3 hv
  have mono : ∀ {i j : Nat}, i ≤ j → (withBlocks tasks).countP (fun q => rank q.1 ≤ i) ≤ (withBlocks tasks).countP (fun q => rank q.1 ≤ j) := by
    intro i j hij
    exact List.countP_mono_left fun q _ hq => by simp only [decide_eq_true_eq] at hq ⊢; omega
  have calls : ∀ {t : TaskRun} {items : List RunItem}, .task t ∈ items → Spec.CallsIn t.task items := by
    intro t items hi
    induction items with
    | nil => cases hi
    | cons i rest ih =>
      rcases List.mem_cons.mp hi with rfl | hi
      · exact .here rfl
      · exact .later (ih hi)
  have blocks : ∀ {t : TaskRun} {items run : List RunItem} {ls m l x y z p w ln}, .parallel items ls m l x y z p w ln ∈ run → .task t ∈ items →
      Spec.CallsIn t.task run := by
    intro t items run ls m l x y z p w ln hi ht
    induction run with
    | nil => cases hi
    | cons i rest ih =>
      rcases List.mem_cons.mp hi with rfl | hi
      · exact .block (calls ht)
      · exact .later (ih hi)
  refine Nat.le_trans (C109_power (depth := fun n => (withBlocks tasks).countP (fun q => rank q.1 ≤ rank n)) hL ?_ ?_ ?_ h hs)
    (Nat.pow_le_pow_right hL List.countP_le_length)
  · intro n T hT d hd
    exact mono (Nat.le_of_lt (hr n d ⟨T, hT, .inl hd⟩))
  · intro n T hT t ht
    exact mono (Nat.le_of_lt (hr n t.task ⟨T, hT, .inr (calls ht)⟩))
  · intro n T hT items ls m l x y z p w ln hi
    have hmem : (n, T) ∈ withBlocks tasks := by
      unfold withBlocks
      refine List.mem_filter.mpr ⟨GoMap.mem_of_get? hT, List.any_eq_true.mpr ⟨_, hi, rfl⟩⟩
    refine ⟨hp n T hT items ls m l x y z p w ln hi, List.countP_pos_iff.mpr ⟨_, hmem, by simp⟩, fun t ht => ?_⟩
    have hlt := hr n t.task ⟨T, hT, .inr (blocks hi ht)⟩
    obtain ⟨pre, post, he⟩ := List.append_of_mem hmem
    have hm : ∀ l : TaskMap, l.countP (fun q => rank q.1 ≤ rank t.task) ≤ l.countP (fun q => rank q.1 ≤ rank n) := fun l =>
      List.countP_mono_left fun q _ hq => by simp only [decide_eq_true_eq] at hq ⊢; omega
    have e1 := hm pre
    have e2 := hm post
    show (withBlocks tasks).countP _ < (withBlocks tasks).countP _
    rw [he, List.countP_append, List.countP_append, List.countP_cons, List.countP_cons]
    simp only [decide_eq_true_eq, Nat.le_refl, if_true, show ¬ rank n ≤ rank t.task by omega, if_false]
    omega

end

/-! ### the bounds are reached -/

namespace Sample

/-- two tasks with blocks of three commands and a limit of 2, run together in a block with a limit of 2 -/
def twoByTwo : TaskMap :=
  [(s "all", { name := s "all", run := [par [call "a", call "b"] 2] }),
   (s "a", { name := s "a", run := [par [cmd "a1", cmd "a2", cmd "a3"] 2] }),
   (s "b", { name := s "b", run := [par [cmd "b1", cmd "b2", cmd "b3"] 2] })]

/-- how deep blocks are nested in them -/
def twoByTwoDepth (n : Str) : Nat := if n = s "all" then 2 else 1

/-- each of the four commands is started before any ends -/
def twoByTwoRun : State :=
  let cmd := fun i j => Exec.Do.rep (.sub i (.sub j .go)) 5
  Exec.drive [.auto 8, .rep (.sub 0 .go) 50, cmd 0 0, cmd 0 1, .rep (.sub 1 .go) 50, cmd 1 0, cmd 1 1] (start {} twoByTwo [] (s "all"))

end Sample

/-- C109. The limit of a block does not count what runs in blocks further inside: with the limit 2 everywhere, four commands run at the same
time. -/
theorem C109_limits_multiply : Reach (start {} Sample.twoByTwo [] (Sample.s "all")) Sample.twoByTwoRun ∧ atOnce Sample.twoByTwoRun.sh.trace = 4 :=
  ⟨Exec.reach _ _, by decide +kernel⟩

/-- and never more -/
example {s : State} (h : Reach (start {} Sample.twoByTwo [] (Sample.s "all")) s) : atOnce s.sh.trace ≤ 4 := by
  refine C109_power (L := 2) (by decide) (depth := Sample.twoByTwoDepth) ?_ ?_ ?_ h (List.append_nil _).symm
  all_goals
    intro n T hT
    unfold Sample.twoByTwo at hT
    simp only [GoMap.get?] at hT
    repeat' split at hT
    all_goals first | cases hT; done | skip
  all_goals
    cases hT
    subst_vars
  any_goals
    intro d hd
    cases hd
    done
  any_goals
    intro t ht
    simp [Sample.par, Sample.call, Sample.cmd] at ht
    done
  all_goals
    intro items ls m l x y z p w ln hi
    simp only [Sample.par, List.mem_singleton, RunItem.parallel.injEq] at hi
    obtain ⟨rfl, rfl, rfl, rfl, -⟩ := hi
    refine ⟨.inl ⟨by decide, by decide⟩, by decide +kernel, ?_⟩
    intro t ht
    simp only [Sample.call, Sample.cmd, List.mem_cons, List.not_mem_nil, or_false, reduceCtorEq, RunItem.task.injEq] at ht
    try (rcases ht with rfl | rfl <;> decide +kernel)

/-- the hypotheses of C109_accepted hold for a task with a block that calls another one; its limit is reached by no more than two commands -/
example {s : State} (h : Reach (start {} [(Sample.s "all", { name := Sample.s "all", run := [Sample.par [Sample.call "a", Sample.cmd "b", Sample.cmd "c"] 2] }),
      (Sample.s "a", { name := Sample.s "a", run := [Sample.cmd "a1"] })] [] (Sample.s "all")) s) : atOnce s.sh.trace ≤ 2 := by
  refine C109_accepted (grow := id) (by unfold GoMap.WF; decide) (.refl _) (.refl _) (.refl _) (o4 := []) (by decide +kernel) (L := 2) (by decide) ?_ h
    (List.append_nil _).symm
  intro n T hT
  simp only [GoMap.get?] at hT
  repeat' split at hT
  all_goals first | cases hT; done | skip
  all_goals
    cases hT
    intro items ls m l x y z p w ln hi
    simp [Sample.par, Sample.cmd] at hi
  obtain ⟨rfl, rfl, rfl, rfl, -⟩ := hi
  exact .inl ⟨by decide, by decide⟩

end Bab
