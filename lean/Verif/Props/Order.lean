import Verif.Proof.Fail
import Verif.Proof.Sample
/-
C11-C14: what the runner executes at most once, and in which order.
-/

namespace Bab
open Spec

section
variable {c : Cfg} {tasks : TaskMap} {gvars : GoMap Str} {main : Str} {s : State}

/-- C11. In every state an invocation can reach, every run item (also inside parallel blocks) has been
started at most once, has performed its action at most once and has been concluded at most once,
however many ways lead to its task; and what happens at a place is preceded by its start. -/
theorem C11_at_most_once (h : Reach (start c tasks gvars main) s) (loc : Loc) :
    s.sh.trace.countP (starts loc) ≤ 1 ∧ s.sh.trace.countP (acts loc) ≤ 1 ∧
    s.sh.trace.countP (ends loc) ≤ 1 ∧
    ∀ a e b, s.sh.trace = a ++ e :: b → placeOf e = some loc →
      starts loc e = true ∨ ∃ e' ∈ a, starts loc e' = true :=
  ⟨starts_once h loc, acts_once h loc, ends_once h loc, fun _ _ _ => place_started h⟩

/-- the task `lib` of the example is reached in four ways, and its command is run once -/
example : Sample.good.sh.trace.countP (acts ⟨Sample.s "lib", 0, none⟩) = 1 ∧
    Exec.result Sample.good = some none := by decide +kernel

/-- C12. Whatever happens at an item of a task (it starts, its command is echoed or run, its prompt
shown, ...), all dependencies of the task have been completed before, where completed means that
`done` was recorded after everything the dependency consists of. -/
theorem C12_dependencies_first (h : Reach (start c tasks gvars main) s) {a b : List Ev} {e : Ev} {loc : Loc}
    (ht : s.sh.trace = a ++ e :: b) (he : placeOf e = some loc) :
    ∃ T, tasks.get? loc.task = some T ∧ ∀ d ∈ T.deps, .done d ∈ a ∧
      ∃ D, tasks.get? d = some D ∧ TaskDone (· ∈ a) c.dry d D := by
  obtain ⟨w, a1, a2, h1, h2⟩ := item_started_mem h ht he
  obtain ⟨T, k1, k2, k3⟩ := Safe.event_ok h h1
  refine ⟨T, k1, fun d hd => ?_⟩
  have hdone := k2 d hd
  obtain ⟨x, y, hxy⟩ := List.append_of_mem hdone
  have ht2 : s.sh.trace = x ++ .done d :: (y ++ .itemStart loc.task loc.item w :: a2) := by
    rw [h1, hxy]; simp
  obtain ⟨D, d1, d2⟩ := Safe.event_ok h ht2
  refine ⟨h2 _ hdone, D, d1, Safe.taskDone_mono (fun e he => h2 e ?_) d2⟩
  rw [hxy]; simp [he]

example : ∃ a b, Sample.good.sh.trace = a ++ .itemStart (Sample.s "all") 0 none :: b :=
  List.append_of_mem (by decide +kernel)

/-- C13. When anything happens at an item, every earlier item of the same task has been skipped or
executed to completion. -/
theorem C13_declared_order (h : Reach (start c tasks gvars main) s) {a b : List Ev} {e : Ev} {loc : Loc}
    (ht : s.sh.trace = a ++ e :: b) (he : placeOf e = some loc) :
    ∃ T, tasks.get? loc.task = some T ∧ ∀ k item, k < loc.item → T.run[k]? = some item →
      (∃ why, .itemSkip loc.task k why ∈ a) ∨ ItemDone (· ∈ a) c.dry loc.task k item := by
  obtain ⟨w, a1, a2, h1, h2⟩ := item_started_mem h ht he
  obtain ⟨T, k1, k2, k3⟩ := Safe.event_ok h h1
  refine ⟨T, k1, fun k item hk hi => ?_⟩
  rcases k3 k item hk hi with ⟨why, hw⟩ | hd
  · exact Or.inl ⟨why, h2 _ hw⟩
  · exact Or.inr (Safe.itemDone_mono h2 hd)

example : ∃ a b, Sample.good.sh.trace = a ++ .logged ⟨Sample.s "all", 3, none⟩ (Sample.s "ok") [] none :: b :=
  List.append_of_mem (by decide +kernel)

/-- C14. After an item of a task, or an item inside one of its parallel blocks, has failed, no later
item of the task is ever started and the task never becomes done. -/
theorem C14_failure_stops (h : Reach (start c tasks gvars main) s) {n : Str} {i : Nat} {e : Ev}
    (hm : e ∈ s.sh.trace) (he : FailsItem n i e) :
    (∀ e' ∈ s.sh.trace, ∀ loc, placeOf e' = some loc → loc.task = n → loc.item ≤ i) ∧
    .done n ∉ s.sh.trace := by
  obtain ⟨a, b, ht⟩ := List.append_of_mem hm
  obtain ⟨h1, h2⟩ := stop_item h ht he
  refine ⟨fun e' he' loc hp hn => ?_, h2⟩
  obtain ⟨a', b', ht'⟩ := List.append_of_mem he'
  obtain ⟨w, a1, a2, h3, -⟩ := item_started_mem h ht' hp
  rcases Nat.lt_or_ge i loc.item with hlt | hge
  · refine absurd ?_ (h1 loc.item w hlt)
    rw [h3, hn]; simp
  · exact hge

/-- C14. After a dependency of a task has failed, nothing of the task is executed and the task never
becomes done. -/
theorem C14_dependency_failure_stops (h : Reach (start c tasks gvars main) s) {n : Str} {k : Nat} {x : Err}
    (hm : .depFail n k x ∈ s.sh.trace) :
    (∀ e' ∈ s.sh.trace, ∀ loc, placeOf e' = some loc → loc.task ≠ n) ∧ .done n ∉ s.sh.trace := by
  obtain ⟨h1, h2⟩ := stop_dep h hm
  refine ⟨fun e' he' loc hp hn => ?_, h2⟩
  obtain ⟨a', b', ht'⟩ := List.append_of_mem he'
  obtain ⟨w, a1, a2, h3, -⟩ := item_started_mem h ht' hp
  refine absurd ?_ (h1 loc.item w)
  rw [h3, hn]; simp

example : ∃ x, .depFail (Sample.s "x") 0 x ∈
    (Exec.drive [.rep (.fail 2) 100] (start {} Sample.build [] (Sample.s "x"))).sh.trace :=
  ⟨.wrap (.command (Sample.s "lib") (Sample.s "ar")) (.exit 127), by decide +kernel⟩

/-- C14. After the failure of an item the task itself ends with that error. -/
theorem C14_failure_is_reported (h : Reach (start c tasks gvars main) s) {n : Str} {i : Nat} {x : Err}
    {a b : List Ev} (ht : s.sh.trace = a ++ .itemEnd n i (some x) :: b) {r : Option Err}
    (hr : .taskEnd n r ∈ s.sh.trace) : r = some x := by
  obtain ⟨q1, q2, q3, h1, h2, h3⟩ := task_at (n := n) h ht rfl
  have hended : ∀ {q0 q : Life} {l : List Ev}, Own.Run (mineTask n) (LifeStep c n (tasks.get? n)) q0 l q →
      .taskEnd n r ∈ l → q = .ended := by
    intro q0 q l hrun hm
    obtain ⟨u, v, rfl⟩ := List.append_of_mem hm
    obtain ⟨p1, p2, -, g2, g3⟩ := run_at hrun (by rw [mineTask_iff]; rfl)
    refine run_keep (A := fun q => q = .ended) ?_ g3 ?_
    · intro q e q' hq _ hd
      subst hq; generalize tasks.get? n = T at hd; cases hd
    · generalize tasks.get? n = T at g2
      cases g2 with
      | inner e h => cases h
      | _ => rfl
  rw [ht] at hr
  rcases List.mem_append.mp hr with hr | hr
  · have := hended h1 hr
    subst this
    generalize tasks.get? n = T at h2
    cases h2
  · rcases List.mem_cons.mp hr with hr | hr
    · cases hr
    · obtain ⟨u, v, rfl⟩ := List.append_of_mem hr
      obtain ⟨p1, p2, g1, g2, g3⟩ := run_at h3 (by rw [mineTask_iff]; rfl)
      have hf : q2 = .failed x := by
        generalize tasks.get? n = T at h2
        cases h2 with
        | inner e h => cases h
        | itemErr item e h hp => rfl
      have : p1 = .failed x ∨ p1 = .ended := by
        refine run_keep (A := fun q => q = .failed x ∨ q = .ended) ?_ g1 (Or.inl hf)
        intro q e q' hq _ hd
        generalize tasks.get? n = T at hd
        rcases hq with rfl | rfl <;> cases hd
        exact Or.inr rfl
      generalize tasks.get? n = T at g2
      rcases this with rfl | rfl <;> cases g2
      rfl

example : ∃ a b x, Sample.bad.sh.trace = a ++ .itemEnd (Sample.s "all") 1 (some x) :: b :=
  have ⟨a, b, h⟩ := List.append_of_mem (a := Ev.itemEnd (Sample.s "all") 1 (some
    (.wrap (.item (Sample.s "y")) (.wrap (.command (Sample.s "all") (Sample.s "y")) (.exit 127)))))
    (l := Sample.bad.sh.trace) (by decide +kernel)
  ⟨a, b, _, h⟩

example : FailsItem (Sample.s "all") 1 (.procFail ⟨Sample.s "all", 1, some 1⟩) ∧
    .procFail ⟨Sample.s "all", 1, some 1⟩ ∈ Sample.bad.sh.trace :=
  ⟨Or.inr (Or.inr (Or.inr ⟨trivial, some 1, rfl⟩)), by decide +kernel⟩

end

end Bab
