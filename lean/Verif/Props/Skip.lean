import Verif.Proof.Skip
import Verif.Proof.Sample
/-
C21, C22: what is skipped because of platforms and conditions.
-/

namespace Bab
open Spec Own

section
variable {c : Cfg} {tasks : TaskMap} {gvars : GoMap Str} {main : Str} {s : State}

/-- C21. Nothing ever happens at an item (its start, its command, the items inside it if it is a
parallel block) that is restricted to other platforms. -/
theorem C21_other_platforms_never_run (h : Reach (start c tasks gvars main) s) {e : Ev} {loc : Loc}
    (hm : e ∈ s.sh.trace) (he : placeOf e = some loc) :
    ∃ T item, tasks.get? loc.task = some T ∧ T.run[loc.item]? = some item ∧
      (item.platforms = [] ∨ c.platform ∈ item.platforms) := by
  obtain ⟨a, b, ht⟩ := List.append_of_mem hm
  obtain ⟨w, a1, a2, h1, -⟩ := item_started_mem h ht he
  obtain ⟨T, item, own, k1, k2, k3⟩ := start_allowed h (n := loc.task) (i := loc.item) (w := w) (by rw [h1]; simp)
  refine ⟨T, item, k1, k2, ?_⟩
  have := k3.1
  unfold RunItem.onPlatform matchesPlatform at this
  split at this
  · rename_i hp; exact Or.inl hp
  · right; simpa using this

/-- a task with a command for another platform, and one inside a block -/
def Sample.foreign : TaskMap :=
  [(Sample.s "t", { name := Sample.s "t", run :=
    [.command { cmd := Sample.s "dir", platforms := [Sample.s "windows"] }, Sample.cmd "ls",
     Sample.par [.command { cmd := Sample.s "ver", platforms := [Sample.s "windows"] }]] }),
   (Sample.s "u", { name := Sample.s "u", run :=
    [.command { cmd := Sample.s "dir", platforms := [Sample.s "windows"] }] }),
   (Sample.s "v", { name := Sample.s "v", run := [Sample.call "u"] })]

example : .itemStart (Sample.s "t") 1 none ∈
    (Exec.drive [.auto 100] (start {} Sample.foreign [] (Sample.s "t"))).sh.trace ∧
    placeOf (.itemStart (Sample.s "t") 1 none) = some ⟨Sample.s "t", 1, none⟩ := by decide +kernel

/-- C21 fails inside parallel blocks: the platforms of their items are ignored. -/
theorem C21_blocks_ignore_item_platforms :
    ∃ (tasks : TaskMap) (main : Str) (s : State) (loc : Loc) (spec : ProcSpec) (v : CommandRun),
      Reach (start {} tasks [] main) s ∧ .procStart loc spec ∈ s.sh.trace ∧
      itemAt tasks loc = some (.command v) ∧ v.platforms = ["windows".toList] := by
  refine ⟨Sample.foreign, Sample.s "t", Exec.drive [.auto 100] (start {} Sample.foreign [] (Sample.s "t")),
    ⟨Sample.s "t", 2, some 0⟩,
    { shell := "sh".toList, arg := "-c".toList, cmd := "ver".toList,
      env := some [("FORCE_COLOR".toList, "1".toList)], dir := ".".toList, out := .sink ⟨[], [0]⟩, stdin := false },
    _, Exec.reach _ _, by decide +kernel, rfl, rfl⟩

/-- C21. A task fails for lack of items for this platform only if it has items and all of them are
restricted to other platforms, or if an inline task of it fails for this reason. -/
theorem C21_no_items_error (h : Reach (start c tasks gvars main) s) {n x : Str}
    (hm : .taskEnd n (some (.noItems x)) ∈ s.sh.trace) :
    ∃ T, tasks.get? n = some T ∧
      ((x = T.name ∧ T.run ≠ [] ∧ ∀ item ∈ T.run, item.onPlatform c.platform = false) ∨
       ∃ i t, T.run[i]? = some (.task t) ∧ .itemEnd n i (some (.noItems x)) ∈ s.sh.trace) := by
  obtain ⟨a, b, ht⟩ := List.append_of_mem hm
  obtain ⟨q1, q2, q3, h1, h2, h3⟩ := task_at (n := n) h ht rfl
  generalize hT : tasks.get? n = T at h1 h2 h3
  cases h2 with
  | inner e h => cases h
  | condErr _ _ ho => exact absurd rfl (ho x)
  | varsErr _ _ _ ho => exact absurd rfl (ho x)
  | stop _ _ _ ho => exact absurd rfl (ho x)
  | @nothing T own =>
    refine ⟨T, rfl, Or.inl ⟨rfl, ?_⟩⟩
    obtain ⟨k1, k2, k3⟩ := (excluded_inv h1).1 _ _ _ _ rfl
    refine ⟨k1, fun item hi => ?_⟩
    obtain ⟨k, hk, rfl⟩ := List.getElem_of_mem hi
    exact k3 rfl rfl k _ hk (List.getElem?_eq_getElem hk)
  | @fail T =>
    refine ⟨T, rfl, Or.inr ?_⟩
    rcases (excluded_inv h1).2.2 x rfl with ⟨i, t, k1, k2⟩ | ⟨i, k1⟩
    · exact ⟨i, t, k1, by rw [ht]; simp [k2]⟩
    · obtain ⟨u, v, huv⟩ := List.append_of_mem k1
      have ht' : s.sh.trace = u ++ .parEnd n i (some (.noItems x)) :: (v ++ .taskEnd n (some (.noItems x)) :: b) := by
        rw [ht, huv]; simp
      obtain ⟨_, _, _, _, _, _, _, _, _, _, -, -, k⟩ := Safe.event_ok h ht'
      obtain ⟨j, e', -, -, k⟩ := k _ rfl
      cases k

/-- C21. A task that has items, all of which are restricted to other platforms, never becomes done
unless its own condition is false; and once it has got as far as its items it ends with the error that
it has no items for this platform, or because the invocation was cancelled, or because its environment
cannot be expanded. -/
theorem C21_all_excluded_fails (h : Reach (start c tasks gvars main) s) {n : Str} {T : Task}
    (hT : tasks.get? n = some T) (hr : T.run ≠ []) (hx : ∀ item ∈ T.run, item.onPlatform c.platform = false) :
    (.done n ∈ s.sh.trace → ∃ g, .taskSkip n g ∈ s.sh.trace) ∧
    (∀ a b r, s.sh.trace = a ++ .taskEnd n r :: b → (∃ g m call, .taskVars n g m call ∈ a) →
      r = some (.noItems T.name) ∨ r = some (.wrap .cancelled .canceled) ∨
      ∃ m e, interpolateEnv ⟨m, c.env⟩ (mergeEnvMaps [c.globalEnv, T.env]) = .error e ∧ r = some (e.placed T.line)) := by
  constructor
  · intro hm
    obtain ⟨a, b, ht⟩ := List.append_of_mem hm
    obtain ⟨q1, q2, q3, h1, h2, h3⟩ := task_at (n := n) h ht rfl
    rw [hT] at h1 h2 h3
    obtain ⟨k1, k2, k3, k4⟩ := all_excluded_inv hx h1
    generalize hTT : some T = TT at h2
    cases h2 with
    | inner e h => cases h
    | skipDone => obtain ⟨g, hg⟩ := k3 rfl; exact ⟨g, by rw [ht]; simp [hg]⟩
    | noRun _ h => cases hTT; exact absurd h hr
    | complete h =>
      have := k1 _ _ _ _ rfl
      omega
  · intro a b r ht hv
    obtain ⟨q1, q2, q3, h1, h2, h3⟩ := task_at (n := n) h ht rfl
    rw [hT] at h1 h2 h3
    obtain ⟨k1, k2, k3, k4⟩ := all_excluded_inv hx h1
    have hq := k4 hv
    generalize hTT : some T = TT at h2
    cases h2 with
    | inner e h => cases h
    | unknown => simp at hq
    | condErr => simp at hq
    | varsErr => simp at hq
    | nothing => cases hTT; exact Or.inl rfl
    | fail => simp at hq
    | finish => simp at hq
    | stop e hl hs ho =>
      cases hTT
      rcases hs with rfl | ⟨-, m, -, he⟩ | ⟨item, m, e', hi, hp, -⟩
      · exact Or.inr (Or.inl rfl)
      · obtain ⟨e1, he1, rfl⟩ := of_placed_error he
        exact Or.inr (Or.inr ⟨m, e1, he1, rfl⟩)
      · have := hx item (List.mem_of_getElem? hi)
        rw [hp] at this; cases this

/-- both tasks fail for lack of items; the second because of the first -/
example : .taskEnd (Sample.s "v") (some (.noItems (Sample.s "u"))) ∈
    (Exec.drive [.auto 100] (start {} Sample.foreign [] (Sample.s "v"))).sh.trace ∧
    .taskEnd (Sample.s "u") (some (.noItems (Sample.s "u"))) ∈
    (Exec.drive [.auto 100] (start {} Sample.foreign [] (Sample.s "v"))).sh.trace := by decide +kernel

/-- C22. Nothing happens at an item whose condition did not evaluate to true. -/
theorem C22_item_condition (h : Reach (start c tasks gvars main) s) {e : Ev} {loc : Loc}
    (hm : e ∈ s.sh.trace) (he : placeOf e = some loc) :
    ∃ T item, tasks.get? loc.task = some T ∧ T.run[loc.item]? = some item ∧
      (item.cond = [] ∨ ∃ m, .itemStart loc.task loc.item (some m) ∈ s.sh.trace ∧
        evaluate item.cond ⟨m, c.env⟩ = .ok true) := by
  obtain ⟨a, b, ht⟩ := List.append_of_mem hm
  obtain ⟨w, a1, a2, h1, -⟩ := item_started_mem h ht he
  have hw : .itemStart loc.task loc.item w ∈ s.sh.trace := by rw [h1]; simp
  obtain ⟨T, item, own, k1, k2, -, k3⟩ := start_allowed h hw
  refine ⟨T, item, k1, k2, ?_⟩
  rcases k3 with ⟨k3, -⟩ | ⟨-, m, rfl, k3, -⟩
  · exact Or.inl k3
  · exact Or.inr ⟨m, hw, k3⟩

/-- C22. In a task with its own variables, the texts of an item are expanded with variables for which
its condition is true. -/
theorem C22_condition_holds_for_the_item (h : Reach (start c tasks gvars main) s) {n : Str} {i : Nat}
    {m : GoMap Str} {T : Task} {item : RunItem} (hm : .sees ⟨n, i, none⟩ m ∈ s.sh.trace)
    (hT : tasks.get? n = some T) (hv : T.vars ≠ none) (hi : T.run[i]? = some item) (hc : item.cond ≠ []) :
    evaluate item.cond ⟨m, c.env⟩ = .ok true := by
  obtain ⟨a, b, ht⟩ := List.append_of_mem hm
  obtain ⟨q1, q2, q3, h1, h2, h3⟩ := task_at (n := n) h ht rfl
  rw [hT] at h1 h2 h3
  have hinv := cond_inv h1
  generalize hTT : some T = TT at h2
  generalize hl : Ev.sees ⟨n, i, none⟩ m = e at h2
  cases h2 with
  | @inner _ i' ex sk own ph own' ph' e h =>
    cases h with
    | sees m' ho =>
      cases hl
      obtain ⟨k1, k2⟩ := hinv.2 _ _ _ _ _ rfl
      cases own with
      | none => cases hvv : T.vars with
        | none => exact absurd hvv hv
        | some _ => rw [hvv] at k1; cases k1
      | some o =>
        rw [ho o rfl]
        exact k2 rfl item o hi rfl hc
    | _ => cases hl
  | _ => cases hl

/-- C22. If the condition of a task is found false, then the condition is false for the global
variables, and the task has no other events than being marked done: none of its items is started, none
of its dependencies is run, its name is not echoed. -/
theorem C22_skipped_task_does_nothing (h : Reach (start c tasks gvars main) s) {n : Str} {g : GoMap Str}
    (hm : .taskSkip n g ∈ s.sh.trace) :
    (∃ T, tasks.get? n = some T ∧ T.cond ≠ [] ∧ evaluate T.cond ⟨g, c.env⟩ = .ok false ∧ GlobalsOk tasks gvars g) ∧
    (∀ e ∈ s.sh.trace, ∀ loc, placeOf e = some loc → loc.task ≠ n) ∧
    (∀ k, .depOk n k ∉ s.sh.trace) ∧ (∀ k e, .depFail n k e ∉ s.sh.trace) ∧ (∀ b o, .echoTask n b o ∉ s.sh.trace) := by
  obtain ⟨a, b, ht⟩ := List.append_of_mem hm
  have hg := Safe.event_ok h ht
  obtain ⟨q1, q2, q3, h1, h2, h3⟩ := task_at (n := n) h ht rfl
  generalize hT : tasks.get? n = T at h1 h2 h3
  cases h2 with
  | inner e h => cases h
  | @skip T _ hc he =>
    refine ⟨⟨T, rfl, hc, he, hg⟩, ?_⟩
    have hb : ∀ e ∈ b, ¬ (mineTask n e = true ∧ e ≠ .done n ∧ e ≠ .taskEnd n none) := by
      refine run_after (A := fun q => q = .skipped ∨ q = .marked ∨ q = .ended) ?_ (fun e h => h.1) h3 (Or.inl rfl)
      rintro q e q' hq hme hd
      generalize hTT : some T = TT at hd
      rcases hq with rfl | rfl | rfl
      · cases hd with
        | skipDone => exact ⟨Or.inr (Or.inl rfl), fun h => h.2.1 rfl⟩
      · cases hd with
        | finish => exact ⟨Or.inr (Or.inr rfl), fun h => h.2.2 rfl⟩
      · cases hd
    have ha := (runs_inv hc h1).1 rfl
    have hall : ∀ e ∈ s.sh.trace, mineTask n e = true → e = .taskSkip n g ∨ e = .done n ∨ e = .taskEnd n none := by
      intro e he hme
      rw [ht] at he
      rcases List.mem_append.mp he with he | he
      · have := ha e he
        rw [hme] at this; cases this
      · rcases List.mem_cons.mp he with rfl | he
        · exact Or.inl rfl
        · have := hb e he
          by_contra hcon
          simp only [not_or] at hcon
          exact this ⟨hme, hcon.2.1, hcon.2.2⟩
    refine ⟨?_, ?_, ?_, ?_⟩
    · rintro e he loc hloc rfl
      obtain ⟨x, y, hxy⟩ := List.append_of_mem he
      obtain ⟨w, a1, a2, k1, -⟩ := item_started_mem h hxy hloc
      have := hall (.itemStart loc.task loc.item w) (by rw [k1]; simp) (by simp [mineTask, Spec.key])
      simp at this
    · intro k hk
      have := hall _ hk (by simp [mineTask, Spec.key])
      simp at this
    · intro k e hk
      have := hall _ hk (by simp [mineTask, Spec.key])
      simp at this
    · intro k o hk
      have := hall _ hk (by simp [mineTask, Spec.key])
      simp at this

/-- C22. If anything happens at an item of a task with a condition, the condition was true for the
global variables. -/
theorem C22_task_condition (h : Reach (start c tasks gvars main) s) {e : Ev} {loc : Loc} {T : Task}
    (hm : e ∈ s.sh.trace) (he : placeOf e = some loc) (hT : tasks.get? loc.task = some T) (hc : T.cond ≠ []) :
    ∃ g, GlobalsOk tasks gvars g ∧ evaluate T.cond ⟨g, c.env⟩ = .ok true := by
  obtain ⟨a, b, ht⟩ := List.append_of_mem hm
  obtain ⟨w, a1, a2, h1, -⟩ := item_started_mem h ht he
  obtain ⟨q1, q2, q3, k1, k2, k3⟩ := task_at (n := loc.task) h h1 rfl
  rw [hT] at k1 k2 k3
  have hinv := (runs_inv hc k1).2
  generalize hTT : some T = TT at k2
  have : ∃ g, .taskRuns loc.task g ∈ a1 ∧ evaluate T.cond ⟨g, c.env⟩ = .ok true := by
    cases k2 with
    | start => exact hinv (by simp)
    | inner e h => cases h
  obtain ⟨g, hg, heg⟩ := this
  obtain ⟨x, y, hxy⟩ := List.append_of_mem hg
  refine ⟨g, ?_, heg⟩
  exact Safe.event_ok h (a := x) (e := .taskRuns loc.task g) (b := y ++ .itemStart loc.task loc.item w :: a2)
    (by rw [h1, hxy]; simp)

/-- tasks with conditions -/
def Sample.conds : TaskMap :=
  [(Sample.s "t", { name := Sample.s "t", vars := some [(Sample.s "x", Sample.s "1")], cond := Sample.s "${{ G }}", run :=
    [.command { cmd := Sample.s "a", cond := Sample.s "${{ x }} == 1" },
     .command { cmd := Sample.s "b", cond := Sample.s "${{ x }} == 2" },
     Sample.par [.command { cmd := Sample.s "c", cond := Sample.s "false" }, Sample.call "off"]] }),
   (Sample.s "off", { name := Sample.s "off", cond := Sample.s "false", deps := [Sample.s "dep"], run := [Sample.cmd "d"] }),
   (Sample.s "dep", { name := Sample.s "dep", run := [Sample.cmd "e"] })]

def Sample.condRun : State :=
  Exec.drive [.auto 100] (start {} Sample.conds [(Sample.s "G", Sample.s "yes")] (Sample.s "t"))

example : Exec.result Sample.condRun = some none ∧
    .sees ⟨Sample.s "t", 0, none⟩ [(Sample.s "G", Sample.s "yes"), (Sample.s "x", Sample.s "1")] ∈ Sample.condRun.sh.trace ∧
    .taskSkip (Sample.s "off") [(Sample.s "G", Sample.s "yes")] ∈ Sample.condRun.sh.trace := by decide +kernel

/-- C22 fails inside parallel blocks: the conditions of their items are ignored. -/
theorem C22_blocks_ignore_item_conditions :
    ∃ (tasks : TaskMap) (gvars : GoMap Str) (main : Str) (s : State) (loc : Loc) (v : CommandRun),
      Reach (start {} tasks gvars main) s ∧ .procEnd loc none ∈ s.sh.trace ∧
      itemAt tasks loc = some (.command v) ∧ v.cond = "false".toList := by
  exact ⟨Sample.conds, _, Sample.s "t", Sample.condRun, ⟨Sample.s "t", 2, some 0⟩, _, Exec.reach _ _,
    by decide +kernel, rfl, rfl⟩

/-- C22 fails for tasks called from parallel blocks: their dependencies are run although their
condition is false. -/
theorem C22_blocks_run_dependencies_of_skipped_tasks :
    ∃ (tasks : TaskMap) (gvars g : GoMap Str) (main n d : Str) (T : Task) (s : State),
      Reach (start {} tasks gvars main) s ∧ .taskSkip n g ∈ s.sh.trace ∧ tasks.get? n = some T ∧ T.deps = [d] ∧
      .procEnd ⟨d, 0, none⟩ none ∈ s.sh.trace ∧
      ∀ m U, tasks.get? m = some U → m ≠ n → d ∉ U.deps ∧ ∀ i, i ∈ U.run → ∀ r, i = .task r → r.task ≠ d := by
  refine ⟨Sample.conds, _, _, Sample.s "t", Sample.s "off", Sample.s "dep", _, Sample.condRun, Exec.reach _ _,
    (by decide +kernel : .taskSkip (Sample.s "off") [(Sample.s "G", Sample.s "yes")] ∈ Sample.condRun.sh.trace), rfl, rfl,
    by decide +kernel, ?_⟩
  intro m U hU hm
  have hcases : m = Sample.s "t" ∨ m = Sample.s "off" ∨ m = Sample.s "dep" := by
    by_contra hcon
    simp only [not_or] at hcon
    have : GoMap.get? Sample.conds m = none := by
      simp only [Sample.conds, GoMap.get?]
      simp [Ne.symm hcon.1, Ne.symm hcon.2.1, Ne.symm hcon.2.2]
    rw [this] at hU; cases hU
  rcases hcases with rfl | rfl | rfl
  · cases hU
    refine ⟨by simp, ?_⟩
    rintro i hi r rfl
    simp [Sample.par] at hi
  · exact absurd rfl hm
  · cases hU
    refine ⟨by simp, ?_⟩
    rintro i hi r rfl
    simp [Sample.cmd] at hi

end

end Bab
