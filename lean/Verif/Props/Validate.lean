import Verif.Proof.Validate
import Verif.Proof.Sample
import Mathlib.Data.List.Nodup
/-
Properties of the validation of Babfiles: C36 (dangling references), C37 and C38 (cycles), C39 (aliases).
-/

namespace Bab

open Spec

section
variable {grow : Nat → Nat} {o1 o2 o3 o4 tasks : TaskMap}

/-- **C36** A missing task is reported exactly if an existing task refers to it, together with the task that
refers to it; whatever the order in which the tasks are visited. -/
theorem C36_missing_task (hwf : tasks.WF) (h1 : o1.Perm tasks) (h2 : o2.Perm tasks) (a b : Str) :
    VErr.notFound b a ∈ validateAll grow o1 o2 o3 o4 tasks ↔ Refers tasks a b ∧ tasks.get? b = none := by
  have hno : ∀ x : Str, tasks.has x = false ↔ tasks.get? x = none := by
    intro x
    cases hx : tasks.get? x <;> simp [GoMap.has, hx]
  have hcyc : VErr.notFound b a ∉ validateRunCycles grow o3 tasks := by
    unfold validateRunCycles; simp
  have hal : ∀ (o : TaskMap) (seen : GoMap Str), VErr.notFound b a ∉ aliasesLoop tasks o seen := by
    intro o
    induction o with
    | nil => intro seen h; cases h
    | cons q o ih =>
      intro seen h
      rw [aliasesLoop] at h
      rcases List.mem_append.mp h with h' | h'
      · clear h
        revert h'
        generalize q.2.allAliases = as
        induction as generalizing seen with
        | nil => intro h; cases h
        | cons x as ih' =>
          rw [aliasLoop]
          split
          · exact ih' seen
          · split
            · intro h
              rcases List.mem_cons.mp h with h | h
              · cases h
              · exact ih' seen h
            · split
              · intro h
                rcases List.mem_cons.mp h with h | h
                · cases h
                · exact ih' seen h
              · exact ih' _
      · exact ih _ h'
  unfold validateAll
  simp only [List.mem_append, hcyc, hal, validateAliases, or_false]
  constructor
  · rintro (h | h)
    · unfold validateDependencies at h
      obtain ⟨⟨n, T⟩, hq, h⟩ := List.mem_flatMap.mp h
      obtain ⟨d, hd, h⟩ := List.mem_flatMap.mp h
      split at h
      · cases h
      · rename_i hh
        cases List.mem_singleton.mp h
        exact ⟨⟨T, GoMap.get?_of_mem hwf (h1.subset hq), Or.inl hd⟩, (hno _).mp (by simpa using hh)⟩
    · unfold validateRunTaskRefs at h
      obtain ⟨⟨n, T⟩, hq, h⟩ := List.mem_flatMap.mp h
      obtain ⟨d, hd, hh, he⟩ := (taskRefs_spec _ _ _ _).mp h
      cases he
      exact ⟨⟨T, GoMap.get?_of_mem hwf (h2.subset hq), Or.inr hd⟩, (hno _).mp hh⟩
  · rintro ⟨⟨T, hT, h⟩, hb⟩
    rcases h with h | h
    · left
      unfold validateDependencies
      refine List.mem_flatMap.mpr ⟨(a, T), h1.symm.subset (GoMap.mem_of_get? hT), ?_⟩
      refine List.mem_flatMap.mpr ⟨b, h, ?_⟩
      simp [(hno b).mpr hb]
    · right
      unfold validateRunTaskRefs
      refine List.mem_flatMap.mpr ⟨(a, T), h2.symm.subset (GoMap.mem_of_get? hT), ?_⟩
      exact (taskRefs_spec _ _ _ _).mpr ⟨b, h, (hno b).mpr hb, rfl⟩

/-- **C36** In an accepted Babfile every reference names an existing task. -/
theorem C36_no_dangling (hwf : tasks.WF) (h1 : o1.Perm tasks) (h2 : o2.Perm tasks)
    (h : validateAll grow o1 o2 o3 o4 tasks = []) {a b : Str} (hr : Refers tasks a b) : ∃ T, tasks.get? b = some T := by
  cases hb : tasks.get? b with
  | some T => exact ⟨T, rfl⟩
  | none =>
    have := (C36_missing_task (grow := grow) (o3 := o3) (o4 := o4) hwf h1 h2 a b).mpr ⟨hr, hb⟩
    rw [h] at this; cases this

/-- **C37** Validation reports a cycle if and only if some task can reach itself by references, for every
order in which the tasks are visited. -/
theorem C37_cycles_exact (h3 : o3.Perm tasks) :
    validateRunCycles grow o3 tasks = [] ↔ ¬ ∃ n, Reaches tasks n n := by
  obtain ⟨g, hall, hor⟩ := cycleRun_goes grow h3
  have hiff : validateRunCycles grow o3 tasks = [] ↔ (cycleRun grow o3 tasks).reports = [] := by
    unfold validateRunCycles; simp
  rw [hiff]
  constructor
  · rintro h ⟨n, hn⟩
    rcases hor with hc | ⟨r, rest, hr, -⟩
    · have hv := hall hc
      obtain ⟨-, c2, -, L, c4, c5⟩ := hc
      have hL : ∀ v, tasks.has v = true → v ∈ L := fun v hv' => (c4 v).mpr ⟨hv v hv', fun hx => by cases (c2 v).mp hx⟩
      have hrank := rank_reaches (rank := fun x => (L.dropWhile (· ≠ x)).length) (fun a b hab hb => by
        refine topo_rank c5 a b (hL a ?_) hab hb
        obtain ⟨T, hT, -⟩ := hab
        simp [GoMap.has, hT]) hn (reaches_has hn)
      exact Nat.lt_irrefl _ hrank
    · rw [hr] at h; cases h
  · intro h
    rcases hor with hc | ⟨r, rest, hr, hl⟩
    · exact hc.1
    · obtain ⟨n, -, hn⟩ := lasso_reaches hl
      exact absurd ⟨n, hn⟩ h

/-- **C37** In an accepted Babfile tasks can be ranked so that every reference goes to a lower rank. -/
theorem C37_accepted_ranked (hwf : tasks.WF) (h1 : o1.Perm tasks) (h2 : o2.Perm tasks) (h3 : o3.Perm tasks)
    (h : validateAll grow o1 o2 o3 o4 tasks = []) : ∃ rank : Str → Nat, ∀ a b, Refers tasks a b → rank b < rank a := by
  obtain ⟨g, hall, hor⟩ := cycleRun_goes grow h3
  have hr : (cycleRun grow o3 tasks).reports = [] := by
    unfold validateAll at h
    simp only [List.append_eq_nil_iff] at h
    have := h.1.2
    unfold validateRunCycles at this
    simpa using this
  rcases hor with hc | ⟨r, rest, hr', -⟩
  · have hv := hall hc
    obtain ⟨-, c2, -, L, c4, c5⟩ := hc
    have hL : ∀ v, tasks.has v = true → v ∈ L := fun v hv' => (c4 v).mpr ⟨hv v hv', fun hx => by cases (c2 v).mp hx⟩
    refine ⟨fun x => (L.dropWhile (· ≠ x)).length, fun a b hab => ?_⟩
    refine topo_rank c5 a b (hL a ?_) hab ?_
    · obtain ⟨T, hT, -⟩ := hab
      simp [GoMap.has, hT]
    · obtain ⟨T, hT⟩ := C36_no_dangling hwf h1 h2 h hab
      simp [GoMap.has, hT]
  · rw [hr'] at hr; cases hr

/-- **C37** The search ends: the bound on the depth which the model needs is never reached. -/
theorem C37_terminates (h3 : o3.Perm tasks) : (cycleRun grow o3 tasks).fuel = false :=
  (cycleRun_goes grow h3).1.fuel

/-- **C38 (partial)** When the first cycle is reported, the chain reported is a path of references which leads
back into itself. Missing: this for the further reports, and for what the chain contains in the end; both are
wrong, see the two witnesses below. -/
theorem C38_first_cycle_partial (h3 : o3.Perm tasks) {r : Report} {rest : List Report}
    (h : (cycleRun grow o3 tasks).reports = r :: rest) : IsLasso tasks r.atReport := by
  rcases (cycleRun_goes grow h3).2.2 with hc | ⟨r', rest', hr, hl⟩
  · rw [hc.1] at h; cases h
  · rw [hr] at h; cases h; exact hl

/-- **C38 (partial)** Every chain is a path of references when it is reported. Missing: that it is a cycle, which
is wrong for the later ones. -/
theorem C38_paths_partial (h3 : o3.Perm tasks) {r : Report} (h : r ∈ (cycleRun grow o3 tasks).reports) :
    IsPath tasks r.atReport :=
  (cycleRun_goes grow h3).1.paths (fun r hr => by cases hr) r h

/-- **C39** No error about aliases means that aliases are unambiguous, and the other way round; for every order
in which the tasks are visited. -/
theorem C39_unambiguous (hwf : tasks.WF) (h4 : o4.Perm tasks) : validateAliases o4 tasks = [] ↔ Unambiguous tasks := by
  have hwf4 := GoMap.WF_perm hwf h4.symm
  have hget : ∀ n, o4.get? n = tasks.get? n := fun n => GoMap.get?_perm hwf4 h4 n
  have hno : ∀ x : Str, tasks.has x = false ↔ tasks.get? x = none := by
    intro x
    cases hx : tasks.get? x <;> simp [GoMap.has, hx]
  have hdecl : ∀ a n, (a, n) ∈ declarations o4 ↔ ∃ T, tasks.get? n = some T ∧ a ∈ declared T := by
    intro a n
    unfold declarations
    simp only [List.mem_flatMap, Prod.exists, List.mem_map, Prod.mk.injEq]
    constructor
    · rintro ⟨m, T, hm, x, hx, rfl, rfl⟩
      exact ⟨T, by rw [← hget]; exact GoMap.get?_of_mem hwf4 hm, hx⟩
    · rintro ⟨T, hT, ha⟩
      exact ⟨n, T, GoMap.mem_of_get? (by rw [hget]; exact hT), a, ha, rfl, rfl⟩
  unfold validateAliases
  rw [aliasesLoop_spec]
  have hnd : ((declarations o4).map (·.1)).Nodup ↔
      (∀ n m T U a, o4.get? n = some T → o4.get? m = some U → a ∈ declared T → a ∈ declared U → n = m) ∧
      (∀ n T, o4.get? n = some T → (declared T).Nodup) := by
    have hwf' := hwf4
    clear hdecl hget hwf4 h4
    induction o4 with
    | nil => simp [declarations, GoMap.get?]
    | cons q o ih =>
      obtain ⟨name, U⟩ := q
      have hwfo : GoMap.WF o := by
        unfold GoMap.WF GoMap.keys at hwf' ⊢; exact (List.nodup_cons.mp hwf').2
      have hnew : ∀ T, (name, T) ∉ o := by
        intro T hT
        unfold GoMap.WF GoMap.keys at hwf'
        exact (List.nodup_cons.mp hwf').1 (List.mem_map.mpr ⟨_, hT, rfl⟩)
      have hd : declarations ((name, U) :: o) = (declared U).map (fun a => (a, name)) ++ declarations o := by
        simp [declarations]
      have hid : ((declared U).map ((fun x : Str × Str => x.1) ∘ fun a => (a, name))) = declared U := by
        rw [show ((fun x : Str × Str => x.1) ∘ fun a => (a, name)) = id from rfl, List.map_id]
      rw [hd, List.map_append, List.map_map, hid, List.nodup_append]
      refine (and_congr_right fun _ => and_congr (ih hwfo) Iff.rfl).trans ?_
      simp only [GoMap.get?_iff_mem hwf', GoMap.get?_iff_mem hwfo, List.mem_map, declarations, List.mem_flatMap, List.mem_cons,
        Prod.mk.injEq]
      constructor
      · rintro ⟨h1, ⟨h2, h3⟩, h5⟩
        refine ⟨?_, ?_⟩
        · rintro n m T V a (⟨rfl, rfl⟩ | hn) (⟨rfl, rfl⟩ | hm) ha hb
          · rfl
          · exact absurd rfl (h5 a ha a ⟨(a, m), ⟨(m, V), hm, ⟨a, hb, rfl⟩⟩, rfl⟩)
          · exact absurd rfl (h5 a hb a ⟨(a, n), ⟨(n, T), hn, ⟨a, ha, rfl⟩⟩, rfl⟩)
          · exact h2 n m T V a hn hm ha hb
        · rintro n T (⟨rfl, rfl⟩ | hn)
          · exact h1
          · exact h3 n T hn
      · rintro ⟨h1, h2⟩
        refine ⟨h2 name U (Or.inl ⟨rfl, rfl⟩), ⟨fun n m T V a hn hm => h1 n m T V a (Or.inr hn) (Or.inr hm), fun n T hn => h2 n T (Or.inr hn)⟩, ?_⟩
        rintro a ha b ⟨⟨x, y⟩, ⟨⟨m, V⟩, hm, hb⟩, rfl⟩ rfl
        obtain ⟨z, hz, he⟩ := hb
        cases he
        have := h1 name m U V _ (Or.inl ⟨rfl, rfl⟩) (Or.inr hm) ha hz
        subst this
        exact hnew V hm
  rw [hnd]
  simp only [hget]
  constructor
  · rintro ⟨h1, h2, h3⟩
    exact ⟨fun n T a hT ha => (hno a).mp (h1 (a, n) ((hdecl a n).mpr ⟨T, hT, ha⟩)).1, h2, h3⟩
  · rintro ⟨h1, h2, h3⟩
    refine ⟨?_, h2, h3⟩
    rintro ⟨a, n⟩ hq
    obtain ⟨T, hT, ha⟩ := (hdecl a n).mp hq
    exact ⟨(hno a).mpr (h1 n T a hT ha), rfl⟩

/-- **C39** In a Babfile without errors about aliases, in whatever orders the tasks were visited: a task name
resolves to itself, an alias to the task declaring it, and every other name to itself. -/
theorem C39_resolve (hwf : tasks.WF) (h4 : o4.Perm tasks) (h : validateAliases o4 tasks = []) {order : TaskMap}
    (ho : order.Perm tasks) (x : Str) :
    ((∃ T, tasks.get? x = some T) → resolveTaskName (buildAliasMap order) x = x) ∧
    (∀ n T, tasks.get? n = some T → x ∈ declared T → resolveTaskName (buildAliasMap order) x = n) ∧
    ((∀ n T, tasks.get? n = some T → x ∉ declared T) → resolveTaskName (buildAliasMap order) x = x) := by
  have hu := (C39_unambiguous hwf h4).mp h
  have ho' : validateAliases order tasks = [] := (C39_unambiguous hwf ho).mpr hu
  unfold validateAliases at ho'
  rw [aliasesLoop_spec] at ho'
  have hwfo := GoMap.WF_perm hwf ho.symm
  have hdecl : ∀ a n, (a, n) ∈ declarations order ↔ ∃ T, tasks.get? n = some T ∧ a ∈ declared T := by
    intro a n
    unfold declarations
    simp only [List.mem_flatMap, Prod.exists, List.mem_map, Prod.mk.injEq]
    constructor
    · rintro ⟨m, T, hm, y, hy, rfl, rfl⟩
      exact ⟨T, GoMap.get?_of_mem hwf (ho.subset hm), hy⟩
    · rintro ⟨T, hT, ha⟩
      exact ⟨n, T, ho.symm.subset (GoMap.mem_of_get? hT), a, ha, rfl, rfl⟩
  obtain ⟨f1, f2⟩ := get?_foldl_alias (declarations order) ho'.2 [] x
  have hnone : (∀ n T, tasks.get? n = some T → x ∉ declared T) → resolveTaskName (buildAliasMap order) x = x := by
    intro hn
    unfold resolveTaskName
    rw [buildAliasMap_eq, f2 (fun n hm => by
      obtain ⟨T, hT, ha⟩ := (hdecl x n).mp hm
      exact hn n T hT ha)]
    rfl
  refine ⟨fun ⟨T, hT⟩ => hnone (fun n U hU ha => ?_), fun n T hT ha => ?_, hnone⟩
  · rw [hu.notName n U x hU ha] at hT; cases hT
  · unfold resolveTaskName
    rw [buildAliasMap_eq, f1 n ((hdecl x n).mpr ⟨T, hT, ha⟩)]
    rfl

end

/-! ### Concrete cases -/

namespace Sample

/-- two tasks; one refers to a missing task inside a parallel block -/
def dangling : TaskMap :=
  [ (s "a", { name := s "a", deps := [s "b"] }), (s "b", { name := s "b", run := [cmd "x", par [cmd "y", call "zz"]] }) ]

/-- the missing task is reported, and nothing else -/
example : validateAll doubling dangling dangling.reverse dangling dangling.reverse dangling = [.notFound (s "zz") (s "b")] := by
  decide +kernel

/-- `C36_missing_task` applies -/
example : Refers dangling (s "b") (s "zz") ∧ dangling.get? (s "zz") = none :=
  (C36_missing_task (grow := doubling) (o3 := dangling) (o4 := dangling) (by unfold GoMap.WF; decide +kernel) (List.Perm.refl _)
    (List.reverse_perm _) _ _).mp (by decide +kernel)

/-- the sample Babfile is accepted, so its tasks can be ranked -/
example : ∃ rank : Str → Nat, ∀ a b, Refers build a b → rank b < rank a :=
  C37_accepted_ranked (grow := doubling) (o1 := build) (o2 := build) (o3 := build.reverse) (o4 := build)
    (by unfold GoMap.WF; decide +kernel) (List.Perm.refl _) (List.Perm.refl _) (List.reverse_perm _) (by decide +kernel)

/-- three tasks; `a` and `b` depend on each other, `c` depends on `b` -/
def mutual_ : TaskMap :=
  [ (s "a", { name := s "a", deps := [s "b"] }), (s "b", { name := s "b", deps := [s "a"] }),
    (s "c", { name := s "c", deps := [s "b"] }) ]

/-- **C38 is violated (1)**: after the cycle of `a` and `b` the search leaves `b` on its recursion stack, because the
early return skips the end of the function (validate.go 143-158), so that a cycle is reported for `c`, which is on
none. -/
theorem C38_false_report : validateRunCycles doubling mutual_ mutual_ = [.cycle [s "a", s "b", s "a"], .cycle [s "c", s "b"]] ∧
    ¬ Reaches mutual_ (s "c") (s "c") := by
  refine ⟨by decide +kernel, ?_⟩
  have hno : ∀ q ∈ mutual_, s "c" ∉ q.2.deps ∧ q.2.run.length = 0 := by decide +kernel
  have href : ∀ a b, Refers mutual_ a b → b ≠ s "c" := by
    rintro a b ⟨T, hT, h⟩ rfl
    obtain ⟨h1, h2⟩ := hno (a, T) (GoMap.mem_of_get? hT)
    rcases h with h | h
    · exact h1 h
    · rw [List.length_eq_zero_iff.mp h2] at h; cases h
  intro h
  have : ∀ a b, Reaches mutual_ a b → b ≠ s "c" := by
    intro a b h
    induction h with
    | one h => exact href _ _ h
    | more _ _ ih => exact ih
  exact this _ _ h rfl

/-- a chain of five tasks, the last of which calls `f`, closing a cycle, and then `g` -/
def aliased : TaskMap :=
  [ (s "a", { name := s "a", deps := [s "b"] }), (s "b", { name := s "b", deps := [s "c"] }),
    (s "c", { name := s "c", deps := [s "d"] }), (s "d", { name := s "d", deps := [s "e"] }),
    (s "e", { name := s "e", run := [call "f", call "g"] }), (s "f", { name := s "f", run := [call "a"] }),
    (s "g", { name := s "g" }) ]

/-- **C38 is violated (2)**: the chain in the error shares its array with the chain of the search (validate.go
115-118), which writes `g` over `f`. The error shows `g` calling `a`; but `g` calls nothing. -/
theorem C38_overwritten : validateRunCycles doubling aliased aliased = [.cycle (["a", "b", "c", "d", "e", "g", "a"].map s)] ∧
    (cycleRun doubling aliased aliased).reports.map (·.atReport) = [["a", "b", "c", "d", "e", "f", "a"].map s] ∧
    ¬ Refers aliased (s "g") (s "a") := by
  refine ⟨by decide +kernel, by decide +kernel, ?_⟩
  have hno : ∀ q ∈ aliased, q.1 = s "g" → q.2.deps = [] ∧ q.2.run.length = 0 := by decide +kernel
  rintro ⟨T, hT, h⟩
  obtain ⟨h1, h2⟩ := hno (s "g", T) (GoMap.mem_of_get? hT) rfl
  rcases h with h | h
  · rw [h1] at h; cases h
  · rw [List.length_eq_zero_iff.mp h2] at h; cases h

/-- the partial theorem about the first cycle applies to it -/
example : IsLasso aliased (["a", "b", "c", "d", "e", "f", "a"].map s) :=
  C38_first_cycle_partial (grow := doubling) (o3 := aliased) (List.Perm.refl _)
    (r := ⟨⟨4, 7⟩, ["a", "b", "c", "d", "e", "f", "a"].map s⟩) (rest := []) (by decide +kernel)

/-- the partial theorem about all reports applies to the false one, a path that is no cycle -/
example : IsPath mutual_ (["c", "b"].map s) :=
  C38_paths_partial (grow := doubling) (o3 := mutual_) (List.Perm.refl _) (r := ⟨⟨5, 2⟩, ["c", "b"].map s⟩) (by decide +kernel)

/-- tasks with aliases -/
def named : TaskMap :=
  [ (s "build", { name := s "build", «alias» := s "b", aliases := [s "", s "make"] }), (s "test", { name := s "test", aliases := [s "t"] }) ]

/-- `C39_resolve` applies -/
example : resolveTaskName (buildAliasMap named.reverse) (s "make") = s "build" :=
  (C39_resolve (tasks := named) (o4 := named) (by unfold GoMap.WF; decide +kernel) (List.Perm.refl _) (by decide +kernel)
    (List.reverse_perm _) (s "make")).2.1 _ _ rfl (by decide +kernel)

/-- aliases that are a task name, that two tasks declare, that one declares twice -/
example : validateAliases
    [ (s "a", { name := s "a", «alias» := s "b" }), (s "b", { name := s "b", «alias» := s "x" }),
      (s "c", { name := s "c", aliases := [s "x", s "y", s "y"] }) ]
    [ (s "a", { name := s "a", «alias» := s "b" }), (s "b", { name := s "b", «alias» := s "x" }),
      (s "c", { name := s "c", aliases := [s "x", s "y", s "y"] }) ] =
    [.aliasConflict (s "b") (s "a"), .aliasTwice (s "x") (s "c") (s "b"), .aliasTwice (s "y") (s "c") (s "c")] := by
  decide +kernel

end Sample

end Bab
