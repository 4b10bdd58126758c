import Verif.Proof.ClaimRun
import Verif.Props.Validate
import Verif.Props.Parallel
/-
C18: accepted Babfiles do not fail with a circular dependency. C19: what has to hold of the items of a parallel block
for the same.
-/

namespace Bab
open Spec Claim

section
variable {c : Cfg} {tasks : TaskMap} {gvars : GoMap Str} {main : Str} {s : State}

/-- **C19** When references decrease a rank, and two items of a parallel block run the same task only if it is a direct
dependency of an item of the block, then no schedule, no outcome of commands and prompts and no cancellation makes any
part of the invocation, or the invocation itself, fail with a circular-dependency error. -/
theorem C19_separate_partial {rank : Str → Nat} (hr : ∀ a b, Refers tasks a b → rank b < rank a) (hsep : Separate tasks)
    (h : Reach (start c tasks gvars main) s) :
    (∀ e ∈ s.sh.trace, EvAcyclic e) ∧ ∀ r, s.prog = .ret r → Acyclic r := by
  obtain ⟨kn, h1, -, h3⟩ := wp_reach h (kn := fun _ => some none) (wp_runTask hr hsep c _ {} true main _ (fun x _ => Or.inl rfl))
    (fun n x hx => by cases hx; rfl) (fun e he => by cases he)
  refine ⟨h3, fun r hp => ?_⟩
  rw [hp] at h1
  exact h1.1

/-- a reference chain of any length, including none -/
theorem leads_reaches {P : Str → Prop} {a b : Str} (h : Leads tasks P a b) : a = b ∨ Reaches tasks a b := by
  have hsnoc : ∀ {a b d}, Reaches tasks a b → Refers tasks b d → Reaches tasks a d := by
    intro a b d h1 h2
    induction h1 with
    | one h => exact .more h (.one h2)
    | more h _ ih => exact .more h (ih h2)
  have hone : ∀ {b d}, (a = b ∨ Reaches tasks a b) → Refers tasks b d → Reaches tasks a d := by
    rintro b d (rfl | h1) h2
    · exact .one h2
    · exact hsnoc h1 h2
  induction h with
  | self => exact Or.inl rfl
  | step _ _ hu ih =>
    right
    rcases hu with hu | ⟨T, items, labels, mode, lim, color, s, o, pl, w, ln, k1, k2, t, U, k3, k4, k5⟩
    · exact hone ih hu
    · exact hsnoc (hone ih ⟨T, k1, Or.inr (callsIn_of_block k2 (callsIn_of_mem k3))⟩) ⟨U, k4, Or.inl k5⟩

/-- **C19** In particular: the tasks which the items of a block reach are different ones. -/
theorem C19_disjoint_partial {rank : Str → Nat} (hr : ∀ a b, Refers tasks a b → rank b < rank a)
    (hdis : ∀ n T items labels mode lim color s o pl w ln, tasks.get? n = some T → .parallel items labels mode lim color s o pl w ln ∈ T.run →
      ∀ (i j : Nat) t u, i ≠ j → items[i]? = some (.task t) → items[j]? = some (.task u) →
        ¬ ∃ x, (t.task = x ∨ Reaches tasks t.task x) ∧ (u.task = x ∨ Reaches tasks u.task x))
    (h : Reach (start c tasks gvars main) s) :
    (∀ e ∈ s.sh.trace, EvAcyclic e) ∧ ∀ r, s.prog = .ret r → Acyclic r :=
  C19_separate_partial hr (fun n T items labels mode lim color s o pl w ln h1 h2 i j t u hij hi hj x hx hx' =>
    (hdis n T items labels mode lim color s o pl w ln h1 h2 i j t u hij hi hj ⟨x, leads_reaches hx, leads_reaches hx'⟩).elim) h

/-- **C18** If validation accepts a Babfile without parallel blocks, no invocation of any of its tasks, nor any part of
it, fails with a circular-dependency error; whatever the commands, prompts and signals do. -/
theorem C18_no_cycle_error {grow : Nat → Nat} {o1 o2 o3 o4 : TaskMap} (hwf : tasks.WF) (h1 : o1.Perm tasks) (h2 : o2.Perm tasks)
    (h3 : o3.Perm tasks) (hv : validateAll grow o1 o2 o3 o4 tasks = [])
    (hno : ∀ n T items labels mode lim color s o pl w ln, tasks.get? n = some T → .parallel items labels mode lim color s o pl w ln ∉ T.run)
    (h : Reach (start c tasks gvars main) s) :
    (∀ e ∈ s.sh.trace, EvAcyclic e) ∧ ∀ r, s.prog = .ret r → Acyclic r := by
  obtain ⟨rank, hr⟩ := C37_accepted_ranked hwf h1 h2 h3 hv
  exact C19_separate_partial hr (fun n T items labels mode lim color s o pl w ln k1 k2 => absurd k2 (hno n T items labels mode lim color s o pl w ln k1)) h

/-- **C18/C19** With parallel blocks the same holds for accepted Babfiles whose items keep out of each other's way. -/
theorem C19_accepted_partial {grow : Nat → Nat} {o1 o2 o3 o4 : TaskMap} (hwf : tasks.WF) (h1 : o1.Perm tasks) (h2 : o2.Perm tasks)
    (h3 : o3.Perm tasks) (hv : validateAll grow o1 o2 o3 o4 tasks = []) (hsep : Separate tasks)
    (h : Reach (start c tasks gvars main) s) :
    (∀ e ∈ s.sh.trace, EvAcyclic e) ∧ ∀ r, s.prog = .ret r → Acyclic r := by
  obtain ⟨rank, hr⟩ := C37_accepted_ranked hwf h1 h2 h3 hv
  exact C19_separate_partial hr hsep h

end

namespace Sample

/-- a diamond without parallel blocks: `all` calls `x` and `lib`, and `x` depends on `lib` -/
def noBlocks : TaskMap :=
  [ (s "all", { name := s "all", run := [call "x", call "lib", cmd "cc"] }),
    (s "x", { name := s "x", deps := [s "lib"], run := [cmd "cc x"] }),
    (s "lib", { name := s "lib", run := [cmd "ar"] }) ]

example : (∀ e ∈ (Exec.drive [.auto 200] (start {} noBlocks [] (s "all"))).sh.trace, EvAcyclic e) :=
  (C18_no_cycle_error (grow := id) (o1 := noBlocks) (o2 := noBlocks) (o3 := noBlocks) (o4 := noBlocks)
    (by unfold GoMap.WF; decide +kernel) (.refl _) (.refl _) (.refl _) (by decide +kernel)
    (by
      intro n T items labels mode lim color bs bo pl w ln hT hi
      have hno : ∀ q ∈ noBlocks, ∀ i ∈ q.2.run, (match i with | .parallel .. => false | _ => true) = true := by decide +kernel
      exact Bool.noConfusion (hno (n, T) (GoMap.mem_of_get? hT) _ hi))
    (Exec.reach _ _)).1

/-- the items of the block of `build` share `lib`, which is a dependency of one and called by another -/
theorem build_separate : Separate build := by
  have hlib : ∀ d, ¬ MayRun build (s "lib") d := by
    rintro d (⟨T, hT, h⟩ | ⟨T, items, labels, mode, lim, color, bs, bo, pl, w, ln, hT, hi, _⟩)
    · cases hT
      rcases h with h | h
      · cases h
      · cases h with | later h => cases h
    · cases hT
      simp [cmd] at hi
  have hx : ∀ d, MayRun build (s "x") d → d = s "lib" := by
    rintro d (⟨T, hT, h⟩ | ⟨T, items, labels, mode, lim, color, bs, bo, pl, w, ln, hT, hi, _⟩)
    · cases hT
      rcases h with h | h
      · simpa using h
      · cases h with | later h => cases h
    · cases hT
      simp [cmd] at hi
  intro n T items labels mode lim color bs bo pl w ln hT hi i j t u hij h1 h2 x hx1 hx2
  have hn : n = s "all" := by
    have hno : ∀ q ∈ build, q.1 ≠ s "all" → ∀ i ∈ q.2.run, (match i with | .parallel .. => false | _ => true) = true := by
      decide +kernel
    by_cases h : n = s "all"
    · exact h
    · exact Bool.noConfusion (hno (n, T) (GoMap.mem_of_get? hT) h _ hi)
  subst hn
  cases hT
  have hitems : items = [call "x", cmd "y", call "lib"] := by
    simp only [cmd, call, par, List.mem_cons, reduceCtorEq, RunItem.parallel.injEq, List.not_mem_nil, or_false, false_or] at hi
    exact hi.1
  subst hitems
  have hprior : Prior build [call "x", cmd "y", call "lib"] (s "lib") :=
    ⟨{ task := s "x" }, _, List.mem_cons_self, rfl, List.mem_cons_self⟩
  have hL : ∀ y, Leads build (Prior build [call "x", cmd "y", call "lib"]) (s "lib") y → y = s "lib" := by
    intro y h
    induction h with
    | self => rfl
    | step _ _ hu ih => subst ih; exact (hlib _ hu).elim
  have hX : ∀ y, Leads build (Prior build [call "x", cmd "y", call "lib"]) (s "x") y → y = s "x" ∨ y = s "lib" := by
    intro y h
    induction h with
    | self => exact Or.inl rfl
    | step _ _ hu ih =>
      rcases ih with rfl | rfl
      · exact Or.inr (hx _ hu)
      · exact (hlib _ hu).elim
  have hcase : ∀ (k : Nat) v, [call "x", cmd "y", call "lib"][k]? = some (.task v) → (k = 0 ∧ v.task = s "x") ∨ (k = 2 ∧ v.task = s "lib") := by
    intro k v hk
    match k with
    | 0 => cases hk; exact Or.inl ⟨rfl, rfl⟩
    | 1 => cases hk
    | 2 => cases hk; exact Or.inr ⟨rfl, rfl⟩
    | _ + 3 => simp at hk
  rcases hcase i t h1 with ⟨rfl, e1⟩ | ⟨rfl, e1⟩ <;> rcases hcase j u h2 with ⟨rfl, e2⟩ | ⟨rfl, e2⟩
  · exact absurd rfl hij
  · rw [e2] at hx2; rw [hL _ hx2]; exact hprior
  · rw [e1] at hx1; rw [hL _ hx1]; exact hprior
  · exact absurd rfl hij

/-- the sample with a block, whose items share a task, meets the hypotheses -/
example : ∀ e ∈ good.sh.trace, EvAcyclic e :=
  (C19_accepted_partial (grow := doubling) (o1 := build) (o2 := build) (o3 := build.reverse) (o4 := build)
    (by unfold GoMap.WF; decide +kernel) (.refl _) (.refl _) (List.reverse_perm _) (by decide +kernel) build_separate good_reach).1

end Sample

/-- the shared task of the sample that fails is no direct dependency: it does not meet the hypothesis -/
example : ¬ Separate Sample.shared := by
  intro h
  have h1 : MayRun Sample.shared (Sample.s "a") (Sample.s "lib") := Or.inl ⟨_, rfl, Or.inr (.here rfl)⟩
  have h2 : MayRun Sample.shared (Sample.s "b") (Sample.s "lib") := Or.inl ⟨_, rfl, Or.inr (.here rfl)⟩
  have hno : ∀ d, ¬ Prior Sample.shared [Sample.call "a", Sample.call "b"] d := by
    rintro d ⟨t, T, -, hT, hd⟩
    have : ∀ q ∈ Sample.shared, q.2.deps = [] := by decide +kernel
    rw [this _ (GoMap.mem_of_get? hT)] at hd
    cases hd
  exact hno _ (h (Sample.s "t") _ [Sample.call "a", Sample.call "b"] [] .interleaved 0 none none none [] [] 0 rfl List.mem_cons_self
    0 1 { task := Sample.s "a" } { task := Sample.s "b" } (by decide) rfl rfl (Sample.s "lib")
    (.step .self (hno _) h1) (.step .self (hno _) h2))

end Bab
