import Verif.Spec.Deps
import Verif.Props.Flat
/-
C115: how the dependencies are listed does not matter.
-/

namespace Bab
open Spec

namespace Deps
section
variable {c : Cfg} {tasks tasks' : TaskMap} {g : GoMap Str} {main : Str}

theorem due_brings {ds : List Str} {d : Str} (h : Brings c tasks g ds d) (hd : ∀ e ∈ ds, Spec.Due c tasks g main (.task e)) :
    Spec.Due c tasks g main (.task d) := by
  induction h with
  | here h => exact hd _ h
  | through he hV hc _ ih => exact ih fun e he' => .dep (hd _ he) hV hc he'

theorem due_of (hcov : Covers c g tasks tasks') {th : Thing} (h : Spec.Due c tasks g main th) : Spec.Due c tasks' g main th := by
  induction h with
  | main => exact .main
  | dep _ h2 h3 h4 ih =>
    obtain ⟨ds, k1, k2⟩ := hcov _ _ h2
    exact due_brings (k2 _ h4) fun e he => .dep ih k1 h3 he
  | item _ h2 h3 h4 h5 h6 h7 ih =>
    obtain ⟨ds, k1, -⟩ := hcov _ _ h2
    exact .item ih k1 h3 h4 h5 h6 h7
  | sub _ h2 ih => exact .sub ih h2
  | call _ ih => exact .call ih
  | ahead _ h2 h3 ih =>
    obtain ⟨ds, k1, k2⟩ := hcov _ _ h2
    exact due_brings (k2 _ h3) fun e he => .ahead ih k1 he

variable (hs : SameDeps c g tasks tasks')
include hs

theorem due_iff {th : Thing} : Spec.Due c tasks' g main th ↔ Spec.Due c tasks g main th := ⟨due_of hs.2, due_of hs.1⟩

theorem entry_iff {e : PlanEntry} : DueEntry c tasks' g main e ↔ DueEntry c tasks g main e := by
  constructor
  · intro h
    cases h with
    | cmd h1 h2 => exact .cmd ((due_iff hs).mp h1) h2
    | log h1 h2 => exact .log ((due_iff hs).mp h1) h2
  · intro h
    cases h with
    | cmd h1 h2 => exact .cmd ((due_iff hs).mpr h1) h2
    | log h1 h2 => exact .log ((due_iff hs).mpr h1) h2

theorem unasked (hask : Unasked c tasks g main) : Unasked c tasks' g main := by
  intro k U p hd hU hp
  obtain ⟨ds, k1, -⟩ := hs.2 _ _ hU
  exact hask k _ p ((due_iff hs).mp hd) k1 hp

omit hs in
theorem works_of (hcov : Covers c g tasks tasks') {y : Thing} (h : Works c tasks g y) : Works c tasks' g y := by
  cases y with
  | task k =>
    obtain ⟨U, hU, hw⟩ := h
    obtain ⟨ds, k1, -⟩ := hcov _ _ hU
    exact ⟨_, k1, hw.cond, hw.body⟩
  | item l it m =>
    cases it with
    | command v =>
      obtain ⟨U, tenv, text, h1, h2, h3⟩ := h
      obtain ⟨ds, k1, -⟩ := hcov _ _ h1
      exact ⟨_, tenv, text, k1, h2, (Split.alike_ready (U' := { U with deps := ds }) ⟨rfl, rfl, rfl, rfl⟩).mpr h3⟩
    | _ => exact h

theorem works_iff : (∀ y, Spec.Due c tasks' g main y → Works c tasks' g y) ↔ ∀ y, Spec.Due c tasks g main y → Works c tasks g y :=
  ⟨fun h y hy => works_of hs.2 (h y ((due_iff hs).mpr hy)), fun h y hy => works_of hs.1 (h y ((due_iff hs).mp hy))⟩

omit hs in
theorem reaches_brings {ds : List Str} {d a : Str} (h : Brings c tasks g ds d) (hd : ∀ e ∈ ds, Refers tasks a e) : Reaches tasks a d := by
  induction h generalizing a with
  | here h => exact .one (hd _ h)
  | through he hV _ _ ih => exact .more (hd _ he) (ih fun e' he' => ⟨_, hV, .inl he'⟩)

omit hs in
theorem reaches_of (hcov : Covers c g tasks tasks') {a b : Str} (h : Refers tasks a b) : Reaches tasks' a b := by
  obtain ⟨U, hU, h⟩ := h
  obtain ⟨ds, k1, k2⟩ := hcov _ _ hU
  rcases h with h | h
  · exact reaches_brings (k2 _ h) fun e he => ⟨_, k1, .inl he⟩
  · exact .one ⟨_, k1, .inr h⟩

omit hs in
theorem reaches_trans {a b d : Str} (h : Reaches tasks a b) (h' : Reaches tasks b d) : Reaches tasks a d := by
  induction h with
  | one h => exact .more h h'
  | more h _ ih => exact .more h (ih h')

omit hs in
theorem reaches_all (hcov : Covers c g tasks tasks') {a b : Str} (h : Reaches tasks a b) : Reaches tasks' a b := by
  induction h with
  | one h => exact reaches_of hcov h
  | more h _ ih => exact reaches_trans (reaches_of hcov h) ih

omit hs in
theorem rank_reaches {rank : Str → Nat} (hrk : ∀ a b, Refers tasks a b → rank b < rank a) {a b : Str} (h : Reaches tasks a b) : rank b < rank a := by
  induction h with
  | one h => exact hrk _ _ h
  | more h _ ih => exact ih.trans (hrk _ _ h)

omit hs in
theorem last {a b : Str} (h : Reaches tasks a b) : ∃ a', Refers tasks a' b := by
  induction h with
  | one h => exact ⟨_, h⟩
  | more _ _ ih => exact ih

omit hs in
theorem unamb_of (hcov' : Covers c g tasks' tasks) (hu : Unambiguous tasks) : Unambiguous tasks' := by
  refine ⟨fun k U a hU ha => ?_, fun k k' U U' a hU hU' ha ha' => ?_, fun k U hU => ?_⟩
  · obtain ⟨ds, k1, -⟩ := hcov' _ _ hU
    have := hu.notName k _ a k1 ha
    by_contra h
    obtain ⟨V, hV⟩ := Option.ne_none_iff_exists'.mp h
    obtain ⟨ds', k2, -⟩ := hcov' _ _ hV
    rw [k2] at this; cases this
  · obtain ⟨ds, k1, -⟩ := hcov' _ _ hU
    obtain ⟨ds', k2, -⟩ := hcov' _ _ hU'
    exact hu.oneTask k k' _ _ a k1 k2 ha ha'
  · obtain ⟨ds, k1, -⟩ := hcov' _ _ hU
    exact show (declared { U with deps := ds }).Nodup from hu.once k _ k1

end
end Deps

section
variable {c : Cfg} {tasks tasks' : TaskMap} {gvars : GoMap Str} {main : Str} {s s' : State} (hs : SameDeps c gvars tasks tasks')
include hs

/-- **C115** Lists of dependencies that bring about the same do the same: two runs that end with success and are not interrupted, one with
each, start the same commands and print the same messages, each once. -/
theorem C115_same (hd : c.dry = false) (hask : Unasked c tasks gvars main) (hr : Reach (start c tasks gvars main) s) (hp : s.prog = .ret none)
    (hc : ∀ id, .cancel id ∉ s.sh.trace) (hr' : Reach (start c tasks' gvars main) s') (hp' : s'.prog = .ret none)
    (hc' : ∀ id, .cancel id ∉ s'.sh.trace) : (Spec.entries s'.sh.trace).Perm (Spec.entries s.sh.trace) := by
  have hask' := Deps.unasked hs hask
  refine (List.perm_ext_iff_of_nodup (Due.entries_nodup fun loc => acts_once hr' loc) (Due.entries_nodup fun loc => acts_once hr loc)).mpr fun e => ?_
  constructor
  · intro he
    exact C78_all hd hask hr hp hc ((Deps.entry_iff hs).mp (C78_only hd hask' hr' he))
  · intro he
    exact C78_all hd hask' hr' hp' hc' ((Deps.entry_iff hs).mpr (C78_only hd hask hr he))

/-- **C115** And the process that is started for a command is the same: the shell, the text, the directory, and the environment apart from
the names that control colours. -/
theorem C115_process (hd : c.dry = false) (hask : Unasked c tasks gvars main) (hr : Reach (start c tasks gvars main) s)
    (hr' : Reach (start c tasks' gvars main) s') {loc : Loc} {spec spec' : ProcSpec} (h : .procStart loc spec ∈ s.sh.trace)
    (h' : .procStart loc spec' ∈ s'.sh.trace) :
    spec.shell = spec'.shell ∧ spec.arg = spec'.arg ∧ spec.cmd = spec'.cmd ∧ spec.dir = spec'.dir ∧
    ∀ k, k ∉ colourNames → procEnv c spec k = procEnv c spec' k := by
  obtain ⟨T1, v, m, tenv, text, env, dir, fr, hT1, hdue, he, hpr, rfl⟩ := Due.events hd hask hr _ h
  obtain ⟨T2, v', m', tenv', text', env', dir', fr', hT2, hdue', he', hpr', rfl⟩ := Due.events hd (Deps.unasked hs hask) hr' _ h'
  obtain ⟨h1, rfl⟩ := Due.item_unique hdue ((Deps.due_iff hs).mp hdue')
  cases h1
  obtain ⟨ds, k1, -⟩ := hs.1 _ _ hT1
  rw [k1] at hT2; cases hT2
  have ha : Split.Alike T1 { T1 with deps := ds } := ⟨rfl, rfl, rfl, rfl⟩
  rw [ha.2.1, he] at he'; cases he'
  rw [Split.alike_prepare ha, hpr] at hpr'; cases hpr'
  refine ⟨rfl, rfl, rfl, rfl, fun k hk => ?_⟩
  have we : env.WF := interpolateEnv_WF (prepare_inv hpr).2.1 (WF_mergeEnvMaps _)
  rw [procEnv_eq we, procEnv_eq we, colourEnv_other hk, colourEnv_other hk]

/-- **C115** Nor do they differ in success: if references make no circle and items of parallel blocks keep out of each other's way, then a
run with the one lists in which nothing goes wrong outside succeeds exactly if such a run with the others does. -/
theorem C115_success (hd : c.dry = false) (hask : Unasked c tasks gvars main) {rank : Str → Nat} (hrk : ∀ a b, Refers tasks a b → rank b < rank a)
    (hsep : Separate tasks) (hsep' : Separate tasks') (hr : Reach (start c tasks gvars main) s)
    (hcalm : ∀ e ∈ s.sh.trace, Calm e) {r r' : Option Err} (hp : s.prog = .ret r) (hr' : Reach (start c tasks' gvars main) s')
    (hcalm' : ∀ e ∈ s'.sh.trace, Calm e) (hp' : s'.prog = .ret r') : r' = none ↔ r = none := by
  rw [C79_exact hd hask hrk hsep hr hcalm hp,
    C79_exact hd (Deps.unasked hs hask) (fun a b h => Deps.rank_reaches hrk (Deps.reaches_of hs.2 h)) hsep' hr' hcalm' hp', Deps.works_iff hs]

/-- **C115** Validation finds something with the one lists exactly if it does with the others, in whatever order it looks at the tasks. -/
theorem C115_accepted {grow grow' : Nat → Nat} {o1 o2 o3 o4 p1 p2 p3 p4 : TaskMap} (hwf : tasks.WF) (hwf' : tasks'.WF) (h1 : o1.Perm tasks)
    (h2 : o2.Perm tasks) (h3 : o3.Perm tasks) (h4 : o4.Perm tasks) (k1 : p1.Perm tasks') (k2 : p2.Perm tasks') (k3 : p3.Perm tasks')
    (k4 : p4.Perm tasks') : validateAll grow' p1 p2 p3 p4 tasks' = [] ↔ validateAll grow o1 o2 o3 o4 tasks = [] := by
  rw [validateAll_nil grow' hwf' k1 k2 k3 k4, validateAll_nil grow hwf h1 h2 h3 h4]
  have key : ∀ {tasks tasks' : TaskMap}, SameDeps c gvars tasks tasks' →
      ((∀ a b, Refers tasks a b → ∃ T, tasks.get? b = some T) → ∀ a b, Refers tasks' a b → ∃ T, tasks'.get? b = some T) := by
    intro tasks tasks' hs h a b hab
    obtain ⟨a', ha'⟩ := Deps.last (Deps.reaches_of hs.2 hab)
    obtain ⟨T, hT⟩ := h _ _ ha'
    obtain ⟨ds, k, -⟩ := hs.1 _ _ hT
    exact ⟨_, k⟩
  have reaches : ∀ a b, Reaches tasks' a b ↔ Reaches tasks a b := fun a b => ⟨Deps.reaches_all hs.2, Deps.reaches_all hs.1⟩
  have unamb : Unambiguous tasks' ↔ Unambiguous tasks := ⟨Deps.unamb_of hs.1, Deps.unamb_of hs.2⟩
  rw [unamb]
  simp only [reaches]
  refine and_congr ⟨key ⟨hs.2, hs.1⟩, key hs⟩ Iff.rfl

end

namespace Sample
open Exec

/-- three dependencies, one of which another one has too -/
def listed : TaskMap :=
  [(s "all", { name := s "all", deps := [s "lib", s "app", s "doc"], run := [cmd "tar"] }),
   (s "app", { name := s "app", deps := [s "lib"], run := [cmd "cc"] }),
   (s "doc", { name := s "doc", run := [cmd "tex"] }),
   (s "lib", { name := s "lib", run := [cmd "ar"] })]

/-- the same in another order, with a repetition, and without the one that `app` has -/
def relisted : TaskMap :=
  [(s "all", { name := s "all", deps := [s "doc", s "app", s "doc"], run := [cmd "tar"] }),
   (s "app", { name := s "app", deps := [s "lib"], run := [cmd "cc"] }),
   (s "doc", { name := s "doc", run := [cmd "tex"] }),
   (s "lib", { name := s "lib", run := [cmd "ar"] })]

theorem relisted_same : SameDeps {} [] listed relisted := by
  constructor
  · intro k U hU
    have := GoMap.mem_of_get? hU
    simp only [listed, List.mem_cons, Prod.mk.injEq, List.not_mem_nil, or_false] at this
    rcases this with ⟨rfl, rfl⟩ | ⟨rfl, rfl⟩ | ⟨rfl, rfl⟩ | ⟨rfl, rfl⟩
    · refine ⟨[s "doc", s "app", s "doc"], rfl, fun d hd => ?_⟩
      simp only [List.mem_cons, List.not_mem_nil, or_false] at hd
      rcases hd with rfl | rfl | rfl
      · exact .through (e := s "app") (V := { name := s "app", deps := [s "lib"], run := [cmd "cc"] }) (by simp) rfl rfl (.here (by simp))
      · exact .here (by simp)
      · exact .here (by simp)
    · exact ⟨[s "lib"], rfl, fun d hd => .here hd⟩
    · exact ⟨[], rfl, fun d hd => .here hd⟩
    · exact ⟨[], rfl, fun d hd => .here hd⟩
  · intro k U hU
    have := GoMap.mem_of_get? hU
    simp only [relisted, List.mem_cons, Prod.mk.injEq, List.not_mem_nil, or_false] at this
    rcases this with ⟨rfl, rfl⟩ | ⟨rfl, rfl⟩ | ⟨rfl, rfl⟩ | ⟨rfl, rfl⟩
    · refine ⟨[s "lib", s "app", s "doc"], rfl, fun d hd => .here ?_⟩
      simp only [List.mem_cons, List.not_mem_nil, or_false] at hd
      rcases hd with rfl | rfl | rfl <;> simp
    · exact ⟨[s "lib"], rfl, fun d hd => .here hd⟩
    · exact ⟨[], rfl, fun d hd => .here hd⟩
    · exact ⟨[], rfl, fun d hd => .here hd⟩

/-- a run with the one lists and a run with the others -/
def listedRun : State := drive [.auto 400] (start {} listed [] (s "all"))
def relistedRun : State := drive [.auto 400] (start {} relisted [] (s "all"))

theorem listed_unasked : Unasked {} listed [] (s "all") := by
  intro n T p _ hT hp
  have := GoMap.mem_of_get? hT
  simp only [listed, List.mem_cons, Prod.mk.injEq, List.not_mem_nil, or_false] at this
  rcases this with ⟨-, rfl⟩ | ⟨-, rfl⟩ | ⟨-, rfl⟩ | ⟨-, rfl⟩ <;> simp [cmd] at hp

/-- the conditions are met; the order differs -/
example : (Spec.entries relistedRun.sh.trace).Perm (Spec.entries listedRun.sh.trace) ∧
    Spec.entries relistedRun.sh.trace = [.cmd ⟨s "doc", 0, none⟩ (s "tex"), .cmd ⟨s "lib", 0, none⟩ (s "ar"), .cmd ⟨s "app", 0, none⟩ (s "cc"),
      .cmd ⟨s "all", 0, none⟩ (s "tar")] ∧
    Spec.entries listedRun.sh.trace = [.cmd ⟨s "lib", 0, none⟩ (s "ar"), .cmd ⟨s "app", 0, none⟩ (s "cc"), .cmd ⟨s "doc", 0, none⟩ (s "tex"),
      .cmd ⟨s "all", 0, none⟩ (s "tar")] :=
  ⟨C115_same relisted_same rfl listed_unasked (reach _ _) (ret_of_result (by decide +kernel)) (calm_of (by decide +kernel))
    (reach _ _) (ret_of_result (by decide +kernel)) (calm_of (by decide +kernel)), by decide +kernel, by decide +kernel⟩

theorem no_blocks {tasks : TaskMap} (h : ∀ q ∈ tasks, ∀ it ∈ q.2.run, (match it with | .parallel .. => false | _ => true) = true) : Separate tasks := by
  intro n T items la mo li co s' o pl w ln hT hb
  exact absurd (h _ (GoMap.mem_of_get? hT) _ hb) (by simp)

/-- the conditions of `C115_success` and `C115_accepted` are met -/
example : (Exec.result relistedRun = some none ↔ Exec.result listedRun = some none) ∧ Separate listed ∧ Separate relisted ∧
    validateAll (fun _ => 0) listed listed listed listed listed = [] ∧
    validateAll (fun _ => 0) relisted.reverse relisted relisted relisted relisted = [] := by
  have ha : validateAll (fun _ => 0) listed listed listed listed listed = [] := by decide +kernel
  exact ⟨by decide +kernel, no_blocks (by decide +kernel), no_blocks (by decide +kernel), ha,
    (C115_accepted relisted_same (by unfold GoMap.WF; decide +kernel) (by unfold GoMap.WF; decide +kernel) (.refl _) (.refl _) (.refl _) (.refl _) (List.reverse_perm _) (.refl _)
      (.refl _) (.refl _)).mpr ha⟩

/-- `app` is skipped -/
def skips (deps : List Str) : TaskMap :=
  [(s "all", { name := s "all", deps := deps, run := [cmd "tar"] }),
   (s "app", { name := s "app", deps := [s "lib"], cond := s "false", run := [cmd "cc"] }),
   (s "lib", { name := s "lib", run := [cmd "ar"] })]

end Sample

open Sample in
/-- **C115** Limits of the property: what a task that is skipped depends on is not run, so it cannot be left out of the list. Both runs end
with success. -/
theorem C115_skipped :
    Exec.result (Exec.drive [.auto 200] (start {} (skips [s "lib", s "app"]) [] (s "all"))) = some none ∧
    Exec.result (Exec.drive [.auto 200] (start {} (skips [s "app"]) [] (s "all"))) = some none ∧
    Spec.entries (Exec.drive [.auto 200] (start {} (skips [s "lib", s "app"]) [] (s "all"))).sh.trace =
      [.cmd ⟨s "lib", 0, none⟩ (s "ar"), .cmd ⟨s "all", 0, none⟩ (s "tar")] ∧
    Spec.entries (Exec.drive [.auto 200] (start {} (skips [s "app"]) [] (s "all"))).sh.trace = [.cmd ⟨s "all", 0, none⟩ (s "tar")] := by
  decide +kernel

end Bab
