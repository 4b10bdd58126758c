import Verif.Proof.Cli
import Verif.Props.Confine
import Verif.Props.Finder
import Verif.Props.Listing
import Verif.Props.Picker
import Verif.Props.Main
import Verif.Props.Outcome
/-
C64 and C65: what an invocation does, from the command line to the start of a run.
-/

namespace Bab
open Spec Cli

/-! ### The tasks of a loaded file and the tasks in the files -/

section
variable {files : Files} {p : Str} {t : TaskMap}

theorem fileHas_iff (hto : TasksOf files p t) (a : Str) : FileHas files p a ↔ ∃ T, t.get? a = some T := by
  constructor
  · rintro ⟨nss, bs, n, f, T, h1, rfl⟩
    obtain ⟨T', h2, -⟩ := hto.complete _ _ _ _ _ h1
    exact ⟨T', h2⟩
  · rintro ⟨T, hT⟩
    obtain ⟨nss, bs, n, f, U, h1, h2, -⟩ := hto.sound _ _ hT
    exact ⟨nss, bs, n, f, U, h1, h2⟩

theorem callsIn_included {nss : List Str} {bs : List Schema} {n f : Str} {T T' : Task} (h : AsIncluded nss bs n f T T') (b : Str) :
    CallsIn b T'.run ↔ ∃ x, b = fullName nss x ∧ CallsIn x T.run := by
  rw [h.run, callsIn_renames]
  refine exists_congr fun x => and_congr_right fun _ => ?_
  split
  · exact Iff.rfl
  · exact callsIn_bares x _

theorem fileRefers_iff (hto : TasksOf files p t) (a b : Str) : FileRefers files p a b ↔ Refers t a b := by
  constructor
  · rintro ⟨nss, bs, n, f, T, x, h1, rfl, h2, rfl⟩
    obtain ⟨T', h3, h4⟩ := hto.complete _ _ _ _ _ h1
    refine ⟨T', h3, ?_⟩
    rcases h2 with h2 | h2
    · left; rw [h4.deps]; exact List.mem_map.mpr ⟨x, h2, rfl⟩
    · right; exact (callsIn_included h4 _).mpr ⟨x, rfl, h2⟩
  · rintro ⟨T', hT', h⟩
    obtain ⟨nss, bs, n, f, T, h1, rfl, h4⟩ := hto.sound _ _ hT'
    rcases h with h | h
    · rw [h4.deps] at h
      obtain ⟨x, h2, rfl⟩ := List.mem_map.mp h
      exact ⟨nss, bs, n, f, T, x, h1, rfl, Or.inl h2, rfl⟩
    · obtain ⟨x, rfl, h2⟩ := (callsIn_included h4 _).mp h
      exact ⟨nss, bs, n, f, T, x, h1, rfl, Or.inr h2, rfl⟩

theorem declared_included {nss : List Str} {bs : List Schema} {n f : Str} {T T' : Task} (h : AsIncluded nss bs n f T T') :
    declared T' = otherNames nss T := by
  unfold declared otherNames
  rw [h.alias_, h.aliases]

theorem fileAlias_iff (hto : TasksOf files p t) (x a : Str) : FileAlias files p x a ↔ ∃ T, t.get? a = some T ∧ x ∈ declared T := by
  constructor
  · rintro ⟨nss, bs, n, f, T, h1, rfl, h2⟩
    obtain ⟨T', h3, h4⟩ := hto.complete _ _ _ _ _ h1
    exact ⟨T', h3, by rw [declared_included h4]; exact h2⟩
  · rintro ⟨T', hT', h⟩
    obtain ⟨nss, bs, n, f, T, h1, rfl, h4⟩ := hto.sound _ _ hT'
    exact ⟨nss, bs, n, f, T, h1, rfl, by rw [← declared_included h4]; exact h⟩

theorem reaches_iff {t : TaskMap} {a b : Str} : Reaches t a b ↔ Relation.TransGen (Refers t) a b := by
  constructor
  · intro h
    induction h with
    | one h => exact .single h
    | more h _ ih => exact Relation.TransGen.trans (.single h) ih
  · intro h
    have key : ∀ a b c, Reaches t a b → Refers t b c → Reaches t a c := by
      intro a b c hab hbc
      induction hab with
      | one h => exact .more h (.one hbc)
      | more h _ ih => exact .more h (ih hbc)
    induction h with
    | single h => exact .one h
    | tail _ h ih => exact key _ _ _ ih h

theorem accepted_iff (hl : Loads files p) (hto : TasksOf files p t) :
    Accepted files p ↔ (∀ a b, Refers t a b → ∃ T, t.get? b = some T) ∧ (¬ ∃ n, Reaches t n n) ∧ Unambiguous t := by
  have hrel : FileRefers files p = Refers t := by
    funext a b; exact propext (fileRefers_iff hto a b)
  constructor
  · intro h
    refine ⟨fun a b hab => (fileHas_iff hto b).mp (h.refs a b ((fileRefers_iff hto a b).mpr hab)), ?_, ?_, ?_, ?_⟩
    · rintro ⟨n, hn⟩
      exact h.acyclic ⟨n, by rw [hrel]; exact reaches_iff.mp hn⟩
    · intro n T a hT ha
      cases hx : t.get? a with
      | none => rfl
      | some U => exact absurd ((fileHas_iff hto a).mpr ⟨U, hx⟩) (h.notName a n ((fileAlias_iff hto a n).mpr ⟨T, hT, ha⟩))
    · intro n m T U a hT hU ha ha'
      exact h.oneTask a n m ((fileAlias_iff hto a n).mpr ⟨T, hT, ha⟩) ((fileAlias_iff hto a m).mpr ⟨U, hU, ha'⟩)
    · intro n T hT
      obtain ⟨nss, bs, k, f, U, h1, rfl, h4⟩ := hto.sound _ _ hT
      rw [declared_included h4]
      exact h.once _ _ _ _ _ h1
  · rintro ⟨h1, h2, h3⟩
    refine ⟨hl, fun a b hab => (fileHas_iff hto b).mpr (h1 a b ((fileRefers_iff hto a b).mp hab)), ?_, ?_, ?_, ?_⟩
    · rintro ⟨a, ha⟩
      rw [hrel] at ha
      exact h2 ⟨a, reaches_iff.mpr ha⟩
    · intro x a hx hh
      obtain ⟨T, hT, hd⟩ := (fileAlias_iff hto x a).mp hx
      obtain ⟨U, hU⟩ := (fileHas_iff hto x).mp hh
      rw [h3.notName a T x hT hd] at hU; cases hU
    · intro x a b hx hy
      obtain ⟨T, hT, hd⟩ := (fileAlias_iff hto x a).mp hx
      obtain ⟨U, hU, hd'⟩ := (fileAlias_iff hto x b).mp hy
      exact h3.oneTask a b T U x hT hU hd hd'
    · intro nss bs n f T hP
      obtain ⟨T', h5, h6⟩ := hto.complete _ _ _ _ _ hP
      rw [← declared_included h6]
      exact h3.once _ T' h5

end

/-! ### Loading -/

theorem load_aliases {files : Files} {o : Orders} {p : Str} {r : ParseResult} (h : load files o p = .ok r) :
    r.aliases = buildAliasMap (o.aliases [] r.tasks) := by
  have h4 : parseFile files o (files.length + 1 + 1) [] [] p = .ok r := h
  rw [parseFile] at h4
  split at h4
  · cases h4
  · split at h4
    · cases h4
    · cases h4
    · dsimp only at h4
      split at h4
      · cases h4
      · cases h4; rfl

section
variable {files : Files} (hw : FilesWF files)

theorem parse_eq (v : Visit) (cwd path : Str) :
    parse files v.orders v.grow v.v1 v.v2 v.v3 v.v4 cwd path =
      if trimSpace path = [] then .error .pathEmpty
      else match load files v.orders (absolute cwd path) with
        | .error e => .error e
        | .ok r => match validateAt (absolute cwd path) v.grow (v.v1 r.tasks) (v.v2 r.tasks) (v.v3 r.tasks) (v.v4 r.tasks) r.tasks with
          | [] => .ok r
          | errs => .error (.validation errs) := rfl

include hw

/-- what `Parse` gives -/
theorem parse_ok {v : Visit} (hv : VisitOK v) {cwd path : Str} {r : ParseResult} :
    parse files v.orders v.grow v.v1 v.v2 v.v3 v.v4 cwd path = .ok r ↔
      trimSpace path ≠ [] ∧ load files v.orders (absolute cwd path) = .ok r ∧ Accepted files (absolute cwd path) := by
  rw [parse_eq]
  constructor
  · intro h
    split at h
    · cases h
    · rename_i hne
      cases hl : load files v.orders (absolute cwd path) with
      | error e => rw [hl] at h; cases h
      | ok r' =>
        rw [hl] at h
        dsimp only at h
        cases hx : validateAt (absolute cwd path) v.grow (v.v1 r'.tasks) (v.v2 r'.tasks) (v.v3 r'.tasks) (v.v4 r'.tasks) r'.tasks with
        | cons e es => rw [hx] at h; cases h
        | nil =>
          rw [hx] at h
          cases h
          obtain ⟨hlo, hto, -⟩ := parseFile_ok hw hv.orders _ hl
          exact ⟨hne, rfl, (accepted_iff hlo hto).mpr ((validateAll_nil v.grow hto.wf (hv.v1 _) (hv.v2 _) (hv.v3 _) (hv.v4 _)).mp (validateAt_nil.mp hx))⟩
  · rintro ⟨hne, hl, ha⟩
    obtain ⟨hlo, hto, -⟩ := parseFile_ok hw hv.orders _ hl
    rw [if_neg hne, hl]
    dsimp only
    rw [validateAt_nil.mpr ((validateAll_nil v.grow hto.wf (hv.v1 _) (hv.v2 _) (hv.v3 _) (hv.v4 _)).mpr ((accepted_iff hlo hto).mp ha))]

end

section
variable {w : World} (hw : FilesWF w.files)
include hw

theorem loadTasks_ok {v : Visit} (hv : VisitOK v) {bf : Str} {r : ParseResult} (h : loadTasks w v bf = .ok r) :
    ∃ p, Chosen w bf p ∧ Accepted w.files p ∧ load w.files v.orders p = .ok r := by
  unfold loadTasks at h
  dsimp only at h
  by_cases hb : bf = []
  · rw [if_neg (by simpa using hb)] at h
    cases hf : findBabfile w.ex w.cwd with
    | none => rw [hf] at h; cases h
    | some path =>
      rw [hf] at h
      dsimp only at h
      split at h
      · rename_i r' hr'
        cases h
        obtain ⟨h1, h2, h3⟩ := (parse_ok hw hv).mp hr'
        exact ⟨_, ⟨path, by rw [if_pos hb]; exact hf, h1, rfl⟩, h3, h2⟩
      · cases h
  · rw [if_pos hb] at h
    split at h
    · rename_i r' hr'
      cases h
      obtain ⟨h1, h2, h3⟩ := (parse_ok hw hv).mp hr'
      exact ⟨_, ⟨bf, by rw [if_neg hb], h1, rfl⟩, h3, h2⟩
    · cases h

omit hw in
theorem chosen_unique {bf p q : Str} (h : Chosen w bf p) (h' : Chosen w bf q) : p = q := by
  obtain ⟨a, h1, -, rfl⟩ := h
  obtain ⟨b, h2, -, rfl⟩ := h'
  split at h1
  · rename_i hb
    rw [if_pos hb, h1] at h2; cases h2; rfl
  · rename_i hb
    rw [if_neg hb] at h2; rw [h1, h2]

/-- **C64** Loading succeeds if and only if there is a file to read and it is accepted; which file that is and what is
accepted does not depend on orders. -/
theorem C64_load {v : Visit} (hv : VisitOK v) (bf : Str) :
    (∃ r, loadTasks w v bf = .ok r) ↔ ∃ p, Chosen w bf p ∧ Accepted w.files p := by
  constructor
  · rintro ⟨r, h⟩
    obtain ⟨p, h1, h2, -⟩ := loadTasks_ok hw hv h
    exact ⟨p, h1, h2⟩
  · rintro ⟨p, ⟨path, h1, h2, rfl⟩, ha⟩
    obtain ⟨r, hr⟩ := (C35_loads hw hv.orders).mpr ha.loads
    have hp := (parse_ok hw hv).mpr ⟨h2, hr, ha⟩
    refine ⟨r, ?_⟩
    unfold loadTasks
    dsimp only
    by_cases hb : bf = []
    · rw [if_pos hb] at h1
      rw [if_neg (by simpa using hb), h1]
      dsimp only
      rw [hp]
    · rw [if_neg hb] at h1
      subst h1
      rw [if_pos hb, hp]

end

/-! ### What an invocation does -/

section
variable {w w' : World} (hw : FilesWF w.files)

/-- **C64** `--completion`, `--validate` and `--list` never run anything, whatever else is given. -/
theorem C64_nothing_runs {v v' : Visit} {fl : Flags} {args : List Str} {pick : Pick}
    (hm : fl.completion ≠ [] ∨ fl.validate = true ∨ fl.listTasks = true) {c : Cfg} {tasks : TaskMap} {gvars : GoMap Str} {name : Str} :
    run w w' v v' fl args pick ≠ .run c tasks gvars name := by
  intro h
  unfold run at h
  split at h
  · unfold runCompletion at h
    repeat (first | (split at h) | cases h)
  · rename_i h1
    split at h
    · unfold runValidate at h; split at h <;> cases h
    · rename_i h2
      split at h
      · unfold runList at h
        split at h
        · cases h
        · split at h <;> cases h
      · rename_i h3
        rcases hm with hm | hm | hm
        · exact h1 hm
        · exact h2 hm
        · exact h3 hm

/-- the shells of the documentation -/
def Spec.shells : List Str := ["bash".toList, "zsh".toList, "fish".toList, "powershell".toList]

/-- **C64** `--completion` prints the script for the shell that is named, or fails if there is none; it does not need a
Babfile. -/
theorem C64_script {v v' : Visit} {fl : Flags} (hc : fl.completion ≠ []) (args : List Str) (pick : Pick) :
    run w w' v v' fl args pick = if fl.completion ∈ shells then .script fl.completion else .failed (.badShell fl.completion) := by
  unfold run
  rw [if_pos hc]
  unfold runCompletion Spec.shells
  simp only [List.mem_cons, List.not_mem_nil, or_false]
  generalize "bash".toList = a
  generalize "zsh".toList = b
  generalize "fish".toList = c
  generalize "powershell".toList = d
  by_cases ha : fl.completion = a
  · rw [if_pos ha, if_pos (Or.inl ha)]
  · by_cases hb : fl.completion = b
    · rw [if_neg ha, if_pos hb, if_pos (Or.inr (Or.inl hb))]
    · by_cases hc : fl.completion = c
      · rw [if_neg ha, if_neg hb, if_pos hc, if_pos (Or.inr (Or.inr (Or.inl hc)))]
      · by_cases hd : fl.completion = d
        · rw [if_neg ha, if_neg hb, if_neg hc, if_pos hd, if_pos (Or.inr (Or.inr (Or.inr hd)))]
        · rw [if_neg ha, if_neg hb, if_neg hc, if_neg hd, if_neg (by rintro (h | h | h | h) <;> contradiction)]

include hw

/-- **C64** `--validate` succeeds if and only if there is a Babfile and it is accepted. -/
theorem C64_validate {v v' : Visit} (hv : VisitOK v) {fl : Flags} (hc : fl.completion = []) (hval : fl.validate = true)
    (args : List Str) (pick : Pick) :
    (∃ n, run w w' v v' fl args pick = .valid n) ↔ ∃ p, Chosen w fl.babfile p ∧ Accepted w.files p := by
  rw [← C64_load hw hv]
  unfold run
  rw [if_neg (by simpa using hc), if_pos hval]
  unfold runValidate
  constructor
  · rintro ⟨n, h⟩
    split at h
    · cases h
    · exact ⟨_, by assumption⟩
  · rintro ⟨r, h⟩
    rw [h]
    exact ⟨_, rfl⟩

/-- **C64** `--list` shows every task of an accepted Babfile once, and no others (see C59 for the rows). -/
theorem C64_list {v v' : Visit} (hv : VisitOK v) {fl : Flags} (hc : fl.completion = []) (hval : fl.validate = false) (hl : fl.listTasks = true)
    (args : List Str) (pick : Pick) :
    (∃ e, run w w' v v' fl args pick = .failed e ∧ ¬ ∃ p, Chosen w fl.babfile p ∧ Accepted w.files p) ∨
    ∃ p, Chosen w fl.babfile p ∧ Accepted w.files p ∧
      ((run w w' v v' fl args pick = .emptyList ∧ ∀ a, ¬ FileHas w.files p a) ∨
       ∃ tasks : TaskMap, run w w' v v' fl args pick = .listed (Bab.listTasks tasks) ∧ tasks.WF ∧
        ∀ a T, tasks.get? a = some T ↔ Makes w.files p a T) := by
  unfold run
  rw [if_neg (by simpa using hc), if_neg (by simp [hval]), if_pos hl]
  unfold runList
  cases h : loadTasks w v fl.babfile with
  | error e =>
    left
    refine ⟨e, rfl, ?_⟩
    rw [← C64_load hw hv]
    rintro ⟨r, hr⟩
    rw [h] at hr; cases hr
  | ok r =>
    right
    obtain ⟨p, h1, h2, h3⟩ := loadTasks_ok hw hv h
    refine ⟨p, h1, h2, ?_⟩
    have hto := (parseFile_ok hw hv.orders _ h3).2.1
    dsimp only
    split
    · rename_i h0
      left
      refine ⟨rfl, fun a ha => ?_⟩
      obtain ⟨T, hT⟩ := (fileHas_iff hto a).mp ha
      rw [List.length_eq_zero_iff.mp h0] at hT
      cases hT
    · right
      exact ⟨_, rfl, hto.wf, fun a T => parseFile_makes hw hv.orders _ h3 a T⟩

/-- What is run for a name given on the command line, or chosen: the file is accepted; the tasks are those of the file; the
settings are those of the file, and dry run is what was asked for; and the name stands for the task with this name or this
other name. -/
structure RunsFor (w : World) (fl : Flags) (x : Str) (c : Cfg) (tasks : TaskMap) (gvars : GoMap Str) (name : Str) : Prop where
  file : ∃ p b, Chosen w fl.babfile p ∧ Accepted w.files p ∧ w.files.get? p = some (some b) ∧ tasks.WF ∧
    (∀ a T, tasks.get? a = some T ↔ Makes w.files p a T) ∧
    resolveVars b.vars [] w.base.env = .ok gvars ∧
    c = { w.base with dry := fl.dryRun, globalEnv := b.env, globalSilent := b.silent, globalOutput := b.output, globalDir := b.dir } ∧
    (FileHas w.files p x → name = x) ∧ (∀ a, FileAlias w.files p x a → name = a) ∧
    ((¬ FileHas w.files p x ∧ ∀ a, ¬ FileAlias w.files p x a) → name = x)

theorem runTask_run {v : Visit} (hv : VisitOK v) {fl : Flags} {x : Str} {c : Cfg} {tasks : TaskMap} {gvars : GoMap Str} {name : Str}
    (h : Cli.runTask w v fl x = .run c tasks gvars name) : RunsFor w fl x c tasks gvars name := by
  unfold Cli.runTask at h
  cases hl : loadTasks w v fl.babfile with
  | error e => rw [hl] at h; cases h
  | ok r =>
    rw [hl] at h
    dsimp only at h
    cases hg : placed 0 (resolveVars r.vars [] w.base.env) with
    | error e =>
      rw [hg] at h; cases h
    | ok g =>
      rw [hg] at h
      dsimp only at h
      cases h
      obtain ⟨p, h1, h2, h3⟩ := loadTasks_ok hw hv hl
      obtain ⟨hlo, hto, b, hb, hset⟩ := parseFile_ok hw hv.orders _ h3
      have hu := ((accepted_iff hlo hto).mp h2).2.2
      have hal : r.aliases = buildAliasMap (v.orders.aliases [] r.tasks) := load_aliases h3
      have hres := C39_resolve hto.wf (List.Perm.refl r.tasks) ((C39_unambiguous hto.wf (List.Perm.refl _)).mpr hu)
        ((hv.orders []).2.2 r.tasks) x
      rw [← hal] at hres
      refine ⟨p, b, h1, h2, hb, hto.wf, fun a T => parseFile_makes hw hv.orders _ h3 a T, ?_, ?_, ?_, ?_, ?_⟩
      · rw [← hset.vars]; exact of_placed_ok hg
      · rw [hset.env, hset.silent, hset.output, hset.dir]
      · intro hx; exact hres.1 ((fileHas_iff hto x).mp hx)
      · intro a hx
        obtain ⟨T, hT, hd⟩ := (fileAlias_iff hto x a).mp hx
        exact hres.2.1 a T hT hd
      · rintro ⟨-, hx⟩
        exact hres.2.2 fun n T hT hd => hx n ((fileAlias_iff hto x n).mpr ⟨T, hT, hd⟩)

/-- **C64** `bab x`: either nothing is run, and then there is a reason: no accepted Babfile, or global variables that cannot
be resolved; or what is run is right for `x`. Further arguments do not matter. -/
theorem C64_task {v v' : Visit} (hv : VisitOK v) {fl : Flags} (hc : fl.completion = []) (hval : fl.validate = false)
    (hl : fl.listTasks = false) (x : Str) (more : List Str) (pick : Pick) :
    (∃ e, run w w' v v' fl (x :: more) pick = .failed e ∧
      ((¬ ∃ p, Chosen w fl.babfile p ∧ Accepted w.files p) ∨
       ∃ p b e', Chosen w fl.babfile p ∧ w.files.get? p = some (some b) ∧ resolveVars b.vars [] w.base.env = .error e' ∧ e = .globals (e'.placed 0))) ∨
    ∃ c tasks gvars name, run w w' v v' fl (x :: more) pick = .run c tasks gvars name ∧ RunsFor w fl x c tasks gvars name := by
  have hrun : run w w' v v' fl (x :: more) pick = Cli.runTask w v fl x := by
    unfold run
    rw [if_neg (by simpa using hc), if_neg (by simp [hval]), if_neg (by simp [hl])]
  rw [hrun]
  cases ho : Cli.runTask w v fl x with
  | run c tasks gvars name => exact Or.inr ⟨_, _, _, _, rfl, runTask_run hw hv ho⟩
  | failed e =>
    left
    refine ⟨e, rfl, ?_⟩
    unfold Cli.runTask at ho
    cases hl : loadTasks w v fl.babfile with
    | error e =>
      left
      rw [← C64_load hw hv]
      rintro ⟨r, hr⟩
      rw [hl] at hr; cases hr
    | ok r =>
      right
      rw [hl] at ho
      dsimp only at ho
      cases hg : placed 0 (resolveVars r.vars [] w.base.env) with
      | ok g =>
        rw [hg] at ho; cases ho
      | error e' =>
        rw [hg] at ho
        cases ho
        obtain ⟨e1, hg1, rfl⟩ := of_placed_error hg
        obtain ⟨p, h1, h2, h3⟩ := loadTasks_ok hw hv hl
        obtain ⟨hlo, hto, b, hb, hset⟩ := parseFile_ok hw hv.orders _ h3
        exact ⟨p, b, e1, h1, hb, by rw [← hset.vars]; exact hg1, rfl⟩
  | script _ | valid _ | listed _ | emptyList | nothing =>
    exfalso
    unfold Cli.runTask at ho
    split at ho
    · cases ho
    · split at ho <;> cases ho

omit hw in
theorem makes_name {files : Files} {p a : Str} {T : Task} (h : Makes files p a T) : T.name = a := by
  cases h <;> rfl

/-- **C64** Choosing a task in the picker runs this task, as it was shown, if the Babfile has not changed since (it is read
again). -/
theorem C64_picked {v v' : Visit} (hv : VisitOK v) (hv' : VisitOK v') {fl : Flags} {msgs : List Picker.Msg}
    {c : Cfg} {tasks : TaskMap} {gvars : GoMap Str} {name : Str}
    (h : run w w v v' fl [] (.msgs msgs) = .run c tasks gvars name) :
    ∃ p shown t, Chosen w fl.babfile p ∧ (∀ a T, shown.get? a = some T ↔ Makes w.files p a T) ∧
      (Picker.run w.find shown msgs).selected = some t ∧ name = t.name ∧ tasks.get? name = some t ∧
      RunsFor w fl t.name c tasks gvars name := by
  have hno : ¬ (fl.completion ≠ [] ∨ fl.validate = true ∨ fl.listTasks = true) := fun hm => C64_nothing_runs hm h
  rw [not_or, not_or, not_not] at hno
  unfold run at h
  rw [if_neg (by simpa using hno.1), if_neg hno.2.1, if_neg hno.2.2] at h
  unfold runInteractive at h
  cases hl : loadTasks w v fl.babfile with
  | error e => rw [hl] at h; cases h
  | ok r =>
    rw [hl] at h
    dsimp only at h
    cases hp : pickTask w r.tasks (.msgs msgs) with
    | error e => rw [hp] at h; cases h
    | ok sel =>
      rw [hp] at h
      cases sel with
      | none => cases h
      | some t =>
        dsimp only at h
        obtain ⟨p, h1, h2, h3⟩ := loadTasks_ok hw hv hl
        obtain ⟨hlo, hto, -⟩ := parseFile_ok hw hv.orders _ h3
        have hmk := parseFile_makes hw hv.orders _ h3
        have hsel : (Picker.run w.find r.tasks msgs).selected = some t := by
          unfold pickTask at hp
          split at hp
          · cases hp
          · exact Except.ok.inj hp
        obtain ⟨k, hk⟩ := Picker.C55_selected_exists w.find r.tasks msgs hsel
        have hk' := (hmk k t).mp (GoMap.get?_of_mem hto.wf hk)
        have hn : t.name = k := makes_name hk'
        have hR := runTask_run hw hv' h
        obtain ⟨q, b, g1, g2, g3, g4, g5, g6, g7, g8, g9, g10⟩ := hR.file
        obtain rfl := chosen_unique h1 g1
        have hname : name = t.name := g8 (by rw [hn]; exact (fileHas_iff hto k).mpr ⟨t, GoMap.get?_of_mem hto.wf hk⟩)
        refine ⟨p, r.tasks, t, h1, hmk, hsel, hname, ?_, hR⟩
        rw [hname, hn]
        exact (g5 k t).mpr hk'

/-- **C64** A task can be called by any of its names: with another name exactly the same happens. -/
theorem C64_alias {v v' : Visit} (hv : VisitOK v) {fl : Flags} {p x a : Str} (hp : Chosen w fl.babfile p) (hx : FileAlias w.files p x a)
    (more : List Str) (pick : Pick) : run w w' v v' fl (x :: more) pick = run w w' v v' fl (a :: more) pick := by
  have key : Cli.runTask w v fl x = Cli.runTask w v fl a := by
    cases h : Cli.runTask w v fl x with
    | run c tasks gvars name =>
      obtain ⟨q, b, g1, g2, g3, g4, g5, g6, g7, g8, g9, g10⟩ := (runTask_run hw hv h).file
      obtain rfl := chosen_unique hp g1
      have hxa := g9 a hx
      have hrest : Cli.runTask w v fl a = .run c tasks gvars a := by
        unfold Cli.runTask at h ⊢
        cases hl : loadTasks w v fl.babfile with
        | error e => rw [hl] at h; cases h
        | ok r =>
          rw [hl] at h
          dsimp only at h ⊢
          cases hg : placed 0 (resolveVars r.vars [] w.base.env) with
          | error e =>
            rw [hg] at h; cases h
          | ok g =>
            rw [hg] at h
            dsimp only at h ⊢
            have hR := runTask_run hw hv (x := a) (fl := fl) (v := v)
              (c := { w.base with dry := fl.dryRun, globalEnv := r.env, globalSilent := r.silent, globalOutput := r.output, globalDir := r.dir })
              (tasks := r.tasks) (gvars := g) (name := resolveTaskName r.aliases a) (by unfold Cli.runTask; rw [hl]; dsimp only; rw [hg])
            obtain ⟨q, b', k1, k2, k3, k4, k5, k6, k7, k8, k9, k10⟩ := hR.file
            obtain rfl := chosen_unique hp k1
            obtain ⟨nss, bs, n, f, T, hP, rfl, -⟩ := hx
            rw [k8 ⟨nss, bs, n, f, T, hP, rfl⟩]
            cases h
            rfl
      rw [hrest, hxa]
    | failed e =>
      unfold Cli.runTask at h ⊢
      split at h
      · exact h.symm
      · split at h
        · exact h.symm
        · cases h
    | script _ | valid _ | listed _ | emptyList | nothing =>
      exfalso
      unfold Cli.runTask at h
      split at h
      · cases h
      · split at h <;> cases h
  unfold run
  split
  · rfl
  · split
    · rfl
    · split
      · rfl
      · exact key

end

/-! ### Unknown names -/

/-- no process has been started -/
def Spec.NoProcess (s : State) : Prop := ∀ loc spec, .procStart loc spec ∉ s.sh.trace

theorem unknown_inv {c : Cfg} {tasks : TaskMap} {gvars : GoMap Str} {name : Str} (hn : tasks.get? name = none) {s : State}
    (h : Reach (start c tasks gvars name) s) :
    NoProcess s ∧ ((s.prog = runWithTasks c tasks name ∧ s.sh.status = []) ∨
      s.prog = .note (.taskEnd name (some (.taskNotFound name))) (.ret (some (.taskNotFound name))) ∨
      s.prog = .ret (some (.taskNotFound name))) := by
  induction h with
  | refl => exact ⟨fun loc spec h => (by cases h), Or.inl ⟨rfl, rfl⟩⟩
  | @step s u _ hs ih =>
    obtain ⟨h1, h2⟩ := ih
    cases hs with
    | cancel id hid =>
      refine ⟨fun loc spec hm => ?_, h2⟩
      rcases List.mem_append.mp hm with hm | hm
      · exact h1 _ _ hm
      · cases List.mem_singleton.mp hm
    | @prog p σ p' σ' hst =>
      dsimp only at h2
      rcases h2 with ⟨rfl, h3⟩ | rfl | rfl
      · have hst' : Step (runTask c tasks (tasks.length + 1 + 1) {} true name) σ p' σ' := hst
        rw [runTask] at hst'
        cases hst' with
        | act x hx =>
          have hx' : x = σ.status.get? name := hx
          rw [h3] at hx'
          have hx0 : x = none := hx'
          subst hx0
          refine ⟨fun loc spec hm => ?_, Or.inr (Or.inl ?_)⟩
          · rcases List.mem_append.mp (show _ ∈ σ.trace ++ _ from hm) with hm | hm
            · exact h1 _ _ hm
            · revert hm; simp [Act.evs]
          · show (runTaskBody c tasks _ _ _ name).bind _ = _
            rw [runTaskBody, hn]; rfl
      · cases hst with
        | act x hx =>
          refine ⟨fun loc spec hm => ?_, Or.inr (Or.inr rfl)⟩
          rcases List.mem_append.mp (show _ ∈ σ.trace ++ [_] from hm) with hm | hm
          · exact h1 _ _ hm
          · cases List.mem_singleton.mp hm
      · cases hst

/-- **C64** A name that is neither a task nor another name of one: if anything is run for it at all, then no process is ever
started, and the only result is that the task was not found. -/
theorem C64_unknown {w : World} {fl : Flags} {x : Str} {c : Cfg} {tasks : TaskMap} {gvars : GoMap Str} {name : Str}
    (hR : RunsFor w fl x c tasks gvars name)
    (hx : ∀ p, Chosen w fl.babfile p → ¬ FileHas w.files p x ∧ ∀ a, ¬ FileAlias w.files p x a)
    (hw : FilesWF w.files) {s : State} (h : Reach (start c tasks gvars name) s) :
    NoProcess s ∧ ∀ r, s.prog = .ret r → r = some (.taskNotFound x) := by
  obtain ⟨p, b, g1, g2, g3, g4, g5, g6, g7, g8, g9, g10⟩ := hR.file
  have hname := g10 (hx p g1)
  subst hname
  have hn : tasks.get? name = none := by
    cases hT : tasks.get? name with
    | none => rfl
    | some T =>
      exfalso
      obtain ⟨o, ho⟩ : ∃ o : Orders, OrdersOK o :=
        ⟨⟨fun _ m => m, fun _ m => m, fun _ m => m⟩, fun _ => ⟨fun _ => .refl _, fun _ => .refl _, fun _ => .refl _⟩⟩
      obtain ⟨r, hr⟩ := (C35_loads hw ho).mpr g2.loads
      have hto := (parseFile_ok hw ho _ hr).2.1
      exact (hx p g1).1 ((fileHas_iff hto name).mpr ⟨T, (parseFile_makes hw ho _ hr name T).mpr ((g5 name T).mp hT)⟩)
  obtain ⟨h1, h2⟩ := unknown_inv hn h
  refine ⟨h1, fun r hr => ?_⟩
  rcases h2 with ⟨h2, -⟩ | h2 | h2
  · rw [hr] at h2; cases h2
  · rw [hr] at h2; cases h2
  · rw [hr] at h2; cases h2; rfl

/-! ### C65 -/

section
variable {w : World} (hw : FilesWF w.files)
include hw

/-- two ways of loading -/
theorem loadTasks_same {v u : Visit} (hv : VisitOK v) (hu : VisitOK u) (bf : Str) :
    (∃ e, loadTasks w v bf = .error e ∧ ∃ e', loadTasks w u bf = .error e' ∧ (e = e' ∨ ∃ a b, e = .load a ∧ e' = .load b)) ∨
    ∃ r r', loadTasks w v bf = .ok r ∧ loadTasks w u bf = .ok r' ∧ r.tasks.Perm r'.tasks ∧ r.tasks.WF ∧ r.vars = r'.vars ∧
      r.env = r'.env ∧ r.silent = r'.silent ∧ r.output = r'.output ∧ r.dir = r'.dir ∧
      (∀ k t, (k, t) ∈ r.tasks → t.name = k) ∧ (∀ x, resolveTaskName r.aliases x = resolveTaskName r'.aliases x) ∧
      r.aliases.Perm r'.aliases := by
  cases h : loadTasks w v bf with
  | error e =>
    left
    cases h' : loadTasks w u bf with
    | ok r' =>
      obtain ⟨r, hr⟩ := (C64_load hw hv bf).mpr ((C64_load hw hu bf).mp ⟨r', h'⟩)
      rw [h] at hr; cases hr
    | error e' =>
      refine ⟨e, rfl, e', rfl, ?_⟩
      unfold loadTasks at h h'
      dsimp only at h h'
      split at h
      · rename_i hb
        rw [if_pos hb] at h'
        split at h
        · cases h
        · split at h'
          · cases h'
          · cases h; cases h'; exact Or.inr ⟨_, _, rfl, rfl⟩
      · rename_i hb
        rw [if_neg hb] at h'
        cases hf : findBabfile w.ex w.cwd with
        | none => rw [hf] at h h'; cases h; cases h'; exact Or.inl rfl
        | some path =>
          rw [hf] at h h'
          dsimp only at h h'
          split at h
          · cases h
          · split at h'
            · cases h'
            · cases h; cases h'; exact Or.inr ⟨_, _, rfl, rfl⟩
  | ok r =>
    right
    obtain ⟨r', h'⟩ := (C64_load hw hu bf).mpr ((C64_load hw hv bf).mp ⟨r, h⟩)
    obtain ⟨p, h1, h2, h3⟩ := loadTasks_ok hw hv h
    obtain ⟨p', h1', h2', h3'⟩ := loadTasks_ok hw hu h'
    obtain rfl := chosen_unique h1 h1'
    obtain ⟨hlo, hto, b, hb, hset⟩ := parseFile_ok hw hv.orders _ h3
    obtain ⟨-, hto', b', hb', hset'⟩ := parseFile_ok hw hu.orders _ h3'
    rw [hb] at hb'; cases hb'
    have hperm := parseFile_perm hw hv.orders hu.orders h3 h3'
    have hun := ((accepted_iff hlo hto).mp h2).2.2
    have hun' := ((accepted_iff hlo hto').mp h2').2.2
    have hA := aliasMap_perm hto.wf ((C39_unambiguous hto.wf (List.Perm.refl _)).mpr hun) ((hv.orders []).2.2 r.tasks)
      (((hu.orders []).2.2 r'.tasks).trans hperm.symm)
    rw [← load_aliases h3, ← load_aliases h3'] at hA
    refine ⟨r, r', rfl, h', hperm, hto.wf, ?_, ?_, ?_, ?_, ?_, ?_, ?_, ?_⟩
    · rw [hset.vars, hset'.vars]
    · rw [hset.env, hset'.env]
    · rw [hset.silent, hset'.silent]
    · rw [hset.output, hset'.output]
    · rw [hset.dir, hset'.dir]
    · intro k t hk
      exact makes_name ((parseFile_makes hw hv.orders _ h3 k t).mp (GoMap.get?_of_mem hto.wf hk))
    · intro x
      unfold resolveTaskName
      rw [GoMap.get?_perm hA.1 hA.2]
    · exact hA.2

theorem runTask_same {v u : Visit} (hv : VisitOK v) (hu : VisitOK u) (fl : Flags) (x : Str) :
    SameOutcome (Cli.runTask w v fl x) (Cli.runTask w u fl x) := by
  unfold Cli.runTask
  rcases loadTasks_same hw hv hu fl.babfile with ⟨e, h1, e', h2, h3⟩ | ⟨r, r', h1, h2, g1, g2, g3, g4, g5, g6, g7, g8, g9, g10⟩
  · rw [h1, h2]
    rcases h3 with rfl | ⟨a, b, rfl, rfl⟩
    · exact .same _
    · exact .load _ _
  · rw [h1, h2]
    dsimp only
    rw [← g3]
    cases placed 0 (resolveVars r.vars [] w.base.env) with
    | error e => exact .same _
    | ok g =>
      dsimp only
      rw [← g4, ← g5, ← g6, ← g7, ← g9]
      exact .run _ _ _ _ _ g1

/-- **C65** What an invocation does depends only on the command line, the files and the machine, not on the orders in which
Go visits maps: it fails in both cases, or prints the same, or runs the same task on the same tasks. -/
theorem C65_same {v u v' u' : Visit} (hv : VisitOK v) (hu : VisitOK u) (hv' : VisitOK v') (hu' : VisitOK u') {w' : World}
    (hw' : FilesWF w'.files) (fl : Flags) (args : List Str) (pick : Pick) :
    SameOutcome (run w w' v v' fl args pick) (run w w' u u' fl args pick) := by
  unfold run
  split
  · exact .same _
  · split
    · unfold runValidate
      rcases loadTasks_same hw hv hu fl.babfile with ⟨e, h1, e', h2, h3⟩ | ⟨r, r', h1, h2, g1, -⟩
      · rw [h1, h2]
        rcases h3 with rfl | ⟨a, b, rfl, rfl⟩
        · exact .same _
        · exact .load _ _
      · rw [h1, h2]
        dsimp only
        rw [g1.length_eq]
        exact .same _
    · split
      · unfold runList
        rcases loadTasks_same hw hv hu fl.babfile with ⟨e, h1, e', h2, h3⟩ | ⟨r, r', h1, h2, g1, g2, -⟩
        · rw [h1, h2]
          rcases h3 with rfl | ⟨a, b, rfl, rfl⟩
          · exact .same _
          · exact .load _ _
        · rw [h1, h2]
          dsimp only
          rw [g1.length_eq, C59_order_independent g2 g1]
          exact .same _
      · cases args with
        | cons a more => exact runTask_same hw hv hu fl a
        | nil =>
          dsimp only
          unfold runInteractive
          rcases loadTasks_same hw hv hu fl.babfile with ⟨e, h1, e', h2, h3⟩ | ⟨r, r', h1, h2, g1, g2, g3, g4, g5, g6, g7, g8, -⟩
          · rw [h1, h2]
            rcases h3 with rfl | ⟨a, b, rfl, rfl⟩
            · exact .same _
            · exact .load _ _
          · rw [h1, h2]
            dsimp only
            have hp : pickTask w r.tasks pick = pickTask w r'.tasks pick := by
              unfold pickTask
              rw [g1.length_eq]
              split
              · rfl
              · cases pick with
                | killed => rfl
                | failed => rfl
                | msgs l =>
                  have := Picker.C55_order_independent w.find r.tasks r'.tasks g2 g8 g1 l
                  unfold Picker.run at this
                  dsimp only
                  rw [this]
            rw [← hp]
            cases pickTask w r.tasks pick with
            | error e => exact .same _
            | ok sel =>
              cases sel with
              | none => exact .same _
              | some t => exact runTask_same hw' hv' hu' fl t.name

/-- **C65** The same for shell completion: the same words are offered in the same order. -/
theorem C65_completion {v u : Visit} (hv : VisitOK v) (hu : VisitOK u) (bf : Str) (args : List Str) (pre : Str) :
    complete w v bf args pre = complete w u bf args pre := by
  unfold complete
  split
  · rfl
  · rcases loadTasks_same hw hv hu bf with ⟨e, h1, e', h2, h3⟩ | ⟨r, r', h1, h2, g1, g2, g3, g4, g5, g6, g7, g8, g9, g10⟩
    · rw [h1, h2]
    · rw [h1, h2]
      exact C58_order_independent _ _ _ _ pre g2 g1 g10

end

/-- **C65** And what can happen while it runs is then the same: every history of events, shared state and result that is
possible in one case is possible in the other. -/
theorem C65_same_runs {c c' : Cfg} {tasks tasks' : TaskMap} {gvars gvars' : GoMap Str} {name name' : Str} (hwf : tasks.WF)
    (h : SameOutcome (.run c tasks gvars name) (.run c' tasks' gvars' name')) {s : State} (hs : Reach (start c tasks gvars name) s) :
    ∃ s', Reach (start c' tasks' gvars' name') s' ∧ s'.sh = s.sh ∧ ∀ r, s.prog = .ret r ↔ s'.prog = .ret r := by
  have key : c = c' ∧ gvars = gvars' ∧ name = name' ∧ tasks.Perm tasks' := by
    cases h with
    | same => exact ⟨rfl, rfl, rfl, .refl _⟩
    | run _ _ _ _ _ h => exact ⟨rfl, rfl, rfl, h⟩
  obtain ⟨rfl, rfl, rfl, hp⟩ := key
  exact C62_others_irrelevant (fun n _ => GoMap.get?_perm hwf hp n) hs

/-! ### Further consequences -/

/-- **C64** Without `--babfile` the nearest Babfile is read (C51), from every directory. -/
theorem C64_nearest {w : World} {d : List Str} (hd : ∀ e ∈ d, PlainName e) (hc : w.cwd = pathOf d) (p : Str) :
    Chosen w [] p ↔ ∃ dir n, Nearest w.ex d dir n ∧ p = pathOf (n :: dir) := by
  have habs : ∀ dir n, Nearest w.ex d dir n → trimSpace (pathOf (n :: dir)) ≠ [] ∧ absolute w.cwd (pathOf (n :: dir)) = pathOf (n :: dir) := by
    intro dir n hn
    have hpl : ∀ e ∈ n :: dir, PlainName e := by
      intro e he
      rcases List.mem_cons.mp he with rfl | he
      · exact babfileNames_plain _ hn.2.1.1
      · exact hd e (hn.1.subset he)
    have hcl : cleanPath (pathOf (n :: dir)) = pathOf (n :: dir) := by
      rw [cleanPath_abs (pathOf_abs _), walk_pathOf hpl, List.append_nil]
    refine ⟨?_, ?_⟩
    · have h1 := pathOf_abs (n :: dir)
      exact trimSpace_ne h1
    · unfold absolute
      rw [hcl, if_pos (by unfold isAbs; simp [pathOf_abs])]
  constructor
  · rintro ⟨path, h1, h2, rfl⟩
    rw [if_pos rfl, hc] at h1
    rcases C51_nearest w.ex d hd with ⟨dir, n, h3, h4⟩ | ⟨h3, -⟩
    · rw [h3] at h1; cases h1
      exact ⟨dir, n, h4, (habs _ _ h4).2⟩
    · rw [h3] at h1; cases h1
  · rintro ⟨dir, n, h4, rfl⟩
    refine ⟨pathOf (n :: dir), ?_, (habs _ _ h4).1, (habs _ _ h4).2.symm⟩
    rw [if_pos rfl, hc]
    rcases C51_nearest w.ex d hd with ⟨dir', n', h3, h5⟩ | ⟨-, h5⟩
    · obtain ⟨rfl, rfl⟩ := C51_unique h4 h5
      exact h3
    · exact absurd h4.2.1 (h5 dir h4.1 n)

/-- **C64** With `--dry-run` no process is started, whatever is asked for. -/
theorem C64_dry_run {w w' : World} {v v' : Visit} {fl : Flags} {args : List Str} {pick : Pick} {c : Cfg} {tasks : TaskMap}
    {gvars : GoMap Str} {name : Str} (h : run w w' v v' fl args pick = .run c tasks gvars name) :
    c.dry = fl.dryRun ∧ (fl.dryRun = true → ∀ s, Reach (start c tasks gvars name) s → NoProcess s) := by
  have key : ∀ {w : World} {v : Visit} {x : Str}, Cli.runTask w v fl x = .run c tasks gvars name → c.dry = fl.dryRun := by
    intro w v x h
    unfold Cli.runTask at h
    split at h
    · cases h
    · split at h
      · cases h
      · cases h; rfl
  have hd : c.dry = fl.dryRun := by
    have hno : ¬ (fl.completion ≠ [] ∨ fl.validate = true ∨ fl.listTasks = true) := fun hm => C64_nothing_runs hm h
    rw [not_or, not_or, not_not] at hno
    unfold run at h
    rw [if_neg (by simpa using hno.1), if_neg hno.2.1, if_neg hno.2.2] at h
    split at h
    · exact key h
    · unfold runInteractive at h
      split at h
      · cases h
      · split at h
        · cases h
        · cases h
        · exact key h
  refine ⟨hd, fun ht s hs loc spec hm => ?_⟩
  exact (C20_dry_run_has_no_effects hs (hd.trans ht) _ hm).1 loc spec rfl

/-- **C64** Completion of the first argument offers exactly the names and other names of the tasks that begin with what is
typed; nothing is offered for further arguments or without an accepted Babfile. -/
theorem C64_completion {w : World} (hw : FilesWF w.files) {v : Visit} (hv : VisitOK v) {bf p : Str} (hp : Chosen w bf p) (ha : Accepted w.files p)
    (pre : Str) (ht : ∀ x, (FileHas w.files p x ∨ ∃ a, FileAlias w.files p x a) → '\t' ∉ x) (x : Str) :
    x ∈ (complete w v bf [] pre).map offered ↔ pre <+: x ∧ (FileHas w.files p x ∨ ∃ a, FileAlias w.files p x a) := by
  obtain ⟨r, hr⟩ := (C64_load hw hv bf).mpr ⟨p, hp, ha⟩
  obtain ⟨q, h1, h2, h3⟩ := loadTasks_ok hw hv hr
  obtain rfl := chosen_unique hp h1
  obtain ⟨hlo, hto, -⟩ := parseFile_ok hw hv.orders _ h3
  have hu := ((accepted_iff hlo hto).mp h2).2.2
  have hal : r.aliases = buildAliasMap (v.orders.aliases [] r.tasks) := load_aliases h3
  have htk : ∀ k, k ∈ r.tasks.keys ↔ FileHas w.files p k := by
    intro k
    rw [GoMap.mem_keys_iff, fileHas_iff hto, ← Option.isSome_iff_ne_none, Option.isSome_iff_exists]
  have hak : ∀ k, k ∈ r.aliases.keys ↔ ∃ a, FileAlias w.files p k a := by
    intro k
    rw [hal, aliasMap_keys hto.wf ((C39_unambiguous hto.wf (List.Perm.refl _)).mpr hu) ((hv.orders []).2.2 r.tasks)]
    exact exists_congr fun a => (fileAlias_iff hto k a).symm
  unfold complete
  rw [if_neg (by simp), hr]
  dsimp only
  rw [(C58_completions r.tasks r.aliases pre (fun k hk => ht k (Or.inl ((htk k).mp hk)))
    (fun k hk => ht k (Or.inr ((hak k).mp hk)))).2.mem_iff, List.mem_filter, List.mem_append, htk, hak, decide_eq_true_iff]
  exact and_comm

/-! ### Concrete cases and counterexamples -/

namespace Sample

/-- a project: a Babfile which includes another file -/
def project : Files :=
  [ (s "/p/Babfile.yml", some { vars := some [(s "v", s "1")], includes := [(s "web", s "web.yml")], tasks := [(s "all", { name := [], «alias» := s "a", deps := [s "web:make"] })] }),
    (s "/p/web.yml", some { tasks := [(s "make", { name := [], aliases := [s "m"], run := [cmd "make"] })] }) ]

/-- a machine with this project, and a working directory inside it -/
def desk (files : Files) : World :=
  { files := files, ex := fun p => p = s "/p/Babfile.yml" || p = s "/p/web.yml", cwd := s "/p/src", base := {}, find := fun _ _ => [] }

/-- maps are visited as they are written -/
def plainly : Visit := ⟨asWritten, doubling, id, id, id, id⟩
/-- maps are visited backwards -/
def reversed : Visit := ⟨backwards, doubling, List.reverse, List.reverse, List.reverse, List.reverse⟩

theorem plainly_ok : VisitOK plainly := ⟨asWritten_ok, fun _ => .refl _, fun _ => .refl _, fun _ => .refl _, fun _ => .refl _⟩
theorem reversed_ok : VisitOK reversed :=
  ⟨backwards_ok, fun _ => List.reverse_perm _, fun _ => List.reverse_perm _, fun _ => List.reverse_perm _, fun _ => List.reverse_perm _⟩

theorem files_wf {files : Files} (hall : ∀ q ∈ files, ∀ b ∈ q.2, b.tasks.keys.Nodup ∧ b.includes.keys.Nodup ∧ (GoMap.keys (b.vars.getD [])).Nodup ∧
    b.env.keys.Nodup ∧ ∀ t ∈ b.tasks, (GoMap.keys (t.2.vars.getD [])).Nodup ∧ t.2.env.keys.Nodup) : FilesWF files := by
  intro p bf h
  obtain ⟨h1, h2, h3, h4, h5⟩ := hall _ (GoMap.mem_of_get? h) bf rfl
  exact ⟨h1, h2, h3, h4, fun n T hT => h5 _ (GoMap.mem_of_get? hT)⟩

theorem project_wf : FilesWF project := files_wf (by decide +kernel)

/-- what an invocation does, in short -/
def brief : Outcome → String × List Str
  | .failed (.load (.validation _)) => ("rejected", [])
  | .failed (.load _) => ("not loaded", [])
  | .failed (.globals _) => ("globals", [])
  | .failed _ => ("failed", [])
  | .script x => ("script", [x])
  | .valid n => ("valid", List.replicate n [])
  | .listed rows => ("listed", rows.map (fun r => r.path.flatten))
  | .emptyList => ("empty", [])
  | .nothing => ("nothing", [])
  | .run _ tasks _ name => ("run", name :: tasks.keys)

/-- the invocation without a picker -/
def bab (files : Files) (v : Visit) (fl : Flags) (args : List String) : String × List Str :=
  brief (run (desk files) (desk files) v v fl (args.map s) .killed)

/-- `bab a`, where `a` is another name of `all` -/
example : bab project plainly {} ["a"] = ("run", [s "all", s "all", s "web:make"]) := by decide +kernel
/-- `bab web:m extra`, with the maps visited in another order -/
example : bab project reversed {} ["web:m", "extra"] = ("run", [s "web:make", s "all", s "web:make"]) := by decide +kernel
/-- `bab --validate`, `bab --list`, and both -/
example : bab project plainly { validate := true } ["a"] = ("valid", [[], []]) := by decide +kernel
example : bab project plainly { listTasks := true } [] = ("listed", [s "all", s "web", s "webmake"]) := by decide +kernel
example : bab project plainly { listTasks := true, validate := true } [] = ("valid", [[], []]) := by decide +kernel
/-- `bab -c bash`, `bab -c tcsh` -/
example : bab project plainly { completion := s "bash", validate := true } [] = ("script", [s "bash"]) := by decide +kernel
example : bab project plainly { completion := s "tcsh" } [] = ("failed", []) := by decide +kernel
/-- `bab -b web.yml m` from the directory `/p/src` does not find the file, `bab -b ../web.yml m` does -/
example : bab project plainly { babfile := s "web.yml" } ["m"] = ("not loaded", []) := by decide +kernel
example : bab project plainly { babfile := s "../web.yml" } ["m"] = ("run", [s "make", s "make"]) := by decide +kernel
/-- completion of `we` -/
example : complete (desk project) plainly [] [] (s "we") = [s "web:m\talias for web:make", s "web:make"] := by decide +kernel
/-- choosing the second entry with the arrow and enter -/
example : brief (run (desk project) (desk project) plainly reversed {} [] (.msgs [.down, .enter])) =
    ("run", [s "web:make", s "all", s "web:make"]) := by decide +kernel

theorem project_loads : ∃ r, loadTasks (desk project) plainly [] = .ok r := by
  have : (match loadTasks (desk project) plainly [] with | .ok _ => true | .error _ => false) = true := by decide +kernel
  split at this
  · exact ⟨_, by assumption⟩
  · cases this

/-- the project is accepted, so the theorems apply to it -/
theorem project_accepted : ∃ p, Chosen (desk project) [] p ∧ Accepted project p :=
  (C64_load (w := desk project) project_wf plainly_ok []).mp project_loads

/-- so `--validate` accepts it with the maps in any order -/
example (v : Visit) (hv : VisitOK v) (args : List Str) (pick : Pick) :
    ∃ n, run (desk project) (desk project) v v { validate := true } args pick = .valid n :=
  (C64_validate (w := desk project) project_wf hv rfl rfl args pick).mpr project_accepted

/-- what the two orders give is the same -/
example : SameOutcome (run (desk project) (desk project) plainly plainly {} [s "a"] .killed)
    (run (desk project) (desk project) reversed reversed {} [s "a"] .killed) :=
  C65_same (w := desk project) project_wf plainly_ok reversed_ok plainly_ok reversed_ok project_wf _ _ _

/-- a Babfile whose global variables refer to each other -/
def entangled : Files :=
  [ (s "/p/Babfile.yml", some { vars := some [(s "x", s "${{ y }}"), (s "y", s "${{ x }}")], tasks := [(s "t", { name := [], run := [cmd "true"] })] }) ]

/-- `--validate` does not look at global variables: it accepts a Babfile with which no task at all can be run. -/
theorem C64_validate_misses_variables :
    bab entangled plainly { validate := true } [] = ("valid", [[]]) ∧ bab entangled plainly {} ["t"] = ("globals", []) := by
  decide +kernel

/-- two tasks with an empty name among their aliases, alone and included -/
def blankAliases : Files :=
  [ (s "/p/Babfile.yml", some { includes := [(s "web", s "web.yml")] }),
    (s "/p/web.yml", some { tasks := [(s "a", { name := [], aliases := [[]], run := [cmd "a"] }), (s "b", { name := [], aliases := [[]], run := [cmd "b"] })] }) ]

/-- Empty aliases are ignored, but not those of included tasks, which become `web:`. So a valid Babfile can be rejected when
it is included. -/
theorem C64_blank_alias :
    bab blankAliases plainly { babfile := s "/p/web.yml", validate := true } [] = ("valid", [[], []]) ∧
    bab blankAliases plainly { validate := true } [] = ("rejected", []) := by
  decide +kernel

end Sample

end Bab
