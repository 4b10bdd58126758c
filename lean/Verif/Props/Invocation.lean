import Verif.Props.Complete
import Verif.Props.Work
import Verif.Props.Explain
import Verif.Props.Main
/-
C83: the exit status of an invocation, from the documents.
-/

namespace Bab
open Spec Cli

namespace Docs
open Bab.Yaml Bab.Yaml.Spec
variable {d : Decoders} {docs : GoMap (Option Node)} {w : World} {fl : Flags} {x name : Str} {c : Cfg} {tasks : TaskMap} {gvars : GoMap Str}

theorem needs_congr {t u : TaskMap} (h : ∀ k, t.get? k = u.get? k) {a b : Str} (hn : Needs t a b) : Needs u a b := by
  have hr : ∀ a b, Refers t a b → Refers u a b := by
    rintro a b ⟨T, h1, h2⟩
    exact ⟨T, by rw [← h]; exact h1, h2⟩
  rcases hn with rfl | hn
  · exact .inl rfl
  · right
    induction hn with
    | one h => exact .one (hr _ _ h)
    | more h _ ih => exact .more (hr _ _ h) ih

/-- the tasks of an invocation can be run -/
theorem ready (hread : ReadFrom d docs w.files) (hR : RunsFor w fl x c tasks gvars name) (hn : tasks.get? name ≠ none) : Ready tasks name := by
  have hw := C40_files_wf d docs w.files hread
  obtain ⟨p, b, g1, g2, g3, g4, g5, -⟩ := hR.file
  obtain ⟨path, -, q2, rfl⟩ := g1
  obtain ⟨r, hr⟩ := (C35_loads hw Sample.asWritten_ok).mpr g2.loads
  have hget : ∀ k, tasks.get? k = r.tasks.get? k := fun k => by
    apply Option.ext
    intro T
    rw [g5, parseFile_makes hw Sample.asWritten_ok _ hr]
  have hparse := (parse_ok hw Sample.plainly_ok (cwd := w.cwd) (path := path) (r := r)).mpr ⟨q2, hr, g2⟩
  have h := C63_accepted_ready d docs hread Sample.plainly_ok.orders Sample.plainly_ok.v1 Sample.plainly_ok.v2 Sample.plainly_ok.v3
    Sample.plainly_ok.v4 hparse (main := name) (by rw [← hget]; exact hn)
  refine ⟨fun n hn => ?_, fun n T items labels mode lim color s o pl w ln i hn hT => ?_, fun n T v hn hT => ?_⟩
  · obtain ⟨T, h1, h2⟩ := h.exist n (needs_congr hget hn)
    exact ⟨T, by rw [hget]; exact h1, h2⟩
  · exact h.blocks n T items labels mode lim color s o pl w ln i (needs_congr hget hn) (by rw [← hget]; exact hT)
  · exact h.commands n T v (needs_congr hget hn) (by rw [← hget]; exact hT)

/-- references decrease a rank -/
theorem ranked (hread : ReadFrom d docs w.files) (hR : RunsFor w fl x c tasks gvars name) :
    ∃ rank : Str → Nat, ∀ a b, Refers tasks a b → rank b < rank a := by
  have hw := C40_files_wf d docs w.files hread
  obtain ⟨p, b, g1, g2, g3, g4, g5, -⟩ := hR.file
  have hto := tasksOf hw g2 g4 g5
  exact C37_accepted_ranked (grow := id) hto.wf (.refl _) (.refl _) (.refl _)
    ((validateAll_nil id hto.wf (.refl _) (.refl _) (.refl _) (.refl tasks)).mpr ((accepted_iff g2.loads hto).mp g2))

/-- the name stands for a task -/
theorem known (hread : ReadFrom d docs w.files) (hR : RunsFor w fl x c tasks gvars name)
    (hx : ∀ p, Chosen w fl.babfile p → FileHas w.files p x ∨ ∃ a, FileAlias w.files p x a) : tasks.get? name ≠ none := by
  have hw := C40_files_wf d docs w.files hread
  obtain ⟨p, b, g1, g2, g3, g4, g5, g6, g7, g8, g9, -⟩ := hR.file
  have hto := tasksOf hw g2 g4 g5
  rcases hx p g1 with h | ⟨a, h⟩
  · obtain ⟨T, hT⟩ := (fileHas_iff hto x).mp h
    rw [g8 h, hT]; simp
  · obtain ⟨T, hT, -⟩ := (fileAlias_iff hto x a).mp h
    rw [g9 a h, hT]; simp

end Docs

section
open Bab.Yaml Bab.Yaml.Spec
variable {d : Decoders} {docs : GoMap (Option Node)} {w : World} {fl : Flags} {x name : Str} {c : Cfg} {tasks : TaskMap} {gvars : GoMap Str}
  {s : State}

/-- without interruption no error is a cancellation -/
theorem Docs.not_canceled (hr : Ready tasks name) (h : Reach (start c tasks gvars name) s) (hcalm : ∀ e ∈ s.sh.trace, Calm e) {e : Err}
    (hp : s.prog = .ret (some e)) : cause e ≠ .canceled := by
  have hx := (C63_explained hr h).1 e hp
  clear hp
  induction e with
  | wrap t e ih => exact ih hx
  | canceled =>
    rcases hx with ⟨id, hid⟩ | ⟨loc, n, hl⟩
    · exact (hcalm _ hid).elim
    · exact ((hcalm _ hl) trivial).elim
  | _ => intro hc; cases hc

/-- **C83** If nothing goes wrong outside the Babfiles, the exit status is 0 exactly if all that is due works: whatever the schedule of
parallel items. (For tasks that ask for nothing, and whose parallel items keep out of each other's way.) -/
theorem C83_exit_status {t : Texts} (hread : ReadFrom d docs w.files) (hR : RunsFor w fl x c tasks gvars name)
    (hx : ∀ p, Chosen w fl.babfile p → FileHas w.files p x ∨ ∃ a, FileAlias w.files p x a) (hd : fl.dryRun = false)
    (hask : Unasked c tasks gvars name) (hsep : Separate tasks) (h : Reach (start c tasks gvars name) s)
    (hcalm : ∀ e ∈ s.sh.trace, Calm e) {r : Option Err} (hp : s.prog = .ret r) :
    (exitStatus (r.map (Err.toGo t))).1 = 0 ↔ ∀ y, Spec.Due c tasks gvars name y → Works c tasks gvars y := by
  obtain ⟨rank, hrank⟩ := Docs.ranked hread hR
  have hdry : c.dry = false := by
    obtain ⟨p, b, g1, g2, g3, g4, g5, g6, g7, -⟩ := hR.file
    rw [g7]; exact hd
  rw [← C79_exact hdry hask hrank hsep h hcalm hp, C54_cause]
  constructor
  · intro hall
    cases r with
    | none => rfl
    | some e => exact absurd (hall e rfl) (Docs.not_canceled (Docs.ready hread hR (Docs.known hread hR hx)) h hcalm hp)
  · rintro rfl e he; cases he

/-- **C83** From the files to the exit status: if the file that is chosen is accepted, its variables can be resolved, and the name is that of
a task or another name of one, then `bab x` runs it; and if the task asks for nothing, parallel items keep out of each other's way
and all that is due works, then every run in which nothing goes wrong outside ends with exit status 0, and its task is done. -/
theorem C83_works {t : Texts} (hread : ReadFrom d docs w.files) {w' : World} {v v' : Visit} (hv : VisitOK v) (h1 : fl.completion = [])
    (h2 : fl.validate = false) (h3 : fl.listTasks = false) (hd : fl.dryRun = false) {p : Str} {b : Schema} {g : GoMap Str}
    (hch : Chosen w fl.babfile p) (hacc : Accepted w.files p) (hb : w.files.get? p = some (some b))
    (hg : resolveVars b.vars [] w.base.env = .ok g) (hx : FileHas w.files p x ∨ ∃ a, FileAlias w.files p x a) (more : List Str) (pick : Pick) :
    ∃ c tasks gvars name, run w w' v v' fl (x :: more) pick = .run c tasks gvars name ∧ RunsFor w fl x c tasks gvars name ∧
      (Unasked c tasks gvars name → Separate tasks → (∀ y, Spec.Due c tasks gvars name y → Works c tasks gvars y) →
        ∀ s r, Reach (start c tasks gvars name) s → (∀ e ∈ s.sh.trace, Calm e) → s.prog = .ret r →
          (exitStatus (r.map (Err.toGo t))).1 = 0 ∧ .done name ∈ s.sh.trace) := by
  have hw := C40_files_wf d docs w.files hread
  rcases C64_task (w' := w') (v' := v') hw hv h1 h2 h3 x more pick with ⟨e, -, h⟩ | ⟨c, tasks, gvars, name, h4, hR⟩
  · rcases h with h | ⟨q, b', e', hq, hb', he, -⟩
    · exact (h ⟨p, hch, hacc⟩).elim
    · cases chosen_unique hch hq
      rw [hb] at hb'; cases hb'
      rw [hg] at he; cases he
  · refine ⟨c, tasks, gvars, name, h4, hR, fun hask hsep hall s r h hcalm hp => ?_⟩
    have h0 := (C83_exit_status (t := t) hread hR (fun q hq => by cases chosen_unique hch hq; exact hx) hd hask hsep h hcalm hp).mpr hall
    refine ⟨h0, ?_⟩
    have hr : r = none := by
      obtain ⟨rank, hrank⟩ := Docs.ranked hread hR
      have hdry : c.dry = false := by
        obtain ⟨p, b, g1, g2, g3, g4, g5, g6, g7, -⟩ := hR.file
        rw [g7]; exact hd
      exact C79_success hdry hask hall hrank hsep h hcalm hp
    subst hr
    exact C16_success_means_done h hp

end

namespace Sample
open Bab.Yaml Bab.Yaml.Spec

/-- no item asks, and blocks call no tasks -/
def simpleTasks (tasks : TaskMap) : Bool :=
  tasks.all fun q => q.2.run.all fun i =>
    match i with
    | .prompt _ => false
    | .parallel items _ _ _ _ _ _ _ _ _ => items.all fun i => match i with | .task _ => false | _ => true
    | _ => true

theorem simpleTasks_ok {tasks : TaskMap} (h : simpleTasks tasks = true) : Separate tasks ∧ ∀ c g n, Unasked c tasks g n := by
  unfold simpleTasks at h
  rw [List.all_eq_true] at h
  constructor
  · intro n T items labels mode lim color bs bo pl w ln hT hi i j t u hij h1
    have := List.all_eq_true.mp (h _ (GoMap.mem_of_get? hT)) _ hi
    dsimp only at this
    have := List.all_eq_true.mp this _ (List.mem_of_getElem? h1)
    cases this
  · intro c g n m T p _ hT hp
    have := List.all_eq_true.mp (h _ (GoMap.mem_of_get? hT)) _ hp
    cases this

/-- what `bab all` runs on the two documents of C80 meets the conditions; nothing goes wrong, and it ends with success -/
example : ∃ c tasks gvars name, bothRun = .run c tasks gvars name ∧ Separate tasks ∧ Unasked c tasks gvars name ∧
    Exec.result (Exec.drive [.auto 300] (start c tasks gvars name)) = some none ∧
    ∀ e ∈ (Exec.drive [.auto 300] (start c tasks gvars name)).sh.trace, (match e with
      | .cancel _ => false | .tuiStart b => b | .procEnd _ r => r.isNone | .procFail _ => false | .answered _ _ _ => false | _ => true) = true := by
  have hq : (match bothRun with
      | .run c tasks gvars name => simpleTasks tasks && decide (Exec.result (Exec.drive [.auto 300] (start c tasks gvars name)) = some none) &&
          (Exec.drive [.auto 300] (start c tasks gvars name)).sh.trace.all fun e => match e with
            | .cancel _ => false | .tuiStart b => b | .procEnd _ r => r.isNone | .procFail _ => false | .answered _ _ _ => false | _ => true
      | _ => false) = true := by decide +kernel
  split at hq
  · next c tasks gvars name h =>
    rw [Bool.and_eq_true, Bool.and_eq_true, decide_eq_true_eq, List.all_eq_true] at hq
    exact ⟨c, tasks, gvars, name, h, (simpleTasks_ok hq.1.1).1, (simpleTasks_ok hq.1.1).2 _ _ _, hq.1.2, hq.2⟩
  · cases hq

end Sample

end Bab
