import Verif.Props.Document
import Verif.Props.Explain
/-
C81: names that are offered can be run; "task not found" is said of exactly the names that no task has.
-/

namespace Bab
open Spec Bab.Cli

section
open Bab.Yaml
variable {d : Decoders} {docs : GoMap (Option Node)} {w w' : World} {fl : Flags} {x name : Str} {c : Cfg} {tasks : TaskMap} {gvars : GoMap Str}
  {s : State} {v v' : Visit}

theorem Docs.parsed (h : Cli.runTask w v fl x = .run c tasks gvars name) :
    ∃ path r, parse w.files v.orders v.grow v.v1 v.v2 v.v3 v.v4 w.cwd path = .ok r ∧ tasks = r.tasks := by
  unfold Cli.runTask at h
  split at h
  · cases h
  · next r hr =>
    have hp : ∃ path, parse w.files v.orders v.grow v.v1 v.v2 v.v3 v.v4 w.cwd path = .ok r := by
      have key : ∀ path, (match parse w.files v.orders v.grow v.v1 v.v2 v.v3 v.v4 w.cwd path with
          | .ok r => Except.ok r | .error e => Except.error (CliErr.load e)) = Except.ok r →
          parse w.files v.orders v.grow v.v1 v.v2 v.v3 v.v4 w.cwd path = .ok r := by
        intro path hh
        split at hh
        · next h1 => cases hh; exact h1
        · cases hh
      unfold loadTasks at hr
      dsimp only at hr
      split at hr
      · exact ⟨_, key _ hr⟩
      · split at hr
        · cases hr
        · exact ⟨_, key _ hr⟩
    obtain ⟨path, hp⟩ := hp
    refine ⟨path, r, hp, ?_⟩
    split at h
    · cases h
    · cases h; rfl

/-- C81. `bab x` says that a task was not found exactly if the Babfile, with what it includes, has no task with this name or other
name; and then it says this of `x`. -/
theorem C81_exact (hread : ReadFrom d docs w.files) (hv : VisitOK v) {more : List Str} {pick : Pick}
    (h : run w w' v v' fl (x :: more) pick = .run c tasks gvars name) {p : Str} (hp : Chosen w fl.babfile p)
    (hr : Reach (start c tasks gvars name) s) {r : Option Err} (hs : s.prog = .ret r) :
    ((∃ e y, r = some e ∧ cause e = .taskNotFound y) ↔ ¬ FileHas w.files p x ∧ ∀ a, ¬ FileAlias w.files p x a) ∧
    ((¬ FileHas w.files p x ∧ ∀ a, ¬ FileAlias w.files p x a) → r = some (.taskNotFound x)) := by
  have hw := C40_files_wf d docs w.files hread
  have hno : ¬ (fl.completion ≠ [] ∨ fl.validate = true ∨ fl.listTasks = true) := fun hm => C64_nothing_runs hm h
  rw [not_or, not_or, not_not] at hno
  unfold run at h
  rw [if_neg (by simpa using hno.1), if_neg hno.2.1, if_neg hno.2.2] at h
  dsimp only at h
  have hR := runTask_run hw hv h
  obtain ⟨path, pr, hpr, rfl⟩ := Docs.parsed h
  have key : (¬ FileHas w.files p x ∧ ∀ a, ¬ FileAlias w.files p x a) → r = some (.taskNotFound x) := by
    intro hx
    refine (C64_unknown hR (fun q hq => ?_) hw hr).2 r hs
    obtain rfl := chosen_unique hp hq
    exact hx
  refine ⟨⟨?_, fun hx => ⟨_, x, key hx, rfl⟩⟩, key⟩
  rintro ⟨e, y, rfl, he⟩
  by_contra hx
  obtain ⟨q, b, g1, g2, g3, g4, g5, g6, g7, g8, g9, g10⟩ := hR.file
  obtain rfl := chosen_unique hp g1
  have hto := Docs.tasksOf hw g2 g4 g5
  have hmain : pr.tasks.get? name ≠ none := by
    have : FileHas w.files p name := by
      by_cases h1 : FileHas w.files p x
      · rw [g8 h1]; exact h1
      · have : ∃ a, FileAlias w.files p x a := by
          by_contra h2
          exact hx ⟨h1, fun a ha => h2 ⟨a, ha⟩⟩
        obtain ⟨a, ha⟩ := this
        rw [g9 a ha]
        obtain ⟨nss, bs, n, f, T, k1, k2, -⟩ := ha
        exact ⟨nss, bs, n, f, T, k1, k2⟩
    obtain ⟨T, hT⟩ := (fileHas_iff hto name).mp this
    rw [hT]; simp
  exact ((C63_accepted d docs hread hv.orders hv.v1 hv.v2 hv.v3 hv.v4 hpr hmain hr hs).2 y).1 he

/-- C81. What completion offers can be run: the task is found, and so is all it refers to. -/
theorem C81_completion (hread : ReadFrom d docs w.files) (hv : VisitOK v) (hv' : VisitOK v') {p : Str} (hp : Chosen w fl.babfile p)
    (ha : Accepted w.files p) {pre : Str} (ht : ∀ y, (FileHas w.files p y ∨ ∃ a, FileAlias w.files p y a) → '\t' ∉ y)
    (hx : x ∈ (complete w v' fl.babfile [] pre).map offered) {more : List Str} {pick : Pick}
    (h : run w w' v v fl (x :: more) pick = .run c tasks gvars name) (hr : Reach (start c tasks gvars name) s) {e : Err}
    (hs : s.prog = .ret (some e)) (y : Str) : cause e ≠ .taskNotFound y := by
  intro he
  have hw := C40_files_wf d docs w.files hread
  obtain ⟨-, hk⟩ := (C64_completion hw hv' hp ha pre ht x).mp hx
  obtain ⟨h1, h2⟩ := ((C81_exact hread hv h hp hr hs).1).mp ⟨e, y, rfl, he⟩
  rcases hk with hk | ⟨a, hk⟩
  · exact h1 hk
  · exact h2 a hk

/-- C81. What is chosen in the picker can be run, if the files stay as they are. -/
theorem C81_picked (hread : ReadFrom d docs w.files) (hv : VisitOK v) (hv' : VisitOK v') {msgs : List Picker.Msg}
    (h : run w w v v' fl [] (.msgs msgs) = .run c tasks gvars name) (hr : Reach (start c tasks gvars name) s) {e : Err}
    (hs : s.prog = .ret (some e)) (y : Str) : cause e ≠ .taskNotFound y := by
  have hw := C40_files_wf d docs w.files hread
  obtain ⟨p, shown, t, h1, h2, h3, h4, h5, h6⟩ := C64_picked hw hv hv' h
  have hno : ¬ (fl.completion ≠ [] ∨ fl.validate = true ∨ fl.listTasks = true) := fun hm => C64_nothing_runs hm h
  rw [not_or, not_or, not_not] at hno
  unfold run at h
  rw [if_neg (by simpa using hno.1), if_neg hno.2.1, if_neg hno.2.2] at h
  unfold runInteractive at h
  dsimp only at h
  split at h
  · cases h
  · split at h
    · cases h
    · cases h
    · obtain ⟨path, pr, hpr, rfl⟩ := Docs.parsed h
      exact ((C63_accepted d docs hread hv'.orders hv'.v1 hv'.v2 hv'.v3 hv'.v4 hpr (by rw [h5]; simp) hr hs).2 y).1

end

namespace Sample

/-- what completion of nothing offers in the two files -/
example : (complete (desk bothFiles) plainly [] [] []).map offered = [s "all", s "web:make"] := by decide +kernel

/-- `bab web:mkae` runs nothing, and says so -/
example : (match run (desk bothFiles) (desk bothFiles) plainly plainly {} [s "web:mkae"] .killed with
    | .run c tasks gvars name => outcome (Exec.drive [.auto 50] (start c tasks gvars name))
    | _ => none) = some (some (.taskNotFound (s "web:mkae"))) := by decide +kernel

/-- `bab web:make` succeeds -/
example : (match run (desk bothFiles) (desk bothFiles) plainly plainly {} [s "web:make"] .killed with
    | .run c tasks gvars name => outcome (Exec.drive [.auto 100] (start c tasks gvars name))
    | _ => none) = some none := by decide +kernel

end Sample

end Bab
