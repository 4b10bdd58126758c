import Verif.Proof.Lines
import Verif.Props.Confine
import Verif.Props.Transparent
/-
C100: editing a Babfile changes only the tasks that need what was edited.
-/

namespace Bab
open Spec Cli

namespace Lines

theorem canAll_of_same {c : Cfg} {tasks tasks' : TaskMap} {gvars : GoMap Str} {main : Str} (hs : SameFor main tasks tasks') :
    CanAll (start c tasks gvars main) (start c tasks' gvars main) := by
  intro s h
  obtain ⟨s', h1, h2, h3⟩ := C62_others_irrelevant hs h
  exact ⟨s', h1, h2 ▸ same_refl _, fun r hr => ⟨r, (h3 r).mp hr, rfl⟩⟩

mutual
theorem calls_core_item {d : Str} : ∀ {item : RunItem}, CallsIn d [unlinedItem item] → CallsIn d [item]
  | .command v, h => by cases h with | later h => cases h
  | .log v, h => by cases h with | later h => cases h
  | .prompt v, h => by cases h with | later h => cases h
  | .task t, h => by
    cases h with
    | here h => exact .here h
    | later h => cases h
  | .parallel items labels mode limit color silent output platforms cond ln, h => by
    cases h with
    | block h => exact .block (calls_core h)
    | later h => cases h
theorem calls_core {d : Str} : ∀ {items : List RunItem}, CallsIn d (unlinedItems items) → CallsIn d items
  | [], h => by cases h
  | item :: items, h => by
    have one : ∀ {a : RunItem} {l : List RunItem}, CallsIn d (a :: l) → CallsIn d [a] ∨ CallsIn d l := by
      intro a l h
      cases h with
      | here h => exact .inl (.here h)
      | block h => exact .inl (.block h)
      | later h => exact .inr h
    have back : ∀ {a : RunItem} {l : List RunItem}, CallsIn d [a] → CallsIn d (a :: l) := by
      intro a l h
      cases h with
      | here h => exact .here h
      | block h => exact .block h
      | later h => cases h
    rcases one h with h | h
    · exact back (calls_core_item h)
    · exact .later (calls_core h)
end

theorem refers_cores {tasks : TaskMap} {a b : Str} (h : Refers (cores tasks) a b) : Refers tasks a b := by
  obtain ⟨T, hT, hd⟩ := h
  rw [cores_get] at hT
  cases h : tasks.get? a with
  | none => rw [h] at hT; cases hT
  | some U =>
    rw [h] at hT
    cases hT
    exact ⟨U, h, hd.imp id calls_core⟩

theorem needs_cores {tasks : TaskMap} {a b : Str} (h : Needs (cores tasks) a b) : Needs tasks a b := by
  rcases h with h | h
  · exact .inl h
  · right
    induction h with
    | one h => exact .one (refers_cores h)
    | more h _ ih => exact .more (refers_cores h) ih

end Lines

open Lines in
/-- **C100** If everything the requested task needs is the same in two sets of tasks, apart from lines, descriptions and other names,
then whatever can happen with the one can happen with the other, apart from the lines in errors. -/
theorem C100_tasks {c : Cfg} {tasks tasks2 : TaskMap} {gvars : GoMap Str} {main : Str}
    (h : ∀ n, Needs tasks main n → (tasks2.get? n).map core = (tasks.get? n).map core) :
    CanAll (start c tasks gvars main) (start c tasks2 gvars main) ∧ CanAll (start c tasks2 gvars main) (start c tasks gvars main) := by
  have hs : SameFor main (cores tasks) (cores tasks2) := by
    intro n hn
    rw [cores_get, cores_get, h n (needs_cores hn)]
  have r1 := start_cores c tasks main
  have r2 := start_cores c tasks2 main
  constructor
  · exact canAll_trans (reach r1 (same_refl _)) (canAll_trans (canAll_of_same hs) (reach r2.symm (same_refl _)))
  · exact canAll_trans (reach r2 (same_refl _)) (canAll_trans (canAll_of_same (C62_same_symm hs)) (reach r1.symm (same_refl _)))

namespace Lines

/-- the task as loading makes it -/
def built : List Str → List Schema → Str → Str → Task → Task
  | ns :: nss, b :: bs, n, f, T => includedTask ns (settings b) (fullName nss n) (built nss bs n f T)
  | _, _, n, f, T => { T with name := n, sourcePath := f }

theorem makes_of_provides {files : Files} {p : Str} {nss : List Str} {bs : List Schema} {n f : Str} {T : Task}
    (h : Provides files p nss bs n f T) : Makes files p (fullName nss n) (built nss bs n f T) := by
  induction h with
  | own hf ht => exact .own hf ht
  | inc hi hf _ ih => exact .inc hi hf ih

theorem provides_of_makes {files : Files} {p a : Str} {T' : Task} (h : Makes files p a T') :
    ∃ nss bs n f T, Provides files p nss bs n f T ∧ a = fullName nss n ∧ T' = built nss bs n f T := by
  induction h with
  | own hf ht => exact ⟨_, _, _, _, _, .own hf ht, rfl, rfl⟩
  | inc hi hf _ ih =>
    obtain ⟨nss, bs, n, f, T, h1, rfl, rfl⟩ := ih
    exact ⟨_, _, _, _, _, .inc hi hf h1, rfl, rfl⟩

mutual
theorem prefix_item (ns : Str) : ∀ item, unlinedItem (prefixTaskRun ns item) = prefixTaskRun ns (unlinedItem item)
  | .command v => rfl
  | .task v => rfl
  | .log v => rfl
  | .prompt v => rfl
  | .parallel items labels mode limit color silent output platforms cond ln => by
    simp only [prefixTaskRun, unlinedItem, prefix_items ns items]
theorem prefix_items (ns : Str) : ∀ items, unlinedItems (prefixTaskRuns ns items) = prefixTaskRuns ns (unlinedItems items)
  | [] => rfl
  | item :: items => by simp only [prefixTaskRuns, unlinedItems, prefix_item ns item, prefix_items ns items]
end

theorem core_included {ns : Str} {r r2 : ParseResult} {n : Str} {T T2 : Task} (hv : r2.vars = r.vars) (he : r2.env = r.env)
    (hs : r2.silent = r.silent) (ho : r2.output = r.output) (hd : r2.dir = r.dir) (h : core T2 = core T) :
    core (includedTask ns r2 n T2) = core (includedTask ns r n T) := by
  have key : ∀ (r : ParseResult) (T : Task), core (includedTask ns r n T) = core (includedTask ns r n (core T)) := by
    intro r T
    unfold includedTask
    show core _ = core _
    unfold core
    simp only [prefix_items, Task.mk.injEq, true_and, and_true]
    have : unlinedItems (unlinedItems T.run) = unlinedItems T.run := unlined_twice T.run
    rw [this]
  rw [key r2 T2, key r T, h]
  unfold includedTask
  rw [hv, he, hs, ho, hd]
where
  unlined_twice : ∀ items : List RunItem, unlinedItems (unlinedItems items) = unlinedItems items := by
    intro items
    exact twice items
  twice : ∀ items : List RunItem, unlinedItems (unlinedItems items) = unlinedItems items
    | [] => rfl
    | item :: items => by
      simp only [unlinedItems, twice items, once item]
  once : ∀ item : RunItem, unlinedItem (unlinedItem item) = unlinedItem item
    | .command v => rfl
    | .task v => rfl
    | .log v => rfl
    | .prompt v => rfl
    | .parallel items labels mode limit color silent output platforms cond ln => by
      simp only [unlinedItem, twice items]

theorem core_built {nss : List Str} {bs bs2 : List Schema} (hb : List.Forall₂ SameSettings bs bs2) {n f : Str} {T T2 : Task}
    (h : core T2 = core T) : core (built nss bs2 n f T2) = core (built nss bs n f T) := by
  have base : core ({ T2 with name := n, sourcePath := f } : Task) = core ({ T with name := n, sourcePath := f } : Task) := by
    have : ∀ U : Task, core ({ U with name := n, sourcePath := f } : Task) = { core U with name := n, sourcePath := f } := fun _ => rfl
    rw [this, this, h]
  induction hb generalizing nss with
  | nil => cases nss <;> exact base
  | @cons b b2 bs bs2 hb _ ih =>
    cases nss with
    | nil => exact base
    | cons ns nss => exact core_included hb.vars hb.env hb.silent hb.output hb.dir ih

end Lines

section
variable {w w2 : World} (hw : FilesWF w.files) (hw2 : FilesWF w2.files)
include hw hw2

open Lines in
/-- **C100** A Babfile, or files it includes, are edited, and nothing else. Then a task that can be run before, and that needs nothing
that was edited, does afterwards what it does before: whatever can happen in the one case can happen in the other, with the same
results, apart from the lines in error messages. This holds for every order in which maps are visited, and whatever else was changed
in the files, as long as the result is accepted. -/
theorem C100_edit (hex : w2.ex = w.ex) (hcwd : w2.cwd = w.cwd) (hbase : w2.base = w.base) {v v2 : Visit} (hv : VisitOK v)
    (hv2 : VisitOK v2) {fl : Flags} {p : Str} (hp : Chosen w fl.babfile p) (hacc : Accepted w2.files p) {x name : Str}
    (hx : Means w.files p x name) (hx2 : Means w2.files p x name) (hk : Kept w.files w2.files p name) {c : Cfg} {tasks : TaskMap}
    {gvars : GoMap Str} {m : Str} (h : Cli.runTask w v fl x = .run c tasks gvars m) :
    m = name ∧ ∃ tasks2 : TaskMap, Cli.runTask w2 v2 fl x = .run c tasks2 gvars name ∧
      CanAll (start c tasks gvars name) (start c tasks2 gvars name) ∧ CanAll (start c tasks2 gvars name) (start c tasks gvars name) := by
  have stands : ∀ {files : Files} {m : Str}, Means files p x name → (FileHas files p x → m = x) →
      (∀ a, FileAlias files p x a → m = a) → m = name := by
    rintro files m (⟨h1, rfl⟩ | h1) h2 h3
    · exact h2 h1
    · exact h3 _ h1
  have hchosen : ∀ {q}, Chosen w2 fl.babfile q ↔ Chosen w fl.babfile q := by
    intro q
    unfold Chosen
    rw [hex, hcwd]
  have hto := runTask_tasks hw hv h hp
  obtain ⟨p', b, h1, h2, hb, hwf, hmk, hg, rfl, hn1, hn2, -⟩ := runTask_run hw hv h
  obtain rfl := chosen_unique hp h1
  obtain rfl := stands hx hn1 hn2
  refine ⟨rfl, ?_⟩
  obtain ⟨b2, hb2, hs⟩ := hk.1 b hb
  -- the edited files can be used
  obtain ⟨r, hr⟩ := (C64_load hw2 hv2 fl.babfile).mpr ⟨p, hchosen.mpr hp, hacc⟩
  have hrun : ∃ c2 tasks2 g2 m2, Cli.runTask w2 v2 fl x = .run c2 tasks2 g2 m2 := by
    obtain ⟨q, g1, g2, g3⟩ := loadTasks_ok hw2 hv2 hr
    obtain rfl := chosen_unique (w := w2) g1 (hchosen.mpr hp)
    obtain ⟨-, -, b', hb', hset⟩ := parseFile_ok hw2 hv2.orders _ g3
    rw [hb2] at hb'; cases hb'
    unfold Cli.runTask
    rw [hr]
    dsimp only
    rw [hset.vars, hs.vars, hbase, hg, placed_ok]
    exact ⟨_, _, _, _, rfl⟩
  obtain ⟨c2, tasks2, g2, m2, h'⟩ := hrun
  obtain ⟨p', b', k1, k2, kb, kwf, kmk, kg, rfl, kn1, kn2, -⟩ := runTask_run hw2 hv2 h'
  obtain rfl := chosen_unique (w := w2) (hchosen.mpr hp) k1
  obtain rfl := stands hx2 kn1 kn2
  rw [hb2] at kb; cases kb
  rw [hs.vars, hbase, hg] at kg
  cases kg
  refine ⟨tasks2, ?_, ?_⟩
  · rw [h', hbase, hs.env, hs.silent, hs.output, hs.dir]
  · refine C100_tasks fun n hn => ?_
    have hneed : FileNeeds w.files p m2 n :=
      hn.imp Eq.symm fun hr => Relation.TransGen.mono (fun a b hab => (fileRefers_iff hto.1 a b).mpr hab) _ _ (reaches_iff.mp hr)
    have hthere : ∃ T, tasks.get? n = some T := by
      rcases hn with rfl | hr
      · rcases hx with ⟨hx, rfl⟩ | ⟨nss, bs, n, f, T, hx, rfl, -⟩
        · exact (fileHas_iff hto.1 _).mp hx
        · exact (fileHas_iff hto.1 _).mp ⟨nss, bs, n, f, T, hx, rfl⟩
      · obtain ⟨a, -, hab⟩ := Relation.TransGen.tail'_iff.mp (reaches_iff.mp hr)
        exact hto.2 _ _ hab
    obtain ⟨T, hT⟩ := hthere
    obtain ⟨nss, bs, n', f, U, g1, rfl, rfl⟩ := provides_of_makes ((hmk _ _).mp hT)
    obtain ⟨bs2, U2, g2, g3, g4⟩ := hk.2 _ _ _ _ _ g1 hneed
    rw [hT, (kmk _ _).mpr (makes_of_provides g2)]
    exact congrArg some (core_built g3 g4)

end

namespace Sample

/-- the project after an edit: tasks were added in both files, above the others, so that the lines have changed; a description was
written; and a second file is included -/
def edited : Files :=
  let clean : Task := { name := [], run := [cmd "rm", call "api:gen"] }
  let all : Task := { name := [], desc := s "everything", «alias» := s "a", deps := [s "web:make"], line := 9 }
  let serve : Task := { name := [], deps := [s "make"], run := [cmd "serve"] }
  let make : Task := { name := [], aliases := [s "m"], run := [.command { cmd := s "make", line := 7 }], line := 5 }
  let incs := [(s "web", s "web.yml"), (s "api", s "api.yml")]
  [ (s "/p/Babfile.yml", some { vars := some [(s "v", s "1")], includes := incs, tasks := [(s "clean", clean), (s "all", all)] }),
    (s "/p/web.yml", some { tasks := [(s "serve", serve), (s "make", make)] }),
    (s "/p/api.yml", some { tasks := [(s "gen", { name := [], run := [cmd "gen"] })] }) ]

theorem edited_wf : FilesWF edited := files_wf (by decide +kernel)

theorem edited_accepted : ∃ p, Chosen (desk project) [] p ∧ Accepted edited p := by
  refine (C64_load (w := { desk project with files := edited }) edited_wf plainly_ok []).mp ?_
  have : (match loadTasks { desk project with files := edited } plainly [] with | .ok _ => true | .error _ => false) = true := by
    decide +kernel
  split at this
  · exact ⟨_, by assumption⟩
  · cases this

theorem chosen_root : Chosen (desk project) [] (s "/p/Babfile.yml") :=
  ⟨s "/p/Babfile.yml", by decide +kernel, by decide +kernel, by decide +kernel⟩

theorem web_included : Includes edited (s "/p/Babfile.yml") (s "web") (s "/p/web.yml") := ⟨_, s "web.yml", rfl, rfl, by decide +kernel⟩

/-- what `all` needs is the same after the edit -/
theorem edited_kept : Kept project edited (s "/p/Babfile.yml") (s "all") := by
  constructor
  · intro b hb
    cases hb
    exact ⟨_, rfl, rfl, rfl, rfl, rfl, rfl⟩
  · intro nss bs n f T h _
    cases h with
    | own hf ht =>
      cases hf
      simp only [GoMap.get?] at ht
      split at ht
      · rename_i hn
        cases ht
        subst hn
        exact ⟨[], _, .own rfl rfl, .nil, rfl⟩
      · cases ht
    | inc hi hf hp =>
      obtain ⟨bf, inc, h1, h2, rfl⟩ := hi
      cases h1
      simp only [GoMap.get?] at h2
      split at h2
      · rename_i hn
        cases h2
        subst hn
        have hq : includePath (dirPath (s "/p/Babfile.yml")) (s "web.yml") = s "/p/web.yml" := by decide +kernel
        rw [hq] at hp hf
        cases hf
        cases hp with
        | own hf ht =>
          cases hf
          simp only [GoMap.get?] at ht
          split at ht
          · rename_i hn
            cases ht
            subst hn
            exact ⟨[_], _, .inc web_included rfl (.own rfl rfl), .cons ⟨rfl, rfl, rfl, rfl, rfl⟩ .nil, rfl⟩
          · cases ht
        | inc hi _ _ =>
          obtain ⟨bf, inc, h1, h2, -⟩ := hi
          cases h1
          cases h2
      · cases h2

/-- so `bab a` does what it did before -/
example (v v2 : Visit) (hv : VisitOK v) (hv2 : VisitOK v2) {c : Cfg} {tasks : TaskMap} {gvars : GoMap Str} {m : Str}
    (h : Cli.runTask (desk project) v {} (s "a") = .run c tasks gvars m) :
    m = s "all" ∧ ∃ tasks2 : TaskMap, Cli.runTask { desk project with files := edited } v2 {} (s "a") = .run c tasks2 gvars (s "all") ∧
      CanAll (start c tasks gvars (s "all")) (start c tasks2 gvars (s "all")) ∧
      CanAll (start c tasks2 gvars (s "all")) (start c tasks gvars (s "all")) := by
  obtain ⟨p, h1, h2⟩ := edited_accepted
  obtain rfl := chosen_unique h1 chosen_root
  exact C100_edit (w := desk project) (w2 := { desk project with files := edited }) project_wf edited_wf rfl rfl rfl hv hv2
    chosen_root h2 (.inr ⟨[], [], s "all", _, _, .own rfl rfl, rfl, List.mem_cons_self⟩)
    (.inr ⟨[], [], s "all", _, _, .own rfl rfl, rfl, List.mem_cons_self⟩) edited_kept h

/-- and there is something to run -/
example : bab project plainly {} ["a"] = ("run", [s "all", s "all", s "web:make"]) := by decide +kernel

/-- The lines do change: an error that is the same apart from its line. -/
example : unlinedErr (.wrap (.place 3) (.varNotFound (s "x"))) = unlinedErr (.wrap (.place 7) (.varNotFound (s "x"))) ∧
    unlinedErr (.wrap (.place 3) (.varNotFound (s "x"))) ≠ unlinedErr (.wrap (.place 3) (.varNotFound (s "y"))) := by
  constructor
  · rfl
  · intro h
    simp [unlinedErr, s] at h

end Sample

end Bab
