import Verif.Spec.Document
import Verif.Props.Cli
import Verif.Props.Confine
import Verif.Props.Command
import Verif.Props.Unmarshal
import Verif.Proof.RenRun
/-
C80: every command that is started, every message and every prompt stands in a Babfile.
-/

namespace Bab
open Spec Bab.Cli

namespace Docs
open Bab.Yaml Bab.Yaml.Spec

/-- the tasks of an invocation are those of its file -/
theorem tasksOf {files : Files} (hw : FilesWF files) {p : Str} (ha : Accepted files p) {tasks : TaskMap} (hwf : tasks.WF)
    (hm : ∀ a T, tasks.get? a = some T ↔ Makes files p a T) : TasksOf files p tasks := by
  obtain ⟨r, hr⟩ := (C35_loads hw Sample.asWritten_ok).mpr ha.loads
  obtain ⟨-, hto, -⟩ := parseFile_ok hw Sample.asWritten_ok _ hr
  have hget : ∀ k, tasks.get? k = r.tasks.get? k := fun k => by
    apply Option.ext
    intro T
    rw [hm, parseFile_makes hw Sample.asWritten_ok _ hr]
  refine ⟨hwf, fun full T' h => hto.sound full T' (by rw [← hget]; exact h), fun nss bs n f T h => ?_, fun full T' h => hto.maps full T' (by rw [← hget]; exact h)⟩
  obtain ⟨T', h1, h2⟩ := hto.complete nss bs n f T h
  exact ⟨T', by rw [hget]; exact h1, h2⟩

theorem bareItems_map (items : List RunItem) : bareItems items = items.map bareItem := by
  induction items with
  | nil => rfl
  | cons a l ih => simp [bareItems, ih]

/-- the change that including makes to an item -/
def change (nss : List Str) (it : RunItem) : RunItem := renameItem (fullName nss) (if nss = [] then it else bareItem it)

theorem run_eq {nss : List Str} {bs : List Schema} {n f : Str} {T T' : Task} (h : AsIncluded nss bs n f T T') :
    T'.run = T.run.map (change nss) := by
  rw [h.run, Ren.renameItems_map]
  unfold change
  split
  · rfl
  · rw [bareItems_map, List.map_map]; rfl

theorem forall₂_get {α β : Type} {R : α → β → Prop} {l : List α} {l' : List β} (h : List.Forall₂ R l l') {i : Nat} {b : β}
    (hb : l'[i]? = some b) : ∃ a, l[i]? = some a ∧ R a b := by
  induction h generalizing i with
  | nil => simp at hb
  | cons h _ ih =>
    cases i with
    | zero => simp at hb; subst hb; exact ⟨_, rfl, h⟩
    | succ i => simp at hb; obtain ⟨a, h1, h2⟩ := ih hb; exact ⟨a, by simpa using h1, h2⟩

/-- an item that is no block is what its mapping says -/
theorem describes_simple {d : Decoders} {n : Node} {it : RunItem} (h : Describes d n it)
    (hit : ∀ items labels mode lim color s o pl w ln, it ≠ .parallel items labels mode lim color s o pl w ln) :
    ∃ line es, n = .map line es ∧ Simple d line es it := by
  cases it with
  | parallel items labels mode lim color s o pl w ln => exact (hit _ _ _ _ _ _ _ _ _ _ rfl).elim
  | command v => obtain ⟨line, es, h1, -, h2⟩ := h; exact ⟨line, es, h1, h2⟩
  | task v => obtain ⟨line, es, h1, -, h2⟩ := h; exact ⟨line, es, h1, h2⟩
  | log v => obtain ⟨line, es, h1, -, h2⟩ := h; exact ⟨line, es, h1, h2⟩
  | prompt v => obtain ⟨line, es, h1, -, h2⟩ := h; exact ⟨line, es, h1, h2⟩

/-- the item at a place of an included task, and where it stands in the document -/
theorem stands {d : Decoders} {docs : GoMap (Option Node)} {files : Files} (hread : ReadFrom d docs files) {tasks : TaskMap} {p : Str}
    (hto : TasksOf files p tasks) {loc : Loc} {it : RunItem} (hit : itemAt tasks loc = some it)
    (hnp : ∀ items labels mode lim color s o pl w ln, it ≠ .parallel items labels mode lim color s o pl w ln) :
    ∃ nss bs n f T T' ts es it' line, Provides files p nss bs n f T ∧ loc.task = fullName nss n ∧ tasks.get? loc.task = some T' ∧
      AsIncluded nss bs n f T T' ∧ Stands docs f n loc.item loc.sub ts es ∧ T.dir = text "dir".toList ts ∧
      it = change nss it' ∧ Simple d line es it' := by
  obtain ⟨a, i, sub⟩ := loc
  dsimp only
  unfold itemAt at hit
  dsimp only at hit
  cases hT' : tasks.get? a with
  | none => rw [hT'] at hit; cases hit
  | some T' =>
    rw [hT'] at hit
    dsimp only at hit
    obtain ⟨nss, bs, n, f, T, h1, rfl, h3⟩ := hto.sound _ _ hT'
    have hf : ∃ b, files.get? f = some (some b) ∧ b.tasks.get? n = some T := by
      clear hT' h3 hit hto
      induction h1 with
      | own hf ht => exact ⟨_, hf, ht⟩
      | inc _ _ _ ih => exact ih
    obtain ⟨b, hf, hbT⟩ := hf
    obtain ⟨doc, hdoc, hun⟩ := hread _ _ hf
    obtain ⟨l, root, rfl, hfi⟩ := C40_file d hun
    cases hl : last n (entriesOf "tasks".toList root) with
    | none => rw [hfi.others n hl] at hbT; cases hbT
    | some node =>
      obtain ⟨t, ht, hti, -, -⟩ := hfi.tasks n node hl
      rw [hbT] at ht; cases ht
      obtain ⟨l1, ts, rfl, -, -, -, -, -, -, -, hdir, -, -, -, hrun⟩ := hti
      rw [run_eq h3] at hit
      simp only [List.getElem?_map] at hit
      cases hlr : last "run".toList ts with
      | none =>
        rw [hlr] at hrun
        simp only [RunIs] at hrun
        rw [hrun] at hit
        cases sub <;> simp at hit
      | some rn =>
        rw [hlr] at hrun
        cases rn with
        | seq lr ns =>
          simp only [RunIs] at hrun
          cases sub with
          | none =>
            dsimp only at hit
            cases hi : T.run[i]? with
            | none => rw [hi] at hit; cases hit
            | some it' =>
              rw [hi] at hit
              cases hit
              obtain ⟨node, hn, hd⟩ := forall₂_get hrun hi
              have hnp' : ∀ items labels mode lim color s o pl w ln, it' ≠ .parallel items labels mode lim color s o pl w ln := by
                rintro items labels mode lim color s o pl w ln rfl
                unfold change at hnp
                split at hnp
                · exact hnp _ _ _ _ _ _ _ _ _ _ rfl
                · exact hnp _ _ _ _ _ _ _ _ _ _ rfl
              obtain ⟨line, es, rfl, hs⟩ := describes_simple hd hnp'
              exact ⟨nss, bs, n, f, T, T', ts, es, it', line, h1, rfl, rfl, h3, ⟨l, root, l1, line, hdoc, hl, lr, ns, hlr, hn⟩, hdir, rfl, hs⟩
          | some j =>
            dsimp only at hit
            cases hi : T.run[i]? with
            | none => rw [hi] at hit; cases hit
            | some blk =>
              rw [hi] at hit
              obtain ⟨node, hn, hd⟩ := forall₂_get hrun hi
              cases blk with
              | command v => unfold change at hit; split at hit <;> simp_all [renameItem, bareItem]
              | task v => unfold change at hit; split at hit <;> simp_all [renameItem, bareItem]
              | log v => unfold change at hit; split at hit <;> simp_all [renameItem, bareItem]
              | prompt v => unfold change at hit; split at hit <;> simp_all [renameItem, bareItem]
              | parallel items labels mode lim color s o pl w ln =>
                have hit' : (items.map (change nss))[j]? = some it := by
                  by_cases hns : nss = []
                  · simp only [Option.map_some, change, hns, if_true, renameItem, Ren.renameItems_map] at hit
                    unfold change
                    simpa [hns] using hit
                  · simp only [Option.map_some, change, hns, if_false, renameItem, bareItem, Ren.renameItems_map, bareItems_map] at hit
                    unfold change
                    simpa [hns] using hit
                rw [List.getElem?_map] at hit'
                cases hj : items[j]? with
                | none => rw [hj] at hit'; cases hit'
                | some it' =>
                  rw [hj] at hit'
                  cases hit'
                  obtain ⟨es, l2, ns', rfl, hp, -, -, hfor, -⟩ := hd
                  obtain ⟨sn, hsn, line, es', rfl, -, hs, -⟩ := forall₂_get hfor hj
                  exact ⟨nss, bs, n, f, T, T', ts, es', it', line, h1, rfl, rfl, h3,
                    ⟨l, root, l1, line, hdoc, hl, lr, ns, hlr, ln, es, l2, ns', hn, hp, hsn⟩, hdir, rfl, hs⟩
        | _ => exact absurd hrun (by simp [RunIs])

/-! ### directories -/

theorem isAbs_clean {p : Str} (h : p.head? = some '/') : (cleanPath p).head? = some '/' := by
  rw [cleanPath_abs h]; exact pathOf_abs _

theorem isAbs_join {a : Str} (b : Str) (h : a.head? = some '/') : (joinPath a b).head? = some '/' := by
  unfold joinPath
  split
  · next h0 => rw [h0] at h; cases h
  · split
    · exact isAbs_clean h
    · refine isAbs_clean ?_
      cases a with
      | nil => cases h
      | cons c a => exact h

theorem isAbs_passes {files : Files} {p : Str} {nss qs : List Str} (h : Passes files p nss qs) (hp : p.head? = some '/') :
    ∀ q ∈ p :: qs, q.head? = some '/' := by
  induction h with
  | here p => simpa using hp
  | @step p ns q nss qs hi _ ih =>
    obtain ⟨bf, inc, -, -, rfl⟩ := hi
    have hq : (includePath (dirPath p) inc).head? = some '/' := by
      unfold includePath
      split
      · next ha => exact isAbs_clean (by simpa [isAbs] using ha)
      · refine isAbs_clean (isAbs_join _ ?_)
        rw [dirPath_abs hp]; exact pathOf_abs _
    intro x hx
    rcases List.mem_cons.mp hx with rfl | hx
    · exact hp
    · exact ih hq x hx

theorem isAbs_chosen {w : World} (hcwd : w.cwd.head? = some '/') {bf p : Str} (h : Chosen w bf p) : p.head? = some '/' := by
  obtain ⟨path, -, -, rfl⟩ := h
  unfold absolute
  split
  · next h => simpa [isAbs] using h
  · exact isAbs_join _ hcwd

theorem dirSetting_find {dirs : List Str} {d : Str} : DirSetting dirs d ↔ dirs.find? (fun x => decide (x ≠ [])) = some d := by
  rw [List.find?_eq_some_iff_append]
  unfold DirSetting
  constructor
  · rintro ⟨u, r, rfl, h1, h2⟩
    exact ⟨by simpa using h1, u, r, rfl, fun x hx => by simpa using h2 x hx⟩
  · rintro ⟨h1, u, r, rfl, h2⟩
    exact ⟨u, r, rfl, by simpa using h1, fun x hx => by simpa using h2 x hx⟩

theorem firstOf_find (dirs : List Str) : Spec.firstOf (dirs.map nonEmpty) = dirs.find? (fun x => decide (x ≠ [])) := by
  induction dirs with
  | nil => rfl
  | cons a l ih =>
    by_cases h : a = []
    · rw [List.map_cons, List.find?_cons_of_neg (by simpa using h)]
      simp only [nonEmpty, h, if_true, Spec.firstOf]
      exact ih
    · rw [List.map_cons, List.find?_cons_of_pos (by simpa using h)]
      simp only [nonEmpty, h, if_false, Spec.firstOf]

/-- settings of a task as it is included, and those of the files, put together -/
theorem find_dirs (a : Str) (mid : List Str) (g : Str) :
    [a, (mid.find? (fun x => decide (x ≠ []))).getD [], g].find? (fun x => decide (x ≠ [])) =
      (a :: mid ++ [g]).find? (fun x => decide (x ≠ [])) := by
  simp only [List.cons_append, List.find?_cons, List.find?_append, List.find?_nil]
  by_cases ha : a = []
  · simp only [ha, ne_eq, not_true, decide_false]
    cases h : mid.find? (fun x => decide (x ≠ [])) with
    | none => simp
    | some y =>
      have hy : y ≠ [] := by simpa using List.find?_some h
      simp [hy]
  · simp [ha]

/-- following the includes to a task passes files, with the settings of their documents -/
theorem passes {d : Decoders} {docs : GoMap (Option Node)} {files : Files} (hread : ReadFrom d docs files) {p : Str} {nss : List Str}
    {bs : List Schema} {n f : Str} {T : Task} (h : Provides files p nss bs n f T) :
    ∃ qs, Passes files p nss qs ∧ (p :: qs).getLast? = some f ∧ bs.map (·.dir) = qs.map (dirSetting docs) := by
  induction h with
  | own hf ht => exact ⟨[], .here _, rfl, rfl⟩
  | @inc p ns q b nss bs n f T hi hf _ ih =>
    obtain ⟨qs, h1, h2, h3⟩ := ih
    refine ⟨q :: qs, .step hi h1, by rw [List.getLast?_cons_cons]; exact h2, ?_⟩
    obtain ⟨doc, hdoc, hun⟩ := hread _ _ hf
    obtain ⟨l, root, rfl, hfi⟩ := C40_file d hun
    simp only [List.map_cons, h3]
    rw [hfi.dir]
    simp [dirSetting, hdoc]

theorem dir_of_doc {d : Decoders} {docs : GoMap (Option Node)} {files : Files} (hread : ReadFrom d docs files) {p : Str} {b : Schema}
    (h : files.get? p = some (some b)) : b.dir = dirSetting docs p := by
  obtain ⟨doc, hdoc, hun⟩ := hread _ _ h
  obtain ⟨l, root, rfl, hfi⟩ := C40_file d hun
  rw [hfi.dir]
  simp [dirSetting, hdoc]

theorem needs_refers {files : Files} {p : Str} {tasks : TaskMap} (hto : TasksOf files p tasks) {a b : Str} (h : Needs tasks a b) :
    Relation.ReflTransGen (FileRefers files p) a b := by
  rcases h with rfl | h
  · exact .refl
  · induction h with
    | one h => exact .single ((fileRefers_iff hto _ _).mpr h)
    | more h _ ih => exact .head ((fileRefers_iff hto _ _).mpr h) ih

end Docs

section
open Bab.Yaml Bab.Yaml.Spec
variable {d : Decoders} {docs : GoMap (Option Node)} {w : World} {fl : Flags} {x name : Str} {c : Cfg} {tasks : TaskMap} {gvars : GoMap Str}
  {s : State}

/-- what all the theorems below have in common: where an item stands -/
theorem Docs.of_item (hread : ReadFrom d docs w.files) (hR : RunsFor w fl x c tasks gvars name) (h : Reach (start c tasks gvars name) s)
    {e : Ev} (he : e ∈ s.sh.trace) {loc : Loc} (habout : about e = some loc.task) {it : RunItem} (hit : itemAt tasks loc = some it)
    (hnp : ∀ items labels mode lim color s o pl w ln, it ≠ .parallel items labels mode lim color s o pl w ln) :
    ∃ p nss qs f n ts es it' line T', Chosen w fl.babfile p ∧ Passes w.files p nss qs ∧ (p :: qs).getLast? = some f ∧
      Relation.ReflTransGen (FileRefers w.files p) name loc.task ∧ loc.task = fullName nss n ∧
      Stands docs f n loc.item loc.sub ts es ∧ it = Docs.change nss it' ∧ Simple d line es it' ∧
      tasks.get? loc.task = some T' ∧ T'.sourcePath = f ∧
      ∀ y, [y, T'.dir, c.globalDir].find? (fun x => decide (x ≠ [])) =
        (y :: text "dir".toList ts :: ((p :: qs).map (dirSetting docs)).reverse).find? (fun x => decide (x ≠ [])) := by
  have hw := C40_files_wf d docs w.files hread
  obtain ⟨p, b, g1, g2, g3, g4, g5, g6, g7, -⟩ := hR.file
  have hto := Docs.tasksOf hw g2 g4 g5
  obtain ⟨nss, bs, n, f, T, T', ts, es, it', line, h1, h2, h3, h4, h5, h6, h7, h8⟩ := Docs.stands hread hto hit hnp
  obtain ⟨qs, q1, q2, q3⟩ := Docs.passes hread h1
  refine ⟨p, nss, qs, f, n, ts, es, it', line, T', g1, q1, q2, Docs.needs_refers hto (C62_confined h he habout), h2, h5, h7, h8, h3, h4.source, fun y => ?_⟩
  have hdir : T'.dir = ((text "dir".toList ts :: (qs.map (dirSetting docs)).reverse).find? (fun x => decide (x ≠ []))).getD [] := by
    rw [h4.dir, ← Docs.firstOf_find, ← q3, List.map_cons, ← h6, ← List.map_reverse, List.map_map]
    rfl
  have hg : c.globalDir = dirSetting docs p := by rw [g7]; exact Docs.dir_of_doc hread g3
  rw [hdir, hg, Docs.find_dirs]
  simp

/-- C80. Every command that is started stands in a Babfile: in the document of the file the invocation reads, or of one it includes,
there is a task, the requested one or one that is referred to from it, and at the place of the command an entry with `cmd`, whose text,
expanded with the variables the item sees, is what the shell gets. The command runs in the directory that is given most
specifically, by the entry, the task, the file and the files between it and the one the invocation reads; this is seen from the
directory of the file in which the command stands, which is also the directory if none is given. -/
theorem C80_command (hread : ReadFrom d docs w.files) (hR : RunsFor w fl x c tasks gvars name) (h : Reach (start c tasks gvars name) s)
    {loc : Loc} {spec : ProcSpec} (he : .procStart loc spec ∈ s.sh.trace) :
    ∃ p nss qs f n ts es m, Chosen w fl.babfile p ∧ Passes w.files p nss qs ∧ (p :: qs).getLast? = some f ∧
      Relation.ReflTransGen (FileRefers w.files p) name loc.task ∧ loc.task = fullName nss n ∧
      Stands docs f n loc.item loc.sub ts es ∧ kinds es = ["cmd".toList] ∧ .sees loc m ∈ s.sh.trace ∧
      interpolate (text "cmd".toList es) ⟨m, c.env⟩ = .ok spec.cmd ∧
      (w.cwd.head? = some '/' →
        (∀ dir, DirSetting (text "dir".toList es :: text "dir".toList ts :: ((p :: qs).map (dirSetting docs)).reverse) dir →
          ∃ y, interpolate dir ⟨m, c.env⟩ = .ok y ∧ spec.dir = pathOf (seenFrom (dirOf f) y)) ∧
        ((¬ ∃ dir, DirSetting (text "dir".toList es :: text "dir".toList ts :: ((p :: qs).map (dirSetting docs)).reverse) dir) →
          spec.dir = pathOf (dirOf f))) := by
  obtain ⟨a, b, ht⟩ := List.append_of_mem he
  obtain ⟨T, v, g, m0, call, tenv, m, cmdText, env, dir, fr, k1, k2, k3, k4, k5, k6, k7, k8, -⟩ := proc_facts h ht
  obtain ⟨p, nss, qs, f, n, ts, es, it', line, T', h1, h2, h3, h4, h5, h6, h7, h8, h9, h10, h11⟩ := Docs.of_item hread hR h he rfl k2
    (fun _ _ _ _ _ _ _ _ _ _ hx => by cases hx)
  rw [k1] at h9; cases h9
  have hit : it' = .command v := by
    unfold Docs.change at h7
    cases it' <;> split at h7 <;> simp_all [renameItem, bareItem]
  subst hit
  obtain ⟨s1, s2, s3, -⟩ := h8
  obtain ⟨p1, -, p3⟩ := prepare_inv k6
  have hcmd : spec.cmd = cmdText := by rw [k8]; rfl
  have hdir : spec.dir = dir := by rw [k8]; rfl
  refine ⟨p, nss, qs, f, n, ts, es, m, h1, h2, h3, h4, h5, h6, s1, by rw [ht]; simp [k5], ?_, fun hcwd => ?_⟩
  · rw [← s2, hcmd]; exact p1
  · have habs : T.sourcePath.head? = some '/' := by
      rw [h10]
      exact Docs.isAbs_passes h2 (Docs.isAbs_chosen hcwd h1) f (List.mem_of_getLast? h3)
    have key : ∀ y, DirSetting (text "dir".toList es :: text "dir".toList ts :: ((p :: qs).map (dirSetting docs)).reverse) y ↔ DirSetting [v.dir, T.dir, c.globalDir] y := by
      intro y
      rw [Docs.dirSetting_find, Docs.dirSetting_find, h11, s3]
    rw [hdir, ← h10]
    constructor
    · intro y hy
      obtain ⟨y', q1, q2, -⟩ := (C30_resolveDir habs _ ((key y).mp hy) dir).mp p3
      exact ⟨y', q1, q2⟩
    · intro hy
      rw [C30_default habs _ (fun ⟨y, h⟩ => hy ⟨y, (key y).mpr h⟩)] at p3
      cases p3; rfl

/-- C80. Every message that is logged stands in a Babfile, with its level. -/
theorem C80_message (hread : ReadFrom d docs w.files) (hR : RunsFor w fl x c tasks gvars name) (h : Reach (start c tasks gvars name) s)
    {loc : Loc} {msg level : Str} {o : Option Sink} (he : .logged loc msg level o ∈ s.sh.trace) :
    ∃ p nss qs f n ts es m, Chosen w fl.babfile p ∧ Passes w.files p nss qs ∧ (p :: qs).getLast? = some f ∧
      Relation.ReflTransGen (FileRefers w.files p) name loc.task ∧ loc.task = fullName nss n ∧
      Stands docs f n loc.item loc.sub ts es ∧ kinds es = ["log".toList] ∧ .sees loc m ∈ s.sh.trace ∧
      interpolate (text "log".toList es) ⟨m, c.env⟩ = .ok msg ∧
      level = if text "level".toList es = [] then "info".toList else text "level".toList es := by
  obtain ⟨a, b, ht⟩ := List.append_of_mem he
  obtain ⟨-, l, m, k2, k3, k4, k5⟩ := Safe.event_ok h ht
  obtain ⟨p, nss, qs, f, n, ts, es, it', line, T', h1, h2, h3, h4, h5, h6, h7, h8, -⟩ := Docs.of_item hread hR h he rfl k2
    (fun _ _ _ _ _ _ _ _ _ _ hx => by cases hx)
  have hit : it' = .log l := by
    unfold Docs.change at h7
    cases it' <;> split at h7 <;> simp_all [renameItem, bareItem]
  subst hit
  obtain ⟨s1, s2, s3, -⟩ := h8
  exact ⟨p, nss, qs, f, n, ts, es, m, h1, h2, h3, h4, h5, h6, s1, by rw [ht]; simp [k3], by rw [← s2]; exact k4, by rw [k5]; exact s3⟩

/-- C80. What a dry run says it would run stands in a Babfile. -/
theorem C80_dry_run (hread : ReadFrom d docs w.files) (hR : RunsFor w fl x c tasks gvars name) (h : Reach (start c tasks gvars name) s)
    {loc : Loc} {msg : Str} (he : .wouldRun loc msg ∈ s.sh.trace) :
    ∃ p nss qs f n ts es m, Chosen w fl.babfile p ∧ Passes w.files p nss qs ∧ (p :: qs).getLast? = some f ∧
      Relation.ReflTransGen (FileRefers w.files p) name loc.task ∧ loc.task = fullName nss n ∧
      Stands docs f n loc.item loc.sub ts es ∧ kinds es = ["cmd".toList] ∧ .sees loc m ∈ s.sh.trace ∧
      interpolate (text "cmd".toList es) ⟨m, c.env⟩ = .ok msg := by
  obtain ⟨a, b, ht⟩ := List.append_of_mem he
  obtain ⟨-, v, m, k2, k3, k4⟩ := Safe.event_ok h ht
  obtain ⟨p, nss, qs, f, n, ts, es, it', line, T', h1, h2, h3, h4, h5, h6, h7, h8, -⟩ := Docs.of_item hread hR h he rfl k2
    (fun _ _ _ _ _ _ _ _ _ _ hx => by cases hx)
  have hit : it' = .command v := by
    unfold Docs.change at h7
    cases it' <;> split at h7 <;> simp_all [renameItem, bareItem]
  subst hit
  obtain ⟨s1, s2, -⟩ := h8
  exact ⟨p, nss, qs, f, n, ts, es, m, h1, h2, h3, h4, h5, h6, s1, by rw [ht]; simp [k3], by rw [← s2]; exact k4⟩

/-- C80. Every prompt that is answered stands in a Babfile, with the name of its variable. -/
theorem C80_prompt (hread : ReadFrom d docs w.files) (hR : RunsFor w fl x c tasks gvars name) (h : Reach (start c tasks gvars name) s)
    {loc : Loc} {var : Str} {r : Except Err Str} (he : .answered loc var r ∈ s.sh.trace) :
    ∃ p nss qs f n ts es, Chosen w fl.babfile p ∧ Passes w.files p nss qs ∧ (p :: qs).getLast? = some f ∧
      Relation.ReflTransGen (FileRefers w.files p) name loc.task ∧ loc.task = fullName nss n ∧
      Stands docs f n loc.item loc.sub ts es ∧ kinds es = ["prompt".toList] ∧ var = text "prompt".toList es := by
  obtain ⟨a, b, ht⟩ := List.append_of_mem he
  have hk : ∃ pr, itemAt tasks loc = some (.prompt pr) ∧ var = pr.prompt := by
    obtain ⟨-, pr, p', m, q1, -, -, q2, -⟩ := Safe.event_ok h ht
    exact ⟨pr, q1, q2⟩
  obtain ⟨pr, k2, k3⟩ := hk
  obtain ⟨p, nss, qs, f, n, ts, es, it', line, T', h1, h2, h3, h4, h5, h6, h7, h8, -⟩ := Docs.of_item hread hR h he rfl k2
    (fun _ _ _ _ _ _ _ _ _ _ hx => by cases hx)
  have hit : it' = .prompt pr := by
    unfold Docs.change at h7
    cases it' <;> split at h7 <;> simp_all [renameItem, bareItem]
  subst hit
  obtain ⟨s1, s2, -⟩ := h8
  exact ⟨p, nss, qs, f, n, ts, es, h1, h2, h3, h4, h5, h6, s1, by rw [k3]; exact s2⟩

/-- Whenever an invocation runs something, for a name that is given or chosen, the theorems above apply. -/
theorem C80_invoked (hread : ReadFrom d docs w.files) {v v' : Visit} (hv : VisitOK v) (hv' : VisitOK v') {args : List Str} {pick : Pick}
    (h : run w w v v' fl args pick = .run c tasks gvars name) : ∃ x, RunsFor w fl x c tasks gvars name := by
  have hw := C40_files_wf d docs w.files hread
  have hno : ¬ (fl.completion ≠ [] ∨ fl.validate = true ∨ fl.listTasks = true) := fun hm => C64_nothing_runs hm h
  rw [not_or, not_or, not_not] at hno
  cases args with
  | cons x more =>
    unfold run at h
    rw [if_neg (by simpa using hno.1), if_neg hno.2.1, if_neg hno.2.2] at h
    exact ⟨x, runTask_run hw hv h⟩
  | nil =>
    unfold run at h
    rw [if_neg (by simpa using hno.1), if_neg hno.2.1, if_neg hno.2.2] at h
    unfold runInteractive at h
    dsimp only at h
    split at h
    · cases h
    · split at h
      · cases h
      · cases h
      · exact ⟨_, runTask_run hw hv' h⟩

end

namespace Sample
open Bab.Yaml Bab.Yaml.Spec

/-- a text -/
def word (t : String) : Node := .scalar 1 [] (s t)
/-- a mapping -/
def table (es : List (String × Node)) : Node := .map 1 (es.map fun e => (word e.1, e.2))

/-- The document of `/p/Babfile.yml`: it includes `/p/web/Babfile.yml` as `web`; the task `all` calls `web:make`. -/
def rootDoc : Node := table [("includes", table [("web", table [("babfile", word "web/Babfile.yml")])]), ("tasks", table [("all", table [
  ("run", .seq 1 [table [("task", word "web:make")], table [("cmd", word "echo done"), ("dir", word "out")]])])])]

/-- The document of `/p/web/Babfile.yml`: the task `make` has a block with two commands. -/
def webDoc : Node := table [("vars", table [("cc", word "gcc")]), ("tasks", table [("make", table [
  ("run", .seq 1 [table [("parallel", .seq 1 [table [("cmd", word "${{ cc }} a.c")], table [("log", word "hi")]])]])])])]

/-- both documents -/
def bothDocs : GoMap (Option Node) := [(s "/p/Babfile.yml", some rootDoc), (s "/p/web/Babfile.yml", some webDoc)]

/-- reading of includes: the text of `babfile` -/
def readsIncludes : Decoders := { Yaml.Sample.decoders with inc := fun n => match n with | .map _ es => some (text (s "babfile") es) | _ => none }

/-- what reading them gives -/
def bothFiles : Files := bothDocs.map fun q => (q.1, match unmarshalDoc readsIncludes q.2 with | .ok b => some b | .error _ => none)

theorem both_read : ReadFrom readsIncludes bothDocs bothFiles := by
  intro p bf h
  have hm := GoMap.mem_of_get? h
  unfold bothFiles at hm
  obtain ⟨⟨q, doc⟩, h1, h2⟩ := List.mem_map.mp hm
  simp only [Prod.mk.injEq] at h2
  obtain ⟨rfl, h2⟩ := h2
  refine ⟨doc, GoMap.get?_of_mem (show List.Nodup _ by decide +kernel) h1, ?_⟩
  split at h2
  · next b hb => cases h2; exact hb
  · cases h2

/-- what `bab all` runs there -/
def bothRun : Outcome := run (desk bothFiles) (desk bothFiles) plainly plainly {} [s "all"] .killed

/-- the commands that are started, with their directories -/
def startedIn (o : Outcome) : List (Loc × Str × Str) :=
  match o with
  | .run c tasks gvars name => (Exec.drive [.auto 300] (start c tasks gvars name)).sh.trace.filterMap fun e =>
      match e with | .procStart loc spec => some (loc, spec.cmd, spec.dir) | _ => none
  | _ => []

/-- a command of the block in the included file, and one of the main file, each in a directory seen from its file -/
example : startedIn bothRun = [(⟨s "web:make", 0, some 0⟩, s "gcc a.c", s "/p/web"), (⟨s "all", 1, none⟩, s "echo done", s "/p/out")] := by decide +kernel

/-- so the theorem applies to each of them -/
example {c : Cfg} {tasks : TaskMap} {gvars : GoMap Str} {name : Str} (h : bothRun = .run c tasks gvars name) :
    ∃ x, RunsFor (desk bothFiles) {} x c tasks gvars name :=
  C80_invoked (w := desk bothFiles) both_read plainly_ok plainly_ok h

/-- the first one stands there -/
example : Stands bothDocs (s "/p/web/Babfile.yml") (s "make") 0 (some 0) [(word "run", .seq 1 [table [("parallel", .seq 1 [
    table [("cmd", word "${{ cc }} a.c")], table [("log", word "hi")]])]])] [(word "cmd", word "${{ cc }} a.c")] :=
  ⟨1, _, 1, 1, rfl, rfl, 1, _, rfl, 1, _, 1, _, rfl, rfl, rfl⟩

end Sample

end Bab
