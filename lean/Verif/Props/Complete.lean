import Verif.Spec.Complete
import Verif.Props.Document
/-
C82: nothing that stands in a Babfile is passed over.
-/

namespace Bab
open Spec Cli

namespace Docs
open Bab.Yaml Bab.Yaml.Spec

theorem forall₂_get' {α β : Type} {R : α → β → Prop} {l : List α} {l' : List β} (h : List.Forall₂ R l l') {i : Nat} {a : α}
    (ha : l[i]? = some a) : ∃ b, l'[i]? = some b ∧ R a b := by
  induction h generalizing i with
  | nil => simp at ha
  | cons h _ ih =>
    cases i with
    | zero => simp at ha; subst ha; exact ⟨_, rfl, h⟩
    | succ i => simp at ha; obtain ⟨b, h1, h2⟩ := ih ha; exact ⟨b, by simpa using h1, h2⟩

theorem not_noKey {key : Str} {es : List (Node × Node)} {v : Node} (h : last key es = some v) : ¬ NoKey key es := by
  intro hno
  unfold last at h
  cases hg : (es.filter (fun e => e.1.value = key)).getLast? with
  | none => rw [hg] at h; cases h
  | some e =>
    have hm := List.mem_of_getLast? hg
    rw [List.mem_filter] at hm
    exact hno e hm.1 (by simpa using hm.2)

/-- including changes neither platforms nor conditions -/
theorem change_platforms (nss : List Str) (it : RunItem) : (change nss it).platforms = it.platforms := by
  unfold change
  cases it <;> split <;> rfl

theorem change_cond (nss : List Str) (it : RunItem) : (change nss it).cond = it.cond := by
  unfold change
  cases it <;> split <;> rfl

theorem simple_platforms {d : Decoders} {line : Nat} {es : List (Node × Node)} {it : RunItem} (h : Simple d line es it) :
    it.platforms = ((last "platforms".toList es).bind d.strs).getD [] ∧ it.cond = text "when".toList es := by
  cases it with
  | command v => obtain ⟨-, -, -, -, -, -, h1, h2, -⟩ := h; exact ⟨h1.1, h2⟩
  | task v => obtain ⟨-, -, -, -, h1, h2, -⟩ := h; exact ⟨h1.1, h2⟩
  | log v => obtain ⟨-, -, -, -, h1, h2, -⟩ := h; exact ⟨h1.1, h2⟩
  | prompt v => obtain ⟨-, -, -, -, -, -, -, -, -, -, -, -, h1, h2, -⟩ := h; exact ⟨h1.1, h2⟩
  | parallel _ _ _ _ _ _ _ _ _ _ => exact h.elim

theorem describes_platforms {d : Decoders} {node : Node} {it : RunItem} (h : Describes d node it) :
    ∃ l es, node = .map l es ∧ it.platforms = ((last "platforms".toList es).bind d.strs).getD [] ∧ it.cond = text "when".toList es := by
  cases it with
  | parallel items labels mode lim color s o pl w ln =>
    obtain ⟨es, l, ns, rfl, -, -, -, -, -, -, -, -, -, -, h1, h2⟩ := h
    exact ⟨_, _, rfl, h1.1, h2⟩
  | command v => obtain ⟨line, es, rfl, -, h2⟩ := h; exact ⟨_, _, rfl, simple_platforms h2⟩
  | task v => obtain ⟨line, es, rfl, -, h2⟩ := h; exact ⟨_, _, rfl, simple_platforms h2⟩
  | log v => obtain ⟨line, es, rfl, -, h2⟩ := h; exact ⟨_, _, rfl, simple_platforms h2⟩
  | prompt v => obtain ⟨line, es, rfl, -, h2⟩ := h; exact ⟨_, _, rfl, simple_platforms h2⟩

/-- what the documents provide, the files provide -/
theorem provides {d : Decoders} {docs : GoMap (Option Node)} {files : Files} (hread : ReadFrom d docs files) {p : Str} {nss qs : List Str}
    (hl : Loads files p) (hp : Passes files p nss qs) {f : Str} (hf : (p :: qs).getLast? = some f) {l l1 : Nat} {root ts : List (Node × Node)}
    {n : Str} (hdoc : docs.get? f = some (some (.map l root))) (ht : last n (entriesOf "tasks".toList root) = some (.map l1 ts)) :
    ∃ bs T, Provides files p nss bs n f T ∧ TaskIs d (.map l1 ts) T := by
  induction hp with
  | here p =>
    simp at hf; subst hf
    obtain ⟨hf, -, -⟩ := hl
    obtain ⟨doc, hdoc', hun⟩ := hread _ _ hf
    rw [hdoc] at hdoc'; cases hdoc'
    obtain ⟨l', root', hroot, hfi⟩ := C40_file d hun
    cases hroot
    obtain ⟨T, h1, h2, -, -⟩ := hfi.tasks n _ ht
    exact ⟨[], T, .own hf h1, h2⟩
  | @step p ns q nss qs hi hr ih =>
    obtain ⟨-, hin, -⟩ := hl
    have hlq := hin _ _ hi
    obtain ⟨bs, T, h1, h2⟩ := ih hlq (by rwa [List.getLast?_cons_cons] at hf)
    obtain ⟨hfq, -, -⟩ := hlq
    exact ⟨_ :: bs, T, .inc hi hfq h1, h2⟩

end Docs

section
open Bab.Yaml Bab.Yaml.Spec
variable {d : Decoders} {docs : GoMap (Option Node)} {w : World} {fl : Flags} {x name : Str} {c : Cfg} {tasks : TaskMap} {gvars : GoMap Str}
  {s : State}

/-- an item that is no block has been executed, so its entry is done -/
theorem Docs.entryDone (h : Reach (start c tasks gvars name) s) (hd : c.dry = false) {nss : List Str} {loc : Loc} {es : List (Node × Node)}
    {line : Nat} {it : RunItem} (hs : Simple d line es it) (hit : itemAt tasks loc = some (Docs.change nss it))
    (hl : LeafDone (· ∈ s.sh.trace) c.dry loc (Docs.change nss it)) : EntryDone (· ∈ s.sh.trace) c nss loc es := by
  rw [hd] at hl
  cases it with
  | command v =>
    have hc : Docs.change nss (.command v) = .command v := by unfold Docs.change; split <;> rfl
    rw [hc] at hl hit
    have hl : .procEnd loc none ∈ s.sh.trace := hl
    obtain ⟨a, b, ht⟩ := List.append_of_mem hl
    obtain ⟨_, spec, hspec⟩ := Safe.event_ok h ht
    have hspec : .procStart loc spec ∈ s.sh.trace := by rw [ht]; exact List.mem_append_left _ hspec
    obtain ⟨a', b', ht'⟩ := List.append_of_mem hspec
    obtain ⟨T, v', g, m0, call, tenv, m, cmdText, env, dir, fr, k1, k2, k3, k4, k5, k6, k7, k8, -⟩ := proc_facts h ht'
    rw [hit] at k2; cases k2
    obtain ⟨s1, s2, -⟩ := hs
    obtain ⟨p1, -, -⟩ := prepare_inv k6
    left
    refine ⟨s1, hl, spec, m, hspec, by rw [ht']; exact List.mem_append_left _ k5, ?_⟩
    have hcmd : spec.cmd = cmdText := by rw [k8]; rfl
    rw [← s2, hcmd]; exact p1
  | task t =>
    have hc : Docs.change nss (.task t) = .task { t with task := fullName nss t.task } := by unfold Docs.change; split <;> rfl
    rw [hc] at hl
    obtain ⟨s1, s2, -⟩ := hs
    right; left
    refine ⟨s1, ?_⟩
    rw [← s2]; exact hl
  | log v =>
    have hc : Docs.change nss (.log v) = .log v := by unfold Docs.change; split <;> rfl
    rw [hc] at hl hit
    obtain ⟨t, o, hl⟩ : ∃ t o, Ev.logged loc t v.level o ∈ s.sh.trace := hl
    obtain ⟨a, b, ht⟩ := List.append_of_mem hl
    obtain ⟨-, v', m, k2, k3, k4, k5⟩ := Safe.event_ok h ht
    rw [hit] at k2; cases k2
    obtain ⟨s1, s2, s3, -⟩ := hs
    right; right; left
    refine ⟨s1, t, o, m, ?_, by rw [ht]; exact List.mem_append_left _ k3, by rw [← s2]; exact k4⟩
    rw [← s3]; exact hl
  | prompt p =>
    have hc : Docs.change nss (.prompt p) = .prompt p := by unfold Docs.change; split <;> rfl
    rw [hc] at hl
    obtain ⟨a, hl⟩ : ∃ a, Ev.answered loc p.prompt (.ok a) ∈ s.sh.trace := hl
    obtain ⟨s1, s2, -⟩ := hs
    right; right; right
    exact ⟨s1, a, by rw [← s2]; exact hl⟩
  | parallel _ _ _ _ _ _ _ _ _ _ => exact hs.elim

/-- **C82** Nothing that stands in a Babfile is passed over. If a task is done and nothing was interrupted, then everything that stands in
the mapping of the task in the YAML document has been done: every task it depends on is done; and every entry of `run` has been
executed, with all entries of parallel blocks, unless it is for other platforms or its condition, or that of the task, is false. -/
theorem C82_done (hread : ReadFrom d docs w.files) (hR : RunsFor w fl x c tasks gvars name) (h : Reach (start c tasks gvars name) s)
    (hd : c.dry = false) (hc : ∀ id, .cancel id ∉ s.sh.trace) {p f n : Str} {nss qs : List Str} (hp : Chosen w fl.babfile p)
    (hq : Passes w.files p nss qs) (hf : (p :: qs).getLast? = some f) {l l1 : Nat} {root ts : List (Node × Node)}
    (hdoc : docs.get? f = some (some (.map l root))) (ht : last n (entriesOf "tasks".toList root) = some (.map l1 ts))
    (hdone : .done (fullName nss n) ∈ s.sh.trace) :
    AllDone (· ∈ s.sh.trace) d c tasks gvars nss (fullName nss n) ts := by
  have hw := C40_files_wf d docs w.files hread
  obtain ⟨p', b, g1, g2, g3, g4, g5, g6, g7, -⟩ := hR.file
  cases chosen_unique hp g1
  have hto := Docs.tasksOf hw g2 g4 g5
  obtain ⟨bs, T, hpr, hti⟩ := Docs.provides hread g2.loads hq hf hdoc ht
  obtain ⟨T', hT', hai⟩ := hto.complete _ _ _ _ _ hpr
  obtain ⟨l1', ts', hts, -, -, -, -, -, -, -, -, hcond, hdeps, -, hrun⟩ := hti
  cases hts
  obtain ⟨T'', hT'', hcase⟩ := C16_done_means_executed h hc hdone
  rw [hT'] at hT''; cases hT''
  rcases hcase with ⟨h1, g, h2, h3⟩ | ⟨hdep, hitems⟩
  · left
    rw [hai.cond, hcond] at h1 h3
    exact ⟨h1, g, h2, h3⟩
  right
  refine ⟨fun y hy => hdep _ (by rw [hai.deps, hdeps]; exact List.mem_map.mpr ⟨y, hy, rfl⟩), ?_⟩
  rintro i node ⟨lr, ns, hlr, hn⟩
  dsimp only at hn
  rw [hlr] at hrun
  simp only [RunIs] at hrun
  obtain ⟨it, hit, hdes⟩ := Docs.forall₂_get' hrun hn
  have hit' : T'.run[i]? = some (Docs.change nss it) := by rw [Docs.run_eq hai, List.getElem?_map, hit]; rfl
  obtain ⟨le, es, rfl, hpl, hw'⟩ := Docs.describes_platforms hdes
  refine ⟨le, es, rfl, ?_⟩
  rcases hitems i _ hit' with hno | ⟨h1, m, h2, h3⟩ | hex
  · left; left
    unfold RunItem.onPlatform at hno
    rw [Docs.change_platforms, hpl] at hno
    unfold Elsewhere
    generalize ((last "platforms".toList es).bind d.strs).getD [] = ps at hno
    cases ps with
    | nil => cases hno
    | cons a ps =>
      refine ⟨by simp, fun hm => ?_⟩
      have : (a :: ps).any (· = c.platform) = true := List.any_eq_true.mpr ⟨_, hm, by simp⟩
      rw [show matchesPlatform (a :: ps) c.platform = (a :: ps).any (· = c.platform) from rfl, this] at hno
      cases hno
  · left; right
    rw [Docs.change_cond, hw'] at h1 h3
    exact ⟨h1, m, h2, h3⟩
  right
  have hat : ∀ y, T'.run[i]? = some y → itemAt tasks ⟨fullName nss n, i, none⟩ = some y := by
    intro y hy
    simp only [itemAt, hT', hy]
  have leaf : ∀ {y : RunItem}, Executed (· ∈ s.sh.trace) c.dry (fullName nss n) i y →
      (∀ items labels mode lim color s o pl w ln, y ≠ .parallel items labels mode lim color s o pl w ln) →
      LeafDone (· ∈ s.sh.trace) c.dry ⟨fullName nss n, i, none⟩ y := by
    intro y hy hnp
    cases y with
    | parallel _ _ _ _ _ _ _ _ _ _ => exact (hnp _ _ _ _ _ _ _ _ _ _ rfl).elim
    | _ => exact hy
  have plain : ∀ y : RunItem, (∀ items labels mode lim color s o pl w ln, y ≠ .parallel items labels mode lim color s o pl w ln) →
      ∀ items labels mode lim color s o pl w ln, Docs.change nss y ≠ .parallel items labels mode lim color s o pl w ln := by
    intro y hy items labels mode lim color s o pl w ln he
    unfold Docs.change at he
    cases y <;> split at he <;> simp_all [renameItem, bareItem]
  cases it with
  | parallel items labels mode lim color s0 o pl w0 ln =>
    right
    obtain ⟨es', l2, ns', hmap, hpar, hne, -, hfor, -⟩ := hdes
    cases hmap
    obtain ⟨s1, o1, hch⟩ : ∃ s1 o1, Docs.change nss (.parallel items labels mode lim color s0 o pl w0 le) =
        .parallel (items.map (Docs.change nss)) labels mode lim color s1 o1 pl w0 le := by
      unfold Docs.change
      by_cases hns : nss = []
      · subst hns
        refine ⟨s0, o, ?_⟩
        simp only [if_true, renameItem, Ren.renameItems_map]
      · refine ⟨none, none, ?_⟩
        simp only [if_neg hns, bareItem, renameItem, Ren.renameItems_map, Docs.bareItems_map, List.map_map]
        rfl
    rw [hch] at hex hit'
    have hex : ∀ j sub, (items.map (Docs.change nss))[j]? = some sub → LeafDone (· ∈ s.sh.trace) c.dry ⟨fullName nss n, i, some j⟩ sub := by
      simpa only [Executed, hd, if_false, Bool.false_eq_true] using hex
    have hkey := Docs.not_noKey hpar
    refine ⟨hkey, ?_, ?_⟩
    · cases ns' with
      | nil => exact (hne rfl).elim
      | cons a ns' => exact ⟨a, lr, ns, hlr, le, es, l2, a :: ns', hn, hpar, rfl⟩
    · rintro j node' ⟨lr', ns2, hlr', le', es', l2', ns'', hn', hpar', hj⟩
      rw [hlr] at hlr'; cases hlr'
      rw [hn] at hn'; cases hn'
      rw [hpar] at hpar'; cases hpar'
      obtain ⟨sub, hsub, l', es', rfl, -, hs, -⟩ := Docs.forall₂_get' hfor hj
      refine ⟨l', es', rfl, ?_⟩
      have hsub' : (items.map (Docs.change nss))[j]? = some (Docs.change nss sub) := by rw [List.getElem?_map, hsub]; rfl
      refine Docs.entryDone h hd hs ?_ (hex j _ hsub')
      simp only [itemAt, hT', hit', hsub']
  | command v => obtain ⟨le', es', hmap, hno, hs⟩ := hdes; cases hmap; exact .inl ⟨hno, Docs.entryDone h hd hs (hat _ hit') (leaf hex (plain _ (by intros; intro hx; cases hx)))⟩
  | task v => obtain ⟨le', es', hmap, hno, hs⟩ := hdes; cases hmap; exact .inl ⟨hno, Docs.entryDone h hd hs (hat _ hit') (leaf hex (plain _ (by intros; intro hx; cases hx)))⟩
  | log v => obtain ⟨le', es', hmap, hno, hs⟩ := hdes; cases hmap; exact .inl ⟨hno, Docs.entryDone h hd hs (hat _ hit') (leaf hex (plain _ (by intros; intro hx; cases hx)))⟩
  | prompt v => obtain ⟨le', es', hmap, hno, hs⟩ := hdes; cases hmap; exact .inl ⟨hno, Docs.entryDone h hd hs (hat _ hit') (leaf hex (plain _ (by intros; intro hx; cases hx)))⟩

/-- **C82** So it is for the task that was asked for, by its name or another one: if the invocation reports success, it is done, and with
it all tasks it depends on or calls. -/
theorem C82_requested (hR : RunsFor w fl x c tasks gvars name) (h : Reach (start c tasks gvars name) s) (hp : s.prog = .ret none) :
    .done name ∈ s.sh.trace ∧ ∃ p, Chosen w fl.babfile p ∧ (FileHas w.files p x → name = x) ∧ ∀ a, FileAlias w.files p x a → name = a := by
  obtain ⟨p, b, g1, g2, g3, g4, g5, g6, g7, g8, g9, -⟩ := hR.file
  exact ⟨C16_success_means_done h hp, p, g1, g8, g9⟩

end

namespace Sample
open Bab.Yaml Bab.Yaml.Spec

/-- the events of a run of `bab all` on the two documents of C80 -/
def bothTrace (o : Outcome) : List Ev :=
  match o with
  | .run c tasks gvars name => (Exec.drive [.auto 300] (start c tasks gvars name)).sh.trace
  | _ => []

/-- the tasks of both documents are done there, so the theorem applies to each of them; nothing is interrupted -/
example : .done (s "all") ∈ bothTrace bothRun ∧ .done (s "web:make") ∈ bothTrace bothRun ∧
    ∀ e ∈ bothTrace bothRun, (match e with | .cancel _ => false | _ => true) = true := by decide +kernel

/-- the file of the second one is reached with its namespace -/
example : Passes bothFiles (s "/p/Babfile.yml") [s "web"] [s "/p/web/Babfile.yml"] := by
  refine .step ?_ (.here _)
  exact ⟨_, s "web/Babfile.yml", rfl, by decide +kernel, by decide +kernel⟩

end Sample

end Bab
