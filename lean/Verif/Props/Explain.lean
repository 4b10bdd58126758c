import Verif.Proof.Explain
import Verif.Props.Unmarshal
import Verif.Props.Parser
import Verif.Props.Main
/-
C63: if an invocation fails there is a reason, and once a Babfile is accepted the reason is never a reference
that leads nowhere or an item that cannot be run.
-/

namespace Bab
open Spec

section
variable {c : Cfg} {tasks : TaskMap} {gvars : GoMap Str} {main : Str} {s : State}

/-- **C63** In every state of every invocation: an error that is returned, and every failure of a task, an item or a
dependency that is reported, is explained by something that happened before or by the definitions of the tasks. -/
theorem C63_explained (hr : Ready tasks main) (h : Reach (start c tasks gvars main) s) :
    (∀ e, s.prog = .ret (some e) → Explained c tasks main s.sh.trace e) ∧
    ∀ a v b e, s.sh.trace = a ++ v :: b → failure v = some e → Explained c tasks main a e := by
  obtain ⟨h1, -, h3⟩ := Expl.reach hr h
  refine ⟨fun e he => ?_, h3⟩
  rw [he] at h1
  exact h1 e rfl

end

/-! ### what the reader and the loader accept -/

namespace Expl

theorem forall₂_right {α β : Type} {R : α → β → Prop} {l : List α} {l' : List β} (h : List.Forall₂ R l l') {b : β} (hb : b ∈ l') :
    ∃ a, a ∈ l ∧ R a b := by
  induction h with
  | nil => cases hb
  | cons h _ ih =>
    rcases List.mem_cons.mp hb with rfl | hb
    · exact ⟨_, List.mem_cons_self, h⟩
    · obtain ⟨a, h1, h2⟩ := ih hb
      exact ⟨a, List.mem_cons_of_mem _ h1, h2⟩

/-- a simple item: not a block, and a command is not empty -/
def SimpleOk (i : RunItem) : Prop :=
  ((∃ v, i = .command v) ∨ (∃ t, i = .task t) ∨ ∃ l, i = .log l) ∧ ∀ v, i = .command v → v.cmd ≠ []

/-- an item as the reader gives it -/
def ItemOk : RunItem → Prop
  | .command v => v.cmd ≠ []
  | .parallel items _ _ _ _ _ _ _ _ _ => ∀ i ∈ items, SimpleOk i
  | _ => True

theorem simple_cmd {d : Yaml.Decoders} {line : Nat} {es : List (Yaml.Node × Yaml.Node)} {v : CommandRun} (h : Yaml.Spec.Simple d line es (.command v)) : v.cmd ≠ [] := by
  obtain ⟨h1, h2, -⟩ := h
  rw [h2]
  have : "cmd".toList ∈ Yaml.Spec.kinds es := by rw [h1]; exact List.mem_singleton.mpr rfl
  unfold Yaml.Spec.kinds at this
  rw [List.mem_filter] at this
  simpa using this.2

theorem describes_ok {d : Yaml.Decoders} {n : Yaml.Node} {i : RunItem} (h : Yaml.Spec.Describes d n i) : ItemOk i := by
  cases i with
  | command v =>
    obtain ⟨_, es, -, -, h3⟩ := h
    exact simple_cmd h3
  | parallel items labels mode lim color s o pl w ln =>
    obtain ⟨es, _, ns, -, -, -, -, hall, -⟩ := h
    intro i hi
    obtain ⟨n', -, hh⟩ := forall₂_right hall hi
    obtain ⟨_, es', -, -, h3, h4⟩ := hh
    cases i with
    | command v => exact ⟨Or.inl ⟨v, rfl⟩, fun v' hv' => by cases hv'; exact simple_cmd h3⟩
    | task t => exact ⟨Or.inr (Or.inl ⟨t, rfl⟩), fun v' hv' => by cases hv'⟩
    | log l => exact ⟨Or.inr (Or.inr ⟨l, rfl⟩), fun v' hv' => by cases hv'⟩
    | prompt p => exact absurd rfl (h4 p)
    | parallel => exact h3.elim
  | _ => trivial

theorem task_ok {d : Yaml.Decoders} {n : Yaml.Node} {T : Task} (h : Yaml.Spec.TaskIs d n T) : ∀ i ∈ T.run, ItemOk i := by
  obtain ⟨_, es, -, -, -, -, -, -, -, -, -, -, -, -, hrun⟩ := h
  intro i hi
  unfold Yaml.Spec.RunIs at hrun
  split at hrun
  · rw [hrun] at hi; cases hi
  · obtain ⟨n', -, hh⟩ := forall₂_right hrun hi
    exact describes_ok hh
  · exact hrun.elim

theorem mem_renames {g : Str → Str} {i : RunItem} {items : List RunItem} (h : i ∈ renameItems g items) : ∃ i' ∈ items, i = renameItem g i' := by
  induction items with
  | nil => cases h
  | cons a l ih =>
    rw [renameItems] at h
    rcases List.mem_cons.mp h with rfl | h
    · exact ⟨a, List.mem_cons_self, rfl⟩
    · obtain ⟨i', h1, h2⟩ := ih h
      exact ⟨i', List.mem_cons_of_mem _ h1, h2⟩

theorem mem_bares {i : RunItem} {items : List RunItem} (h : i ∈ bareItems items) : ∃ i' ∈ items, i = bareItem i' := by
  induction items with
  | nil => cases h
  | cons a l ih =>
    rw [bareItems] at h
    rcases List.mem_cons.mp h with rfl | h
    · exact ⟨a, List.mem_cons_self, rfl⟩
    · obtain ⟨i', h1, h2⟩ := ih h
      exact ⟨i', List.mem_cons_of_mem _ h1, h2⟩

theorem simple_rename {g : Str → Str} {i : RunItem} (h : SimpleOk i) : SimpleOk (renameItem g i) := by
  obtain ⟨⟨v, rfl⟩ | ⟨t, rfl⟩ | ⟨l, rfl⟩, h2⟩ := h
  · rw [renameItem]; exact ⟨Or.inl ⟨v, rfl⟩, h2⟩
  · rw [renameItem]; exact ⟨Or.inr (Or.inl ⟨_, rfl⟩), fun v hv => by cases hv⟩
  · rw [renameItem]; exact ⟨Or.inr (Or.inr ⟨_, rfl⟩), fun v hv => by cases hv⟩

theorem simple_bare {i : RunItem} (h : SimpleOk i) : SimpleOk (bareItem i) := by
  obtain ⟨⟨v, rfl⟩ | ⟨t, rfl⟩ | ⟨l, rfl⟩, h2⟩ := h
  · rw [bareItem]; exact ⟨Or.inl ⟨v, rfl⟩, h2⟩
  · rw [bareItem]; exact ⟨Or.inr (Or.inl ⟨_, rfl⟩), fun v hv => by cases hv⟩
  · rw [bareItem]; exact ⟨Or.inr (Or.inr ⟨_, rfl⟩), fun v hv => by cases hv⟩

theorem rename_ok {g : Str → Str} {i : RunItem} (h : ItemOk i) : ItemOk (renameItem g i) := by
  cases i with
  | parallel items labels mode lim color s o pl w ln =>
    rw [renameItem]
    intro i hi
    obtain ⟨i', h1, rfl⟩ := mem_renames hi
    exact simple_rename (h i' h1)
  | _ => rw [renameItem]; exact h

theorem bare_ok {i : RunItem} (h : ItemOk i) : ItemOk (bareItem i) := by
  cases i with
  | parallel items labels mode lim color s o pl w ln =>
    rw [bareItem]
    intro i hi
    obtain ⟨i', h1, rfl⟩ := mem_bares hi
    exact simple_bare (h i' h1)
  | _ => rw [bareItem]; exact h

/-- the items of a loaded task are fine if those in the files are -/
theorem included_ok {nss : List Str} {bs : List Schema} {n f : Str} {T T' : Task} (h : AsIncluded nss bs n f T T')
    (hT : ∀ i ∈ T.run, ItemOk i) : ∀ i ∈ T'.run, ItemOk i := by
  intro i hi
  rw [h.run] at hi
  obtain ⟨i', h1, rfl⟩ := mem_renames hi
  refine rename_ok ?_
  split at h1
  · exact hT i' h1
  · obtain ⟨i'', h2, rfl⟩ := mem_bares h1
    exact bare_ok (hT i'' h2)

theorem provides_from {files : Files} {p : Str} {nss : List Str} {bs : List Schema} {n f : Str} {T : Task}
    (h : Provides files p nss bs n f T) : ∃ q bf, files.get? q = some (some bf) ∧ bf.tasks.get? n = some T := by
  induction h with
  | own hf ht => exact ⟨_, _, hf, ht⟩
  | inc _ _ _ ih => exact ih

end Expl

/-- **C63** What Babfiles that are read and accepted define can be run: for every task of them, everything it needs
exists, blocks hold only items that can run there, and no command is empty. -/
theorem C63_accepted_ready (d : Yaml.Decoders) (docs : GoMap (Option Yaml.Node)) {files : Files}
    (hread : ∀ p bf, files.get? p = some (some bf) → ∃ doc, docs.get? p = some doc ∧ Yaml.unmarshalDoc d doc = .ok bf)
    {o : Orders} (ho : OrdersOK o) {grow : Nat → Nat} {v1 v2 v3 v4 : TaskMap → TaskMap}
    (h1 : ∀ m, (v1 m).Perm m) (h2 : ∀ m, (v2 m).Perm m) (h3 : ∀ m, (v3 m).Perm m) (h4 : ∀ m, (v4 m).Perm m) {cwd path : Str}
    {r : ParseResult} (h : parse files o grow v1 v2 v3 v4 cwd path = .ok r) {main : Str} (hmain : r.tasks.get? main ≠ none) :
    Ready r.tasks main := by
  have hw := Yaml.C40_files_wf d docs files hread
  obtain ⟨-, hdang, -⟩ := C32_parse hw ho h1 h2 h3 h4 h
  have hload : ∃ p, load files o p = .ok r := by
    unfold parse at h
    split at h
    · cases h
    · dsimp only at h
      generalize (if isAbs (cleanPath path) = true then cleanPath path else joinPath cwd (cleanPath path)) = p at h
      refine ⟨p, ?_⟩
      cases hl : parseFile files o (files.length + 2) [] [] p with
      | error e => rw [hl] at h; cases h
      | ok r' =>
        rw [hl] at h
        dsimp only at h
        split at h
        · cases h; exact hl
        · cases h
  obtain ⟨p, hl⟩ := hload
  obtain ⟨-, hto, -⟩ := parseFile_ok hw ho _ hl
  have hdef : ∀ n T, r.tasks.get? n = some T → T.name = n ∧ ∀ i ∈ T.run, Expl.ItemOk i := by
    intro n T hT
    obtain ⟨nss, bs, m, f, T0, hp, rfl, hinc⟩ := hto.sound n T hT
    refine ⟨hinc.name, Expl.included_ok hinc ?_⟩
    obtain ⟨q, bf, hq, hb⟩ := Expl.provides_from hp
    obtain ⟨doc, -, hdoc⟩ := hread q bf hq
    obtain ⟨_, es, -, hf⟩ := Yaml.C40_file d hdoc
    cases hlast : Yaml.Spec.last m (Yaml.Spec.entriesOf "tasks".toList es) with
    | none => rw [hf.others m hlast] at hb; cases hb
    | some v =>
      obtain ⟨t, ht, hti, -⟩ := hf.tasks m v hlast
      rw [hb] at ht
      cases ht
      exact Expl.task_ok hti
  have hex : ∀ n, Needs r.tasks main n → ∃ T, r.tasks.get? n = some T := by
    intro n hn
    rcases hn with rfl | hn
    · exact Option.ne_none_iff_exists'.mp hmain
    · clear hmain
      induction hn with
      | one h => exact hdang _ _ h
      | more _ _ ih => exact ih
  refine ⟨fun n hn => ?_, ?_, ?_⟩
  · obtain ⟨T, hT⟩ := hex n hn
    exact ⟨T, hT, (hdef n T hT).1⟩
  · intro n T items labels mode lim color s o pl w ln i _ hT hp hi
    exact ((hdef n T hT).2 _ hp i hi).1
  · intro n T v _ hT hi
    cases hi with
    | top hi => exact (hdef n T hT).2 _ hi
    | sub hp hi => exact ((hdef n T hT).2 _ hp _ hi).2 v rfl

/-- **C63** Together: a task of an accepted Babfile never fails because a task does not exist, because a block holds an
item that cannot run in it, or because of the bounds of the model; whatever fails has an explanation. -/
theorem C63_accepted (d : Yaml.Decoders) (docs : GoMap (Option Yaml.Node)) {files : Files}
    (hread : ∀ p bf, files.get? p = some (some bf) → ∃ doc, docs.get? p = some doc ∧ Yaml.unmarshalDoc d doc = .ok bf)
    {o : Orders} (ho : OrdersOK o) {grow : Nat → Nat} {v1 v2 v3 v4 : TaskMap → TaskMap}
    (h1 : ∀ m, (v1 m).Perm m) (h2 : ∀ m, (v2 m).Perm m) (h3 : ∀ m, (v3 m).Perm m) (h4 : ∀ m, (v4 m).Perm m) {cwd path : Str}
    {r : ParseResult} (h : parse files o grow v1 v2 v3 v4 cwd path = .ok r) {main : Str} (hmain : r.tasks.get? main ≠ none)
    {c : Cfg} {gvars : GoMap Str} {s : State} (hs : Reach (start c r.tasks gvars main) s) {e : Err} (he : s.prog = .ret (some e)) :
    Explained c r.tasks main s.sh.trace e ∧
    ∀ n, cause e ≠ .taskNotFound n ∧ cause e ≠ .parallelUnknown n ∧ cause e ≠ .unsupported ∧ cause e ≠ .fuel := by
  have hx := (C63_explained (C63_accepted_ready d docs hread ho h1 h2 h3 h4 h hmain) hs).1 e he
  refine ⟨hx, fun n => ?_⟩
  clear he
  have key : ∀ e, Explained c r.tasks main s.sh.trace e → cause e ≠ .taskNotFound n ∧ cause e ≠ .parallelUnknown n ∧ cause e ≠ .unsupported ∧ cause e ≠ .fuel := by
    intro e
    induction e with
    | wrap w e ih => exact ih
    | taskNotFound x => exact fun h => h.elim
    | parallelUnknown x => exact fun h => h.elim
    | unsupported => exact fun h => h.elim
    | fuel => exact fun h => h.elim
    | _ => intro _; simp [cause]
  exact key e hx

/-! ### Concrete cases -/

namespace Sample

/-- the sample task map is ready -/
theorem build_ready : Ready build (s "all") := by
  have hex : ∀ n, Needs build (s "all") n → n = s "all" ∨ n = s "lib" ∨ n = s "x" := by
    intro n hn
    rcases hn with rfl | hn
    · exact Or.inl rfl
    · right
      generalize s "all" = a at hn
      induction hn with
      | one h => exact refers_build h
      | more _ _ ih => exact ih
  have hmem : ∀ n T, build.get? n = some T → (n, T) ∈ build := fun n T h => GoMap.mem_of_get? h
  refine ⟨fun n hn => ?_, ?_, ?_⟩
  · rcases hex n hn with rfl | rfl | rfl <;> exact ⟨_, rfl, rfl⟩
  · intro n T items labels mode lim color s' o pl w ln i _ hT hp hi
    have := hmem n T hT
    simp only [build, List.mem_cons, List.not_mem_nil, or_false, Prod.mk.injEq] at this
    rcases this with ⟨_, rfl⟩ | ⟨_, rfl⟩ | ⟨_, rfl⟩
    · simp only [cmd, par, call, List.mem_cons, List.not_mem_nil, or_false, reduceCtorEq, false_or, RunItem.parallel.injEq] at hp
      obtain ⟨rfl, -⟩ := hp
      simp only [List.mem_cons, List.not_mem_nil, or_false] at hi
      rcases hi with rfl | rfl | rfl
      · exact Or.inr (Or.inl ⟨_, rfl⟩)
      · exact Or.inl ⟨_, rfl⟩
      · exact Or.inr (Or.inl ⟨_, rfl⟩)
    · simp [cmd] at hp
    · simp [cmd] at hp
  · intro n T v _ hT hi
    have := hmem n T hT
    simp only [build, List.mem_cons, List.not_mem_nil, or_false, Prod.mk.injEq] at this
    rcases this with ⟨_, rfl⟩ | ⟨_, rfl⟩ | ⟨_, rfl⟩
    all_goals
      cases hi with
      | top hi =>
        simp only [cmd, par, call, List.mem_cons, List.not_mem_nil, or_false, reduceCtorEq, RunItem.command.injEq] at hi
        subst hi
        decide
      | sub hp hi =>
        simp only [cmd, par, call, List.mem_cons, List.not_mem_nil, or_false, reduceCtorEq, false_or, RunItem.parallel.injEq] at hp
        try
          obtain ⟨rfl, -⟩ := hp
          simp only [List.mem_cons, List.not_mem_nil, or_false, reduceCtorEq, false_or, RunItem.command.injEq] at hi
          subst hi
          decide

/-- an invocation of it fails: the command `y` in the block could not be started -/
example : (match bad.prog with | .ret (some e) => some (cause e) | _ => none) = some (.exit 127) := by decide +kernel

example : ∀ e, bad.prog = .ret (some e) → Explained {} build (s "all") bad.sh.trace e := (C63_explained build_ready bad_reach).1

/-- a file whose only command consists of blanks -/
def blank : Yaml.Node := .map 1 [(.scalar 1 [] (s "tasks"), .map 2 [(.scalar 2 [] (s "t"), .map 3 [(.scalar 3 [] (s "run"),
  .seq 4 [.map 4 [(.scalar 4 [] (s "cmd"), .scalar 4 [] (s "  "))]])])])]

/-- the failure of an invocation that was driven to its end -/
def outcome (st : State) : Option (Option Err) :=
  match st.prog with
  | .ret r => some r
  | _ => none

/-- Limit of the property: a command that consists of blanks is accepted, and fails when the task runs. -/
theorem C63_blank_command :
    (match Yaml.unmarshalDoc Yaml.Sample.decoders (some blank) with
     | .ok b =>
       match parse [(s "/p/B.yml", some b)] asWritten doubling id id id id (s "/p") (s "B.yml") with
       | .ok r => outcome (Exec.drive [.auto 50] (start {} r.tasks [] (s "t")))
       | .error _ => none
     | .error _ => none) = some (some (.emptyCmd (s "t"))) := by
  decide +kernel

end Sample

end Bab
