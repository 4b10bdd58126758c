import Verif.Proof.Unmarshal
import Verif.Spec.Parser
import Mathlib.Data.List.Nodup
/-
C40 to C42: reading the tree of a Babfile.
-/

namespace Bab.Yaml
open Bab Bab.Yaml.Spec

/-- a decoder for the examples: texts, lists of texts, numbers, `true` and `false` -/
def Sample.decoders : Decoders where
  strs := fun n => match n with
    | .seq _ ns => ns.mapM (fun m => match m with | .scalar _ _ v => some v | _ => none)
    | _ => none
  int := fun n => match n with | .scalar _ _ v => atoi v | _ => none
  bool := fun n => match n with
    | .scalar _ _ v => if v = "true".toList then some true else if v = "false".toList then some false else none
    | _ => none
  inc := fun n => match n with
    | .map _ [(.scalar _ _ k, .scalar _ _ v)] => if k = "babfile".toList then some v else none
    | _ => none
  compiles := fun s => s ≠ "(".toList
  why := fun _ n => "cannot read ".toList ++ n.value
  complaint := fun s => "missing closing ): ".toList ++ s

/-- a text -/
def Sample.str (s : String) : Node := .scalar 0 "!!str".toList s.toList

/-- a mapping -/
def Sample.obj (es : List (String × Node)) : Node := .map 0 (es.map (fun e => (Sample.str e.1, e.2)))

/-- a list -/
def Sample.list (ns : List Node) : Node := .seq 0 ns

open Sample

/-! ## C40 -/

/-- An entry that is read gives the item it describes: exactly one of cmd, task, log, prompt and parallel counts, every
setting of the item is the one of the entry, and the items of a block are the items of its list. -/
theorem C40_entry (d : Decoders) {task : Str} {index : Nat} {n : Node} {i : RunItem} (h : (parseRunItem d task (depth n) index n).1 = some i) : Describes d n i :=
  item_describes d _ _ _ n i h

/-- Exactly one of the five kinds. -/
theorem C40_one_kind (d : Decoders) {task : Str} {index : Nat} {n : Node} {i : RunItem} (h : (parseRunItem d task (depth n) index n).1 = some i) :
    ∃ l es, n = .map l es ∧ ((NoKey "parallel".toList es ∧ (kinds es).length = 1) ∨ (¬ NoKey "parallel".toList es ∧ kinds es = [])) := by
  have hd := C40_entry d h
  cases i with
  | command c => obtain ⟨l, es, h1, h2, h3⟩ := hd; exact ⟨l, es, h1, Or.inl ⟨h2, by rw [h3.1]; rfl⟩⟩
  | task c => obtain ⟨l, es, h1, h2, h3⟩ := hd; exact ⟨l, es, h1, Or.inl ⟨h2, by rw [h3.1]; rfl⟩⟩
  | log c => obtain ⟨l, es, h1, h2, h3⟩ := hd; exact ⟨l, es, h1, Or.inl ⟨h2, by rw [h3.1]; rfl⟩⟩
  | prompt c => obtain ⟨l, es, h1, h2, h3⟩ := hd; exact ⟨l, es, h1, Or.inl ⟨h2, by rw [h3.1]; rfl⟩⟩
  | parallel =>
    obtain ⟨es, _, ns, h1, h2, _, h3, _⟩ := hd
    refine ⟨_, es, h1, Or.inr ⟨?_, ?_⟩⟩
    · intro hn
      obtain ⟨e, he, hk, _⟩ := last_mem h2
      exact hn e he hk
    · have hno : ∀ k, k ∉ ["parallel".toList, "mode".toList, "limit".toList, "color".toList, "silent".toList, "output".toList,
          "platforms".toList, "when".toList] → text k es = [] := by
        intro k hk
        unfold text
        cases hl : last k es with
        | none => rfl
        | some m =>
          obtain ⟨e, he, hke, _⟩ := last_mem hl
          exact absurd (hke ▸ h3 e he) hk
      have h1 := hno "cmd".toList (by decide)
      have h2 := hno "task".toList (by decide)
      have h3 := hno "log".toList (by decide)
      have h4 := hno "prompt".toList (by decide)
      unfold kinds
      rw [List.filter_eq_nil_iff]
      intro k hk
      simp only [List.mem_cons, List.not_mem_nil, or_false] at hk
      rcases hk with rfl | rfl | rfl | rfl <;> simp only [h1, h2, h3, h4, ne_eq, not_true_eq_false, decide_false, Bool.false_eq_true, not_false_eq_true]

/-- The list of a task has exactly one item per entry, in the same order. -/
theorem C40_items (d : Decoders) {task : Str} {n : Node} {run : List RunItem} (h : (parseRunItems task (parseRunItem d task (depth n)) n).1 = some run) :
    ∃ l ns, n = .seq l ns ∧ run.length = ns.length ∧ ∀ (k : Nat) n' i, ns[k]? = some n' → run[k]? = some i → Describes d n' i := by
  obtain ⟨l, ns, rfl, hall⟩ := runItems_some h
  refine ⟨l, ns, rfl, hall.length_eq.symm, ?_⟩
  intro k n' i hn hi
  obtain ⟨hk, rfl⟩ := List.getElem?_eq_some_iff.mp hn
  obtain ⟨hk', rfl⟩ := List.getElem?_eq_some_iff.mp hi
  obtain ⟨j, hj⟩ := hall.get hk hk'
  exact item_describes d _ _ _ _ _ hj

/-- Nothing is left out silently: an entry, a list and a task are dropped exactly when an error is reported. -/
theorem C40_told (d : Decoders) (n : Node) (task name : Str) (index : Nat) :
    ((parseRunItem d task (depth n) index n).1 = none ↔ (parseRunItem d task (depth n) index n).2 ≠ []) ∧
    ((parseRunItems task (parseRunItem d task (depth n)) n).1 = none ↔ (parseRunItems task (parseRunItem d task (depth n)) n).2 ≠ []) ∧
    ((parseTask d name n).1 = none ↔ (parseTask d name n).2 ≠ []) :=
  ⟨fair_item d _ _ _ n (Nat.le_refl _), fair_run d task n, fair_task d name n⟩

/-- A task that is read is the task its entry describes. -/
theorem C40_task (d : Decoders) {n : Node} {name : Str} {t : Task} (h : (parseTask d name n).1 = some t) : TaskIs d n t ∧ t.name = name :=
  task_some h

/-- A Babfile that is read is the one the document describes; in particular no task of it is missing. -/
theorem C40_file (d : Decoders) {doc : Option Node} {s : Schema} (h : unmarshalDoc d doc = .ok s) :
    ∃ l es, doc = some (.map l es) ∧ FileIs d es s := by
  unfold unmarshalDoc at h
  split at h
  · cases h
  · next l es =>
    dsimp only at h
    split at h
    · next he => cases h; exact ⟨l, es, rfl, file_is d es he⟩
    · cases h
  · cases h

/-- The names of a task and their items, in one statement. -/
theorem C40_no_task_missing (d : Decoders) {es kvs ts : List (Node × Node)} {ns : List Node} {k v key rkey : Node} {l l1 l2 l3 : Nat} {s : Schema}
    (h : unmarshalDoc d (some (.map l es)) = .ok s) (hes : ∀ e ∈ es, e.1.value = "tasks".toList → e = (k, .map l1 kvs)) (hk : k.value = "tasks".toList)
    (hm : (k, Node.map l1 kvs) ∈ es) (hv : v = .map l2 ts) (hkv : (key, v) ∈ kvs) (hrun : ∀ e ∈ ts, e.1.value = "run".toList → e = (rkey, .seq l3 ns))
    (hr : rkey.value = "run".toList) (hin : (rkey, Node.seq l3 ns) ∈ ts) :
    ∃ t, s.tasks.get? key.value = some t ∧ List.Forall₂ (Describes d) ns t.run := by
  obtain ⟨_, es', he, hf⟩ := C40_file d h
  cases he
  obtain ⟨_, kvs', hkvs, hnd⟩ := hf.distinct _ hm hk
  cases hkvs
  -- one list of entries, once or more
  have hall : ∀ e ∈ entriesOf "tasks".toList es, e ∈ kvs := by
    intro e he
    unfold entriesOf at he
    obtain ⟨x, hx, hex⟩ := List.mem_flatMap.mp he
    split at hex
    · next hxk => rw [hes x hx hxk] at hex; exact hex
    · cases hex
  have hone : (key, v) ∈ entriesOf "tasks".toList es := by
    unfold entriesOf
    refine List.mem_flatMap.mpr ⟨_, hm, ?_⟩
    rw [if_pos hk]; exact hkv
  cases hl : last key.value (entriesOf "tasks".toList es) with
  | none => exact absurd rfl ((last_none.mp hl) _ hone)
  | some n =>
    obtain ⟨t, ht, hti, _⟩ := hf.tasks _ _ hl
    obtain ⟨e, he, hek, hen⟩ := last_mem hl
    have : e = (key, v) := by
      have h1 := hall e he
      have hinj : ∀ a ∈ kvs, ∀ b ∈ kvs, a.1.value = b.1.value → a = b := by
        intro a ha b hb hab
        exact List.inj_on_of_nodup_map hnd ha hb hab
      exact hinj e h1 _ hkv hek
    rw [this] at hen
    obtain rfl : v = n := hen
    obtain ⟨_, ts', hts, rest⟩ := hti
    rw [hv] at hts
    cases hts
    refine ⟨t, ht, ?_⟩
    have hrun' : last "run".toList ts = some (.seq l3 ns) := by
      cases hlr : last "run".toList ts with
      | none => exact absurd hr ((last_none.mp hlr) _ hin)
      | some m =>
        obtain ⟨e', he', hek', hem'⟩ := last_mem hlr
        rw [hrun e' he' hek'] at hem'
        rw [← hem']
    have := rest.2.2.2.2.2.2.2.2.2.2.2
    rw [hrun'] at this
    exact this

/-- A document that is not read comes with an error. -/
theorem C40_rejected (d : Decoders) {doc : Option Node} {errs : List Report} (h : unmarshalDoc d doc = .error errs) : errs ≠ [] := by
  unfold unmarshalDoc at h
  split at h
  · cases h; simp
  · dsimp only at h
    split at h
    · cases h
    · next he => cases h; exact he
  · cases h; simp

/-- More fuel than the depth of the tree changes nothing, so the model has the meaning of the recursion in the code. -/
theorem C40_fuel (d : Decoders) {task : Str} {f index : Nat} {n : Node} (h : depth n ≤ f) :
    parseRunItem d task f index n = parseRunItem d task (depth n) index n :=
  item_fuel d _ f _ _ n h (Nat.le_refl _)

theorem envIs_wf {n : Option Node} {m : GoMap Str} (h : EnvIs n m) : m.WF := by
  unfold EnvIs at h
  split at h
  · rw [h]; exact List.nodup_nil
  · exact h.2.1
  · exact h.elim

/-- The files that the loader of includes works with have the form its theorems (C32 to C35) ask for. -/
theorem C40_files_wf (d : Decoders) (docs : GoMap (Option Node)) (files : Files)
    (h : ∀ p bf, files.get? p = some (some bf) → ∃ doc, docs.get? p = some doc ∧ unmarshalDoc d doc = .ok bf) : Bab.Spec.FilesWF files := by
  intro p bf hp
  obtain ⟨doc, _, hd⟩ := h p bf hp
  obtain ⟨_, es, _, hf⟩ := C40_file d hd
  refine ⟨hf.wfTasks, hf.wfIncludes, ?_, envIs_wf hf.env, ?_⟩
  · have := hf.vars
    split at this
    · rw [this]; exact List.nodup_nil
    · obtain ⟨m, hm, he⟩ := this; rw [hm]; exact envIs_wf he
  · intro n T hT
    cases hl : last n (entriesOf "tasks".toList es) with
    | none => rw [hf.others n hl] at hT; cases hT
    | some v =>
      obtain ⟨t, ht, hti, _⟩ := hf.tasks n v hl
      rw [hT] at ht
      obtain rfl := Option.some.inj ht
      obtain ⟨_, es', _, _, _, _, hv, he, _⟩ := hti
      refine ⟨?_, envIs_wf he⟩
      split at hv
      · rw [hv]; exact List.nodup_nil
      · obtain ⟨m, hm, hh⟩ := hv; rw [hm]; exact envIs_wf hh

/-- a Babfile with a task of three items -/
def Sample.file : Node :=
  obj [("tasks", obj [("build", obj [("desc", str "Build"), ("deps", list [str "gen"]),
    ("run", list [obj [("cmd", str "make"), ("silent", str "true")], obj [("task", str "gen")],
      obj [("parallel", list [obj [("cmd", str "a"), ("label", str "A")], obj [("log", str "hi")]]), ("mode", str "grouped"), ("limit", str "2")]])]),
    ("gen", obj [("run", list [obj [("log", str "gen"), ("level", str "warn")]])])])]

example : unmarshalDoc decoders (some file) = .ok { vars := some [], tasks :=
    [("build".toList, { name := "build".toList, desc := "Build".toList, deps := ["gen".toList], run :=
      [.command { cmd := "make".toList, silent := some true }, .task { task := "gen".toList },
       .parallel [.command { cmd := "a".toList }, .log { log := "hi".toList, level := "info".toList }] ["A".toList, []] .grouped 2 none none none [] [] 0] }),
     ("gen".toList, { name := "gen".toList, run := [.log { log := "gen".toList, level := "warn".toList }] })] } := by rfl

/-- two kinds in an entry, and a task name that is given twice, are reported -/
example : unmarshalDoc decoders (some (obj [("tasks", obj [("t", obj [("run", list [obj [("cmd", str "a"), ("task", str "t")]])])])])) =
    .error [⟨0, .item "t".toList 0, .tooMany⟩] := by rfl

example : unmarshalDoc decoders (some (obj [("tasks", obj [("t", obj []), ("t", obj [])])])) = .error [⟨0, .file, .duplicateTask "t".toList 0⟩] := by rfl

/-- Limits of the property. A key given twice in a task counts only the last time: the first list is dropped. -/
theorem C40_run_given_twice : (parseTask decoders "t".toList
    (obj [("run", list [obj [("cmd", str "a")]]), ("run", list [obj [("cmd", str "b")]])])) =
    (some { name := "t".toList, run := [.command { cmd := "b".toList }] }, []) := by rfl

/-- Two mappings `tasks` at the root may hold the same name; the first task is dropped without an error. -/
theorem C40_tasks_given_twice : unmarshalDoc decoders (some (obj [("tasks", obj [("t", obj [("desc", str "a")])]), ("tasks", obj [("t", obj [("desc", str "b")])])])) =
    .ok { vars := some [], tasks := [("t".toList, { name := "t".toList, desc := "b".toList })] } := by rfl

/-- A YAML alias stands for its name instead of its target: `cmd: *x` runs `x`. -/
theorem C40_alias_name (target : Nat) : (parseRunItem decoders "t".toList 3 0 (.map 0 [(str "cmd", .ref 0 "x".toList target)])).1 =
    some (.command { cmd := "x".toList }) := by
  rfl

/-! ## C41 -/

/-- A parallel block that is read has at least one item, only commands, tasks and logs in it, a label for each item, a
mode that is written with one of the three names, and the limit that is written. -/
theorem C41_block (d : Decoders) {task : Str} {index line : Nat} {n : Node} {items : List RunItem} {labels : List Str} {mode : ParallelMode} {limit : Nat}
    {color silent output : Option Bool} {platforms : List Str} {cond : Str}
    (h : (parseRunItem d task (depth n) index n).1 = some (.parallel items labels mode limit color silent output platforms cond line)) :
    items ≠ [] ∧ labels.length = items.length ∧
    (∀ i ∈ items, (∃ c, i = .command c) ∨ (∃ t, i = .task t) ∨ (∃ l, i = .log l)) ∧
    (∃ es, n = .map line es ∧
      (mode = .interleaved ∧ NoKey "mode".toList es ∨
        ∃ e ∈ es, e.1.value = "mode".toList ∧ (e.2.value, mode) ∈ [("interleaved".toList, ParallelMode.interleaved), ("grouped".toList, .grouped), ("tabs".toList, .tabs)]) ∧
      (limit = 0 ∧ NoKey "limit".toList es ∨ ∃ e ∈ es, e.1.value = "limit".toList ∧ d.int e.2 = some (limit : Int))) := by
  obtain ⟨es, _, ns, hn, hl, hne, _, hall, hlab, hmode, hlim, _⟩ := C40_entry d h
  have hlen := hall.length_eq
  refine ⟨?_, by rw [hlab, List.length_map, hlen], ?_, es, hn, ?_, ?_⟩
  · rintro rfl
    exact hne (List.length_eq_zero_iff.mp hlen)
  · intro i hi
    obtain ⟨k, hk, rfl⟩ := List.mem_iff_getElem.mp hi
    obtain ⟨l', es', _, _, hs, hp⟩ := hall.get (by omega) hk
    change Simple d l' es' items[k] at hs
    change ∀ p, items[k] ≠ .prompt p at hp
    revert hs hp
    generalize items[k] = i
    intro hs hp
    cases i with
    | command c => exact Or.inl ⟨c, rfl⟩
    | task t => exact Or.inr (Or.inl ⟨t, rfl⟩)
    | log l => exact Or.inr (Or.inr ⟨l, rfl⟩)
    | prompt p => exact absurd rfl (hp p)
    | parallel => exact hs.elim
  · split at hmode
    · next hm => exact Or.inl ⟨hmode, fun e he hk => (last_none.mp hm) e he hk⟩
    · next m hm =>
      obtain ⟨_, t, v, rfl, hmem⟩ := hmode
      obtain ⟨e, he, hk, hv⟩ := last_mem hm
      exact Or.inr ⟨e, he, hk, by rw [hv]; exact hmem⟩
  · split at hlim
    · next hm => exact Or.inl ⟨hlim, fun e he hk => (last_none.mp hm) e he hk⟩
    · next m hm =>
      obtain ⟨e, he, hk, hv⟩ := last_mem hm
      exact Or.inr ⟨e, he, hk, by rw [hv]; exact hlim⟩

example : (parseRunItem decoders "t".toList 9 0 (obj [("parallel", list [obj [("cmd", str "a")]]), ("mode", str "tabs"), ("limit", str "3")])).1 =
    some (.parallel [.command { cmd := "a".toList }] [[]] .tabs 3 none none none [] [] 0) := by rfl

/-- a block without items, with a prompt, with a block inside, with an unknown mode, with a negative limit -/
example : ∀ n ∈ [obj [("parallel", list [])],
      obj [("parallel", list [obj [("prompt", str "x"), ("type", str "input"), ("message", str "m")]])],
      obj [("parallel", list [obj [("parallel", list [obj [("cmd", str "a")]])]])],
      obj [("parallel", list [obj [("cmd", str "a")]]), ("mode", str "fast")],
      obj [("parallel", list [obj [("cmd", str "a")]]), ("limit", str "-1")]],
    (parseRunItem decoders "t".toList 9 0 n).1 = none := by decide +kernel

/-! ## C42 -/

/-- A prompt that is read has a variable name, a message and a known type; select and multiselect have options and
their defaults are among them; min is not above max; a pattern compiles. This leaves out one part of the property:
the default of a number prompt is a number, but it need not be in the range (`C42_default_out_of_range`). -/
theorem C42_askable_partial (d : Decoders) {task : Str} {index : Nat} {n : Node} {p : PromptRun} (h : (parseRunItem d task (depth n) index n).1 = some (.prompt p)) :
    Askable d.compiles p ∧ (p.type = .number → p.default ≠ [] → ∃ v, atoi p.default = some v) := by
  obtain ⟨h1, h2⟩ := item_askable h
  exact ⟨h1, fun ht hd => Option.ne_none_iff_exists'.mp (h2 ht hd)⟩

/-- the full property, with the range of number prompts -/
def C42_full : Prop :=
  ∀ (d : Decoders) (task : Str) (index : Nat) (n : Node) (p : PromptRun), (parseRunItem d task (depth n) index n).1 = some (.prompt p) → Askable d.compiles p ∧ DefaultFits atoi p

/-- a select prompt with a default -/
def Sample.chooseEnv : Node :=
  obj [("prompt", str "e"), ("type", str "select"), ("message", str "Where?"), ("default", str "dev"), ("options", list [str "dev", str "prod"])]

/-- a number prompt whose default is above its maximum -/
def Sample.outOfRange : Node :=
  obj [("prompt", str "n"), ("type", str "number"), ("message", str "How many?"), ("default", str "50"), ("max", str "10")]

/-- The full property does not hold: the default of a number prompt is not compared with min and max. -/
theorem C42_default_out_of_range : ¬ C42_full := by
  intro h
  have h1 : (parseRunItem decoders "t".toList (depth outOfRange) 0 outOfRange).1 =
      some (.prompt { prompt := "n".toList, type := .number, message := "How many?".toList, default := "50".toList, max := some 10 }) := by
    rfl
  obtain ⟨v, hv, _, hb⟩ := (h _ _ _ _ _ h1).2 rfl (by decide)
  have h2 : atoi "50".toList = some 50 := by decide +kernel
  rw [show ({ prompt := "n".toList, type := .number, message := "How many?".toList, default := "50".toList, max := some 10 } : PromptRun).default =
    "50".toList from rfl, h2] at hv
  obtain rfl := Option.some.inj hv
  have := hb 10 rfl
  omega

/-- A multiselect prompt may ask for more choices than it has options, so that no answer is accepted. -/
theorem C42_unanswerable : ∃ p, (parseRunItem decoders "t".toList 9 0
      (obj [("prompt", str "n"), ("type", str "multiselect"), ("message", str "Which?"), ("options", list [str "a"]), ("min", str "2")])).1 =
        some (.prompt p) ∧ ∀ xs : List Str, xs.Sublist p.options → ∀ a, p.min = some a → ¬ a ≤ xs.length := by
  refine ⟨{ prompt := "n".toList, type := .multiselect, message := "Which?".toList, options := ["a".toList], min := some 2 }, by rfl, ?_⟩
  intro xs hx a ha
  cases ha
  have := hx.length_le
  simp only [List.length_cons, List.length_nil] at this
  omega

example : (parseRunItem decoders "t".toList 9 0 (obj [("prompt", str "env"), ("type", str "select"), ("message", str "Where?"), ("options", list [str "a", str "b"]),
    ("default", str "b")])).1 =
    some (.prompt { prompt := "env".toList, type := .select, message := "Where?".toList, options := ["a".toList, "b".toList], default := "b".toList }) := by
  rfl

/-- a bad name, no message, an unknown type, no options, a default that is not an option, min above max, a bad pattern,
options for an input, a default that is no number -/
example : ∀ es ∈ [[("prompt", str "1x"), ("type", str "input"), ("message", str "m")],
      [("prompt", str "x"), ("type", str "input")],
      [("prompt", str "x"), ("type", str "date"), ("message", str "m")],
      [("prompt", str "x"), ("type", str "select"), ("message", str "m")],
      [("prompt", str "x"), ("type", str "select"), ("message", str "m"), ("options", list [str "a"]), ("default", str "b")],
      [("prompt", str "x"), ("type", str "number"), ("message", str "m"), ("min", str "3"), ("max", str "2")],
      [("prompt", str "x"), ("type", str "input"), ("message", str "m"), ("validate", str "(")],
      [("prompt", str "x"), ("type", str "input"), ("message", str "m"), ("options", list [str "a"])],
      [("prompt", str "x"), ("type", str "number"), ("message", str "m"), ("default", str "ten")]],
    (parseRunItem decoders "t".toList 9 0 (obj es)).1 = none := by decide +kernel

end Bab.Yaml
