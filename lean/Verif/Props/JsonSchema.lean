import Verif.Proof.JsonSchema
import Verif.Props.Unmarshal
/-
C61: the published JSON schema and the reader of Babfiles.
-/

namespace Bab.Json
open Bab Bab.Yaml Bab.Yaml.Spec

namespace Spec

/-- a part of a task name: letters, digits, `_` and `-`, not empty -/
def IsPart (p : Str) : Prop := p ≠ [] ∧ ∀ c ∈ p, c.isAlphanum = true ∨ c = '_' ∨ c = '-'

/-- a task name: parts joined by colons -/
def IsName (s : Str) : Prop := ∃ parts : List Str, parts ≠ [] ∧ (∀ p ∈ parts, IsPart p) ∧ s = [':'].intercalate parts

/-- the entries of `run` of the tasks of a document -/
def Entry (doc n : Node) : Prop :=
  ∃ l es l1 kvs e l2 ts l3 ns, doc = .map l es ∧ last "tasks".toList es = some (.map l1 kvs) ∧ e ∈ kvs ∧ e.2 = .map l2 ts ∧
    last "run".toList ts = some (.seq l3 ns) ∧ n ∈ ns

/-- every prompt of the document can be asked: its options fit its type, its bounds are in order, its default is an
option or a number, its pattern compiles -/
def PromptsFit (d : Decoders) (doc : Node) : Prop :=
  ∀ l es, Entry doc (.map l es) → ¬ NoKey "prompt".toList es →
    ∃ p, Simple d l es (.prompt p) ∧ Askable d.compiles p ∧ (p.type = .number → p.default ≠ [] → atoi p.default ≠ none)

end Spec

/-- a decoder for the examples -/
def Sample.decoders : Decoders :=
  { Yaml.Sample.decoders with
    bool := fun n => match n with
      | .scalar _ _ v => if v ∈ ["true".toList, "True".toList, "TRUE".toList] then some true
                       else if v ∈ ["false".toList, "False".toList, "FALSE".toList] then some false else none
      | _ => none }

theorem Sample.reads : Reads Sample.decoders atoi where
  strs := by
    intro l xs
    show (xs.map (fun x => Node.scalar x.1 "!!str".toList x.2)).mapM _ = some (xs.map (·.2))
    induction xs with
    | nil => rfl
    | cons v vs ih => rw [List.map_cons, List.mapM_cons, ih]; rfl
  int := fun _ v i h => h
  bool := by
    intro l v hv
    have : ∀ v ∈ boolTexts, Sample.decoders.bool (.scalar 0 "!!bool".toList v) ≠ none := by decide
    exact this v hv
  inc := fun _ _ _ v => rfl

/-- If every prompt can be asked, a document that satisfies the schema is read without an error. -/
theorem C61_valid_is_read {d : Decoders} {num : Str → Option Int} (hd : Reads d num) {doc : Node} (h : valid num babfileSchema doc = true)
    (hp : Spec.PromptsFit d doc) : ∃ s, unmarshalDoc d (some doc) = .ok s := by
  refine file_ok hd h ?_
  intro l es lt kvs e hes htasks he l2 ts lr ns m lm es' hts hrun hm hes' hno
  subst hes'
  exact ⟨lm, hp lm es' ⟨l, es, lt, kvs, e, l2, ts, lr, ns, hes, htasks, he, hts, hrun, hm⟩ hno⟩

theorem fold_good {σ α : Type} {f : σ → α → σ} {good : σ → Prop} (hf : ∀ st e, good (f st e) → good st) :
    ∀ (l : List α) (st : σ), good (l.foldl f st) → good st ∧ ∀ e ∈ l, ∃ st, good (f st e) := by
  intro l
  induction l with
  | nil => intro st h; exact ⟨h, fun e he => by cases he⟩
  | cons e l ih =>
    intro st h
    obtain ⟨h1, h2⟩ := ih _ h
    refine ⟨hf _ _ h1, ?_⟩
    intro x hx
    rcases List.mem_cons.mp hx with rfl | hx
    · exact ⟨st, h1⟩
    · exact h2 x hx

theorem keep_errs {α : Type} {st : FileState} {r : Res α} {f : Schema → α → Schema} (h : (st.keep r f).errs = []) : st.errs = [] := by
  unfold FileState.keep at h
  cases hr : r.1 with
  | none => rw [hr] at h; exact (List.append_eq_nil_iff.mp h).1
  | some a => rw [hr] at h; exact (List.append_eq_nil_iff.mp h).1

theorem fileField_good (d : Decoders) (st : FileState) (e : Node × Node) (h : (fileField d st e).errs = []) : st.errs = [] := by
  unfold fileField at h
  cases hk : fKeyOf e.1.value with
  | vars => rw [hk] at h; exact keep_errs h
  | env => rw [hk] at h; exact keep_errs h
  | silent => rw [hk] at h; exact keep_errs h
  | output => rw [hk] at h; exact keep_errs h
  | dir => rw [hk] at h; exact keep_errs h
  | tasks => rw [hk] at h; exact (List.append_eq_nil_iff.mp h).1
  | includes => rw [hk] at h; exact (List.append_eq_nil_iff.mp h).1
  | other => rw [hk] at h; exact h

theorem tkeep_bad {α : Type} {st : TaskState} {r : Res α} {f : Task → α → Task} (h : (st.keep r f).bad = false) : st.bad = false := by
  obtain ⟨a, _, heq⟩ := tkeep_good h
  rw [heq] at h; exact h

theorem taskField_good (d : Decoders) (name : Str) (st : TaskState) (e : Node × Node) (h : (taskField d name st e).bad = false) : st.bad = false := by
  unfold taskField at h
  cases hk : tKeyOf e.1.value with
  | desc => rw [hk] at h; exact h
  | nick => rw [hk] at h; exact h
  | cond => rw [hk] at h; exact h
  | other => rw [hk] at h; exact h
  | aliases => rw [hk] at h; exact tkeep_bad h
  | vars => rw [hk] at h; exact tkeep_bad h
  | env => rw [hk] at h; exact tkeep_bad h
  | silent => rw [hk] at h; exact tkeep_bad h
  | output => rw [hk] at h; exact tkeep_bad h
  | dir => rw [hk] at h; exact tkeep_bad h
  | deps => rw [hk] at h; exact tkeep_bad h
  | run => rw [hk] at h; exact tkeep_bad h

/-- every entry of a document that is read was read -/
theorem entry_read {d : Decoders} {doc n : Node} {s : Schema} (hs : unmarshalDoc d (some doc) = .ok s) (he : Spec.Entry doc n) :
    ∃ task f j i, (parseRunItem d task f j n).1 = some i := by
  obtain ⟨_, es, _, kvs, e, _, ts, _, ns, rfl, htasks, he, hts, hrun, hn⟩ := he
  obtain ⟨te, hte, hkey, hval⟩ := last_mem htasks
  have herr : (es.foldl (fileField d) {}).errs = [] := by
    unfold unmarshalDoc at hs
    dsimp only at hs
    split at hs
    · next h => exact h
    · cases hs
  obtain ⟨st, hst⟩ := (fold_good (good := fun st : FileState => st.errs = []) (fileField_good d) es {} herr).2 te hte
  have h1 : (parseTasks d te.2 st.schema.tasks).2 = [] := by
    unfold fileField at hst
    rw [hkey] at hst
    exact (List.append_eq_nil_iff.mp hst).2
  rw [hval, parseTasks] at h1
  obtain ⟨st', hst'⟩ := (fold_good (good := fun st : TasksState => st.errs = []) (fun st e h => (tasksField_errs d st e h).1) kvs _ h1).2 e he
  obtain ⟨_, _, _, t, ht, _⟩ := tasksField_errs d st' e hst'
  rw [hts, parseTask] at ht
  dsimp only at ht
  have hbad : (ts.foldl (taskField d e.1.value) { task := { name := e.1.value } }).bad = false := by
    cases hb : (ts.foldl (taskField d e.1.value) { task := { name := e.1.value } }).bad with
    | false => rfl
    | true => rw [hb, if_pos rfl] at ht; cases ht
  obtain ⟨re, hre, hrkey, hrval⟩ := last_mem hrun
  obtain ⟨st'', hst''⟩ := (fold_good (good := fun st : TaskState => st.bad = false) (taskField_good d _) ts _ hbad).2 re hre
  unfold taskField at hst''
  rw [hrkey] at hst''
  obtain ⟨run, hr, _⟩ := tkeep_good (r := parseRunItems e.1.value (parseRunItem d e.1.value (depth re.2)) re.2) hst''
  obtain ⟨_, ns', hns', hall⟩ := runItems_some hr
  rw [hrval] at hns'
  cases hns'
  obtain ⟨j, hj, rfl⟩ := List.getElem_of_mem hn
  obtain ⟨k, hk⟩ := hall.get hj (by rw [← hall.length_eq]; exact hj)
  exact ⟨_, _, k, _, hk⟩

/-- the entries of a document that satisfies the schema satisfy the schema of entries -/
theorem entry_valid {num : Str → Option Int} {doc n : Node} (h : valid num babfileSchema doc = true) (he : Spec.Entry doc n) :
    valid num runItemSchema n = true := by
  obtain ⟨_, ds, _, kvs, e, _, ts, _, ns, rfl, htasks, he, hts, hrun, hn⟩ := he
  obtain ⟨_, ds', hds, hk, _, hall⟩ := obj_valid h
  cases hds
  obtain ⟨n1, hl1, hv1⟩ := (value_of hk hall (by decide) (k := "tasks".toList) (s := .dict (some isTaskName) 1 taskSchema) (by simp)).resolve_left
    (fun hno => by rw [last_none.mpr hno] at htasks; cases htasks)
  rw [htasks] at hl1
  obtain rfl := Option.some.inj hl1
  obtain ⟨_, kvs', hkvs, _, _, _, hall1⟩ := dict_valid hv1
  cases hkvs
  have hv2 := hall1 e he
  rw [hts] at hv2
  obtain ⟨_, ts', hts', hk2, _, hall2⟩ := obj_valid hv2
  cases hts'
  obtain ⟨n2, hl2, hv3⟩ := (value_of hk2 hall2 (by decide) (k := "run".toList) (s := .arr 1 false runItemSchema) (by simp)).resolve_left
    (fun hno => by rw [last_none.mpr hno] at hrun; cases hrun)
  rw [hrun] at hl2
  obtain rfl := Option.some.inj hl2
  obtain ⟨_, ns', hns', _, hall3⟩ := arr_valid hv3
  cases hns'
  exact hall3 _ hn

/-- For a document that satisfies the schema: it is read if and only if every prompt in it can be asked. -/
theorem C61_read_iff {d : Decoders} {num : Str → Option Int} (hd : Reads d num) {doc : Node} (h : valid num babfileSchema doc = true) :
    (∃ s, unmarshalDoc d (some doc) = .ok s) ↔ Spec.PromptsFit d doc := by
  refine ⟨?_, C61_valid_is_read hd h⟩
  rintro ⟨s, hs⟩ l es he hno
  obtain ⟨task, f, j, i, hi⟩ := entry_read hs he
  have hv := entry_valid h he
  -- only the prompt schema allows the key
  obtain ⟨sc, hsc, hv⟩ := oneOf_valid hv
  have hprompt : kinds es = ["prompt".toList] ∧ NoKey "parallel".toList es := by
    simp only [List.mem_cons, List.not_mem_nil, or_false] at hsc
    rcases hsc with rfl | rfl | rfl | rfl | rfl
    · obtain ⟨_, es', hes', _, _, hall⟩ := obj_valid hv; cases hes'; exact absurd (noKey_of hall (by decide)) hno
    · obtain ⟨_, es', hes', _, _, hall⟩ := obj_valid hv; cases hes'; exact absurd (noKey_of hall (by decide)) hno
    · obtain ⟨_, es', hes', _, _, hall⟩ := obj_valid hv; cases hes'; exact absurd (noKey_of hall (by decide)) hno
    · obtain ⟨_, es', hes', h2, h3, _⟩ := promptItem_ok hd hv; cases hes'; exact ⟨h3, h2⟩
    · obtain ⟨_, es', hes', h2, _⟩ := parallel_ok hd hv; cases hes'; exact absurd h2 hno
  have hdesc := item_describes d task f j _ i hi
  cases i with
  | prompt p =>
    obtain ⟨_, es', hes', _, hS⟩ := hdesc
    cases hes'
    exact ⟨p, hS, item_askable hi⟩
  | command c =>
    obtain ⟨_, es', hes', _, hS⟩ := hdesc
    cases hes'
    have := hS.1
    rw [hprompt.1] at this
    exact absurd this (by decide)
  | task c =>
    obtain ⟨_, es', hes', _, hS⟩ := hdesc
    cases hes'
    have := hS.1
    rw [hprompt.1] at this
    exact absurd this (by decide)
  | log c =>
    obtain ⟨_, es', hes', _, hS⟩ := hdesc
    cases hes'
    have := hS.1
    rw [hprompt.1] at this
    exact absurd this (by decide)
  | parallel =>
    obtain ⟨es', _, ns, hes', hl, _⟩ := hdesc
    cases hes'
    obtain ⟨e, he, hke, _⟩ := last_mem hl
    exact absurd hke (hprompt.2 e he)

/-- Without prompts the schema is enough. -/
theorem C61_without_prompts {d : Decoders} {num : Str → Option Int} (hd : Reads d num) {doc : Node} (h : valid num babfileSchema doc = true)
    (hp : ∀ l es, Spec.Entry doc (.map l es) → NoKey "prompt".toList es) : ∃ s, unmarshalDoc d (some doc) = .ok s :=
  C61_valid_is_read hd h (fun l es he hno => absurd (hp l es he) hno)

theorem nameChar_iff (c : Char) : nameChar c = true ↔ c.isAlphanum = true ∨ c = '_' ∨ c = '-' := by
  unfold nameChar Char.isAlphanum Char.isAlpha Char.isUpper Char.isLower Char.isDigit
  simp only [decide_eq_true_eq, Bool.or_eq_true, Bool.and_eq_true, Char.le_def, ge_iff_le]
  constructor
  · rintro (h | h | h | h | h)
    · exact Or.inl (Or.inl (Or.inr h))
    · exact Or.inl (Or.inl (Or.inl h))
    · exact Or.inl (Or.inr h)
    · exact Or.inr (Or.inl h)
    · exact Or.inr (Or.inr h)
  · rintro (((h | h) | h) | h | h)
    · exact Or.inr (Or.inl h)
    · exact Or.inl h
    · exact Or.inr (Or.inr (Or.inl h))
    · exact Or.inr (Or.inr (Or.inr (Or.inl h)))
    · exact Or.inr (Or.inr (Or.inr (Or.inr h)))

theorem nameFrom_parts : ∀ (s : Str) (start : Bool), nameFrom start s = true →
    ∃ p ps, s = [':'].intercalate (p :: ps) ∧ (∀ c ∈ p, nameChar c = true) ∧ (start = true → p ≠ []) ∧ ∀ q ∈ ps, q ≠ [] ∧ ∀ c ∈ q, nameChar c = true := by
  intro s
  induction s with
  | nil =>
    intro start h
    refine ⟨[], [], by simp [List.intercalate], by simp, ?_, by simp⟩
    rintro rfl
    cases h
  | cons c r ih =>
    intro start h
    rw [nameFrom] at h
    split at h
    · next hc =>
      obtain ⟨p, ps, rfl, h2, _, h4⟩ := ih false h
      refine ⟨c :: p, ps, ?_, ?_, by simp, h4⟩
      · cases ps <;> simp [List.intercalate, List.intersperse]
      · intro x hx
        rcases List.mem_cons.mp hx with rfl | hx
        · exact hc
        · exact h2 x hx
    · simp only [Bool.and_eq_true, decide_eq_true_eq, Bool.not_eq_true'] at h
      obtain ⟨⟨rfl, hs⟩, h⟩ := h
      obtain ⟨p, ps, rfl, h2, h3, h4⟩ := ih true h
      refine ⟨[], p :: ps, ?_, by simp, ?_, ?_⟩
      · simp [List.intercalate, List.intersperse]
      · intro h; rw [hs] at h; cases h
      · intro q hq
        rcases List.mem_cons.mp hq with rfl | hq
        · exact ⟨h3 rfl, h2⟩
        · exact h4 q hq

theorem nameFrom_part : ∀ (p : Str), (∀ c ∈ p, nameChar c = true) → ∀ (r : Str) (start : Bool), (p ≠ [] ∨ start = false) →
    nameFrom start (p ++ r) = nameFrom false r := by
  intro p
  induction p with
  | nil => intro _ r start h; rw [h.resolve_left (fun h => h rfl)]; rfl
  | cons c p ih =>
    intro hc r start _
    rw [List.cons_append, nameFrom, if_pos (hc c (List.mem_cons_self ..))]
    exact ih (fun x hx => hc x (List.mem_cons_of_mem _ hx)) r false (Or.inr rfl)

/-- The pattern of task names. -/
theorem C61_name_pattern (s : Str) : isTaskName s = true ↔ Spec.IsName s := by
  unfold isTaskName
  constructor
  · intro h
    obtain ⟨p, ps, h1, h2, h3, h4⟩ := nameFrom_parts s true h
    refine ⟨p :: ps, by simp, ?_, h1⟩
    intro q hq
    rcases List.mem_cons.mp hq with rfl | hq
    · exact ⟨h3 rfl, fun c hc => (nameChar_iff c).mp (h2 c hc)⟩
    · exact ⟨(h4 q hq).1, fun c hc => (nameChar_iff c).mp ((h4 q hq).2 c hc)⟩
  · rintro ⟨parts, hne, hall, rfl⟩
    induction parts with
    | nil => exact absurd rfl hne
    | cons p ps ih =>
      have hp := hall p (List.mem_cons_self ..)
      have hpc : ∀ c ∈ p, nameChar c = true := fun c hc => (nameChar_iff c).mpr (hp.2 c hc)
      cases ps with
      | nil =>
        have := nameFrom_part p hpc [] true (Or.inl hp.1)
        simpa [List.intercalate, nameFrom] using this
      | cons q ps =>
        have h1 : [':'].intercalate (p :: q :: ps) = p ++ ':' :: [':'].intercalate (q :: ps) := by simp [List.intercalate, List.intersperse]
        rw [h1, nameFrom_part p hpc _ true (Or.inl hp.1), nameFrom, if_neg (by decide)]
        rw [ih (by simp) (fun x hx => hall x (List.mem_cons_of_mem _ hx))]
        rfl

/-- In a file that satisfies the schema every task, alias and dependency has a proper name. -/
theorem C61_names {d : Decoders} {num : Str → Option Int} (hd : Reads d num) {doc : Node} {s : Schema} (h : valid num babfileSchema doc = true)
    (hs : unmarshalDoc d (some doc) = .ok s) {x : Str} {t : Task} (ht : s.tasks.get? x = some t) :
    Spec.IsName x ∧ (t.alias = [] ∨ Spec.IsName t.alias) ∧ (∀ a ∈ t.aliases, Spec.IsName a) ∧ ∀ a ∈ t.deps, Spec.IsName a := by
  obtain ⟨_, es, hes, hf⟩ := C40_file d hs
  cases hes
  obtain ⟨_, es', hes', hk, _, hall⟩ := obj_valid h
  cases hes'
  cases hl : last x (entriesOf "tasks".toList es) with
  | none => rw [hf.others x hl] at ht; cases ht
  | some n =>
    obtain ⟨t', ht', hti, _⟩ := hf.tasks x n hl
    rw [ht] at ht'
    obtain rfl := Option.some.inj ht'
    obtain ⟨e, he, hek, hen⟩ := last_mem hl
    unfold entriesOf at he
    obtain ⟨te, hte, hin⟩ := List.mem_flatMap.mp he
    split at hin
    · next hkey =>
      obtain ⟨sc, hsc, hv⟩ := hall te hte
      rw [hkey] at hsc
      obtain rfl : sc = .dict (some isTaskName) 1 taskSchema := by
        have := List.inj_on_of_nodup_map (f := fun p : Str × JS => p.1) (l := _) (by decide) hsc
          (show ("tasks".toList, JS.dict (some isTaskName) 1 taskSchema) ∈ _ by simp) rfl
        exact (Prod.mk.inj this).2
      obtain ⟨_, kvs, hkvs, _, _, hnames, hvals⟩ := dict_valid hv
      rw [hkvs] at hin
      have hname := hnames e hin _ rfl
      have hval := hvals e hin
      rw [hek] at hname
      rw [hen] at hval
      refine ⟨(C61_name_pattern x).mp hname, ?_⟩
      obtain ⟨_, ts, hts, hk2, _, hall2⟩ := obj_valid hval
      obtain ⟨_, ts', hts', _, hal, hals, _, _, _, _, _, _, hdeps, _⟩ := hti
      rw [hts] at hts'
      cases hts'
      have hlist : ∀ k ∈ ["aliases".toList, "deps".toList], ∀ a ∈ ((last k ts).bind d.strs).getD [], Spec.IsName a := by
        intro k hkm a ha
        have hmem : (k, taskNamesSchema) ∈ [("desc".toList, anyText), ("alias".toList, JS.str 0 (some isTaskName) []), ("aliases".toList, taskNamesSchema), ("vars".toList, varsSchema),
            ("env".toList, envSchema), ("silent".toList, .bool), ("output".toList, .bool), ("dir".toList, anyText), ("when".toList, anyText),
            ("deps".toList, taskNamesSchema), ("run".toList, .arr 1 false runItemSchema)] := by
          simp only [List.mem_cons, List.not_mem_nil, or_false] at hkm
          rcases hkm with rfl | rfl <;> simp
        rcases value_of hk2 hall2 (by decide) hmem with hno | ⟨m, hlm, hvm⟩
        · rw [last_none.mpr hno] at ha; cases ha
        · obtain ⟨vs, hvs, _, hpat⟩ := strs_ok hd hvm
          rw [hlm] at ha
          simp only [Option.bind_some, hvs, Option.getD_some] at ha
          exact (C61_name_pattern a).mp ((hpat a ha).2.1 _ rfl)
      refine ⟨?_, ?_, ?_⟩
      · rcases value_of hk2 hall2 (by decide) (k := "alias".toList) (s := .str 0 (some isTaskName) []) (by simp) with hno | ⟨m, hlm, hvm⟩
        · rw [hal, text_absent hno]; exact Or.inl rfl
        · obtain ⟨_, v, rfl, _, hpat, _⟩ := str_valid hvm
          right
          have : text "alias".toList ts = v := by unfold text; rw [hlm]; rfl
          rw [hal, this]
          exact (C61_name_pattern v).mp (hpat _ rfl)
      · rw [hals]; exact hlist _ (by simp)
      · rw [hdeps]; exact hlist _ (by simp)
    · cases hin

/-- a variable name: letters, digits and `_`, not beginning with a digit -/
def Spec.IsVar (x : Str) : Prop := ∃ c r, x = c :: r ∧ (c.isAlpha = true ∨ c = '_') ∧ ∀ y ∈ r, y.isAlphanum = true ∨ y = '_'

/-- Every prompt in a file that satisfies the schema has a proper name, one of the six types, and a message. -/
theorem C61_prompt_basics {num : Str → Option Int} {doc : Node} (h : valid num babfileSchema doc = true) {l : Nat} {es : List (Node × Node)}
    (he : Spec.Entry doc (.map l es)) (hp : ¬ NoKey "prompt".toList es) :
    Spec.IsVar (text "prompt".toList es) ∧ text "message".toList es ≠ [] ∧
    text "type".toList es ∈ ["confirm".toList, "input".toList, "select".toList, "multiselect".toList, "password".toList, "number".toList] := by
  obtain ⟨sc, hsc, hv⟩ := oneOf_valid (entry_valid h he)
  simp only [List.mem_cons, List.not_mem_nil, or_false] at hsc
  rcases hsc with rfl | rfl | rfl | rfl | rfl
  · obtain ⟨_, es', hes', _, _, hall⟩ := obj_valid hv; cases hes'; exact absurd (noKey_of hall (by decide)) hp
  · obtain ⟨_, es', hes', _, _, hall⟩ := obj_valid hv; cases hes'; exact absurd (noKey_of hall (by decide)) hp
  · obtain ⟨_, es', hes', _, _, hall⟩ := obj_valid hv; cases hes'; exact absurd (noKey_of hall (by decide)) hp
  · obtain ⟨_, es', hes', hk, hreq, hall⟩ := obj_valid hv
    cases hes'
    have key : ∀ {k sc}, (k, sc) ∈ [("prompt".toList, JS.str 1 (some isVarName) []), ("type".toList, promptTypeSchema), ("message".toList, someText)] →
        ∃ n, last k es = some n ∧ valid num sc n = true := by
      intro k sc hm
      refine (value_of hk hall (by decide) (k := k) (s := sc) ?_).resolve_left ?_
      · simp only [List.mem_cons, List.not_mem_nil, or_false] at hm ⊢
        rcases hm with hm | hm | hm <;> simp [hm]
      · intro hno
        obtain ⟨e, he, hke⟩ := hreq k (by
          simp only [List.mem_cons, List.not_mem_nil, or_false] at hm ⊢
          rcases hm with hm | hm | hm <;> simp [(Prod.mk.inj hm).1])
        exact hno e he hke
    obtain ⟨n1, h1, hv1⟩ := key (k := "prompt".toList) (sc := .str 1 (some isVarName) []) (by simp)
    obtain ⟨n2, h2, hv2⟩ := key (k := "type".toList) (sc := promptTypeSchema) (by simp)
    obtain ⟨n3, h3, hv3⟩ := key (k := "message".toList) (sc := someText) (by simp)
    obtain ⟨_, v1, rfl, _, hpat, _⟩ := str_valid hv1
    obtain ⟨_, v2, rfl, _, _, hen⟩ := str_valid hv2
    obtain ⟨_, v3, rfl, hlen, _, _⟩ := str_valid hv3
    have t1 : text "prompt".toList es = v1 := by unfold text; rw [h1]; rfl
    have t2 : text "type".toList es = v2 := by unfold text; rw [h2]; rfl
    have t3 : text "message".toList es = v3 := by unfold text; rw [h3]; rfl
    rw [t1, t2, t3]
    exact ⟨varName_chars (hpat _ rfl), by intro h0; rw [h0] at hlen; simp at hlen, hen (by simp)⟩
  · obtain ⟨_, es', hes', _, _, hall⟩ := obj_valid hv; cases hes'; exact absurd (noKey_of hall (by decide)) hp

theorem vars_named {num : Str → Option Int} {v : Node} {m : GoMap Str} (hv : valid num varsSchema v = true) (hm : EnvIs (some v) m) {x w : Str}
    (hx : m.get? x = some w) : Spec.IsVar x := by
  obtain ⟨_, kvs, rfl, _, _, hnames, _⟩ := dict_valid hv
  obtain ⟨_, _, hget⟩ := hm
  rw [hget] at hx
  obtain ⟨n, hn, -⟩ := Option.map_eq_some_iff.mp hx
  obtain ⟨e, he, hek, _⟩ := last_mem hn
  exact varName_chars (hek ▸ hnames e he _ rfl)

/-- In a file that satisfies the schema every variable has a name that can be referred to. -/
theorem C61_variables {d : Decoders} {num : Str → Option Int} {doc : Node} {s : Schema} (h : valid num babfileSchema doc = true)
    (hs : unmarshalDoc d (some doc) = .ok s) {x w : Str} :
    ((s.vars.getD []).get? x = some w → Spec.IsVar x) ∧
    ∀ n t, s.tasks.get? n = some t → (t.vars.getD []).get? x = some w → Spec.IsVar x := by
  obtain ⟨_, es, hes, hf⟩ := C40_file d hs
  cases hes
  obtain ⟨_, es', hes', hk, _, hall⟩ := obj_valid h
  cases hes'
  constructor
  · intro hx
    have hv := hf.vars
    rcases value_of hk hall (by decide) (k := "vars".toList) (s := varsSchema) (by simp) with hno | ⟨n, hl, hn⟩
    · rw [last_none.mpr hno] at hv
      simp only at hv
      rw [hv] at hx
      cases hx
    · rw [hl] at hv
      simp only at hv
      obtain ⟨m, hm, hE⟩ := hv
      rw [hm] at hx
      exact vars_named hn hE hx
  · intro k t ht hx
    cases hl : last k (entriesOf "tasks".toList es) with
    | none => rw [hf.others k hl] at ht; cases ht
    | some n =>
      obtain ⟨t', ht', hti, _⟩ := hf.tasks k n hl
      rw [ht] at ht'
      obtain rfl := Option.some.inj ht'
      obtain ⟨e, he, hek, hen⟩ := last_mem hl
      unfold entriesOf at he
      obtain ⟨te, hte, hin⟩ := List.mem_flatMap.mp he
      split at hin
      · next hkey =>
        obtain ⟨sc, hsc, hv⟩ := hall te hte
        rw [hkey] at hsc
        obtain rfl : sc = .dict (some isTaskName) 1 taskSchema := by
          have := List.inj_on_of_nodup_map (f := fun p : Str × JS => p.1) (l := _) (by decide) hsc
            (show ("tasks".toList, JS.dict (some isTaskName) 1 taskSchema) ∈ _ by simp) rfl
          exact (Prod.mk.inj this).2
        obtain ⟨_, kvs, hkvs, _, _, _, hvals⟩ := dict_valid hv
        rw [hkvs] at hin
        have hval := hvals e hin
        rw [hen] at hval
        obtain ⟨_, ts, hts, hk2, _, hall2⟩ := obj_valid hval
        obtain ⟨_, ts', hts', _, _, _, hvars, _⟩ := hti
        rw [hts] at hts'
        cases hts'
        rcases value_of hk2 hall2 (by decide) (k := "vars".toList) (s := varsSchema) (by simp) with hno | ⟨n2, hl2, hn2⟩
        · rw [last_none.mpr hno] at hvars
          simp only at hvars
          rw [hvars] at hx
          cases hx
        · rw [hl2] at hvars
          simp only at hvars
          obtain ⟨m, hm, hE⟩ := hvars
          rw [hm] at hx
          exact vars_named hn2 hE hx
      · cases hin

/-! ## examples -/

local notation "str" => Bab.Yaml.Sample.str
local notation "obj" => Bab.Yaml.Sample.obj
local notation "list" => Bab.Yaml.Sample.list

namespace Sample

/-- a boolean -/
def bool (s : String) : Node := .scalar 0 "!!bool".toList s.toList
/-- an integer -/
def int (s : String) : Node := .scalar 0 "!!int".toList s.toList

/-- a document with one task -/
def fileOf (run : List Node) : Node := obj [("tasks", obj [("t", obj [("run", list run)])])]

/-- a document with all kinds of entries -/
def all : Node := obj
  [("vars", obj [("app", str "web")]), ("env", obj [("MODE", str "dev")]), ("silent", bool "false"), ("dir", str "src"),
   ("includes", obj [("lib", obj [("babfile", str "./lib/Babfile.yml")])]),
   ("tasks", obj
     [("build", obj
        [("desc", str "Build"), ("aliases", list [str "b", str "make"]), ("deps", list [str "lib:setup"]), ("output", bool "true"),
         ("run", list
           [obj [("cmd", str "go build"), ("platforms", list [str "linux", str "darwin"]), ("env", obj [("X", str "1")])],
            obj [("task", str "lib:setup"), ("when", str "${{ app }} == web")],
            obj [("log", str "done"), ("level", str "warn")],
            obj [("prompt", str "n"), ("type", str "select"), ("message", str "Which?"), ("options", list [str "a", str "b"]), ("default", str "a")],
            obj [("parallel", list [obj [("cmd", str "a"), ("label", str "A")], obj [("task", str "build")]]), ("mode", str "grouped"), ("limit", int "2")]])])])]

end Sample

open Sample

/-- a document that satisfies the schema and is read -/
example : valid atoi babfileSchema Sample.all = true ∧ ∃ s, unmarshalDoc Sample.decoders (some Sample.all) = .ok s ∧ (s.tasks.get? "build".toList).isSome = true := by
  refine ⟨by decide +kernel, _, by rfl, by rfl⟩

/-- its prompt can be asked, by the theorem above -/
example : Spec.PromptsFit Sample.decoders Sample.all :=
  (C61_read_iff Sample.reads (by decide +kernel)).mp ⟨_, by rfl⟩

/-- its prompt has a name, a type and a message -/
example : Spec.IsVar "n".toList := by
  have := (C61_prompt_basics (num := atoi) (doc := Sample.all) (by decide +kernel) (es := _)
    ⟨_, _, _, _, _, _, _, _, _, rfl, rfl, List.mem_singleton.mpr rfl, rfl, rfl, .tail _ (.tail _ (.tail _ (.head _)))⟩ (by unfold NoKey; decide +kernel)).1
  exact this

example : Spec.IsName "lib:set-up_2".toList := (C61_name_pattern _).mp (by decide)
example : ¬ Spec.IsName "lib:".toList := fun h => absurd ((C61_name_pattern _).mpr h) (by decide)

/-- Schema and reader disagree on prompts: a select without options, and bounds in the wrong order, satisfy the schema and
are rejected. -/
theorem C61_rejected_though_valid :
    (valid atoi babfileSchema (fileOf [obj [("prompt", str "x"), ("type", str "select"), ("message", str "Which?")]]) = true ∧
      ∀ s, unmarshalDoc Sample.decoders (some (fileOf [obj [("prompt", str "x"), ("type", str "select"), ("message", str "Which?")]])) ≠ .ok s) ∧
    (valid atoi babfileSchema (fileOf [obj [("prompt", str "x"), ("type", str "number"), ("message", str "How many?"), ("min", int "9"), ("max", int "1")]]) = true ∧
      ∀ s, unmarshalDoc Sample.decoders
        (some (fileOf [obj [("prompt", str "x"), ("type", str "number"), ("message", str "How many?"), ("min", int "9"), ("max", int "1")]])) ≠ .ok s) := by
  refine ⟨⟨by decide +kernel, ?_⟩, by decide +kernel, ?_⟩
  · intro s h
    have : unmarshalDoc Sample.decoders (some (fileOf [obj [("prompt", str "x"), ("type", str "select"), ("message", str "Which?")]])) = .error [⟨0, .item "t".toList 0, .prompt "x".toList (.noOptions "select".toList)⟩] := by rfl
    rw [this] at h; cases h
  · intro s h
    have : unmarshalDoc Sample.decoders
        (some (fileOf [obj [("prompt", str "x"), ("type", str "number"), ("message", str "How many?"), ("min", int "9"), ("max", int "1")]])) = .error [⟨0, .item "t".toList 0, .prompt "x".toList (.range 9 1)⟩] := by rfl
    rw [this] at h; cases h

/-- The other direction: the number prompt of the guide (`default: 3`), a number as the value of an environment variable,
an unknown key, an empty list of entries and a name with a dot do not satisfy the schema, but are read without an error. -/
theorem C61_read_though_invalid :
    ∀ doc ∈ [fileOf [obj [("prompt", str "replicas"), ("type", str "number"), ("message", str "Number of replicas:"), ("default", int "3"),
               ("min", int "1"), ("max", int "10")]],
             fileOf [obj [("cmd", str "serve"), ("env", obj [("PORT", int "8080")])]],
             fileOf [obj [("cmd", str "serve"), ("timeout", str "5s")]],
             fileOf [],
             obj [("tasks", obj [("a.b", obj [("desc", str "x")])])]],
      valid atoi babfileSchema doc = false ∧ ∃ s, unmarshalDoc Sample.decoders (some doc) = .ok s := by
  intro doc hdoc
  simp only [List.mem_cons, List.not_mem_nil, or_false] at hdoc
  rcases hdoc with rfl | rfl | rfl | rfl | rfl
  · exact ⟨by decide +kernel, _, by rfl⟩
  · exact ⟨by decide +kernel, _, by rfl⟩
  · exact ⟨by decide +kernel, _, by rfl⟩
  · exact ⟨by decide +kernel, _, by rfl⟩
  · exact ⟨by decide +kernel, _, by rfl⟩

/-- Every name that the finder looks for ends in an extension the schema knows, or is `Babfile` alone, which the schema
does not allow as an include. -/
theorem C61_include_names : isBabfilePath "lib/Babfile".toList = false ∧
    ∀ n ∈ ["Babfile.yaml".toList, "Babfile.yml".toList, "babfile.yaml".toList, "babfile.yml".toList], isBabfilePath n = true := by
  decide +kernel

end Bab.Json
