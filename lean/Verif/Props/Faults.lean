import Verif.Proof.Faults
import Verif.Props.Unmarshal
import Verif.Props.Load
import Verif.Model.ReadMessage
/-
C74: every problem of a Babfile is reported, at its line, and nothing else.
-/

namespace Bab.Yaml
open Bab.Yaml.Spec

namespace Spec

/-- an entry of the tasks -/
def TaskEntry (root : Node) (name : Str) (k v : Node) : Prop :=
  ∃ l es e l' ts, root = .map l es ∧ e ∈ es ∧ e.1.value = "tasks".toList ∧ e.2 = .map l' ts ∧ (k, v) ∈ ts ∧ k.value = name

/-- a line of the part of the file that is named -/
def LineOf (root : Node) (line : Nat) : Part → Prop
  | .file => ∃ n, Within n root ∧ n.line = line
  | .task t => ∃ k v n, TaskEntry root t k v ∧ Within n v ∧ n.line = line
  | .item t i => ∃ k v l ns m n, TaskEntry root t k v ∧ Within (.seq l ns) v ∧ ns[i]? = some m ∧ Within n m ∧ n.line = line

end Spec

/-- **C74** The errors are the problems of the document. -/
theorem C74_reports (d : Decoders) (doc : Option Node) (r : Report) :
    (∃ errs, unmarshalDoc d doc = .error errs ∧ r ∈ errs) ↔ DocFault d doc r := by
  cases doc with
  | none =>
    constructor
    · rintro ⟨errs, h, hr⟩
      cases h
      obtain rfl := List.mem_singleton.mp hr
      exact .none
    · intro h; cases h; exact ⟨_, rfl, List.mem_singleton.mpr rfl⟩
  | some n =>
    have other : NotMapping n → ((∃ errs, Except.error (ε := List Report) (α := Schema) [⟨n.line, .file, .notMapping "root".toList⟩] = .error errs ∧ r ∈ errs) ↔
        DocFault d (some n) r) := by
      intro hn
      constructor
      · rintro ⟨errs, h, hr⟩
        cases h
        obtain rfl := List.mem_singleton.mp hr
        exact .kind hn
      · intro h
        cases h with
        | kind _ => exact ⟨_, rfl, List.mem_singleton.mpr rfl⟩
        | entry _ _ => exact absurd rfl (hn _ _)
    cases n with
    | scalar l t v => exact other (fun _ _ h => nomatch h)
    | seq l ns => exact other (fun _ _ h => nomatch h)
    | ref l x y => exact other (fun _ _ h => nomatch h)
    | map l es =>
      clear other
      rw [unmarshalDoc]
      have hm := mem_file (d := d) (es := es) (r := r)
      generalize es.foldl (fileField d) {} = st at hm
      constructor
      · rintro ⟨errs, h, hr⟩
        split at h
        · cases h
        · cases h
          obtain ⟨e, he, hf⟩ := hm.mp hr
          exact .entry he hf
      · intro h
        cases h with
        | kind h => exact absurd rfl (h _ _)
        | entry he hf =>
          have hr := hm.mpr ⟨_, he, hf⟩
          refine ⟨st.errs, ?_, hr⟩
          rw [if_neg]
          intro h0
          rw [h0] at hr; cases hr

/-- **C74** A document is accepted when it has no problem. -/
theorem C74_accepted (d : Decoders) (doc : Option Node) : (∃ s, unmarshalDoc d doc = .ok s) ↔ ∀ r, ¬ DocFault d doc r := by
  constructor
  · rintro ⟨s, hs⟩ r hr
    obtain ⟨errs, he, _⟩ := (C74_reports d doc r).mpr hr
    rw [hs] at he; cases he
  · intro h
    cases hu : unmarshalDoc d doc with
    | ok s => exact ⟨s, rfl⟩
    | error errs =>
      obtain ⟨r, hr⟩ := List.exists_mem_of_ne_nil _ (C40_rejected d hu)
      exact absurd ((C74_reports d doc r).mp ⟨errs, hu, hr⟩) (h r)

/-- **C74** An item is fine when there is nothing to be said about it, whatever its task and its number. -/
theorem C74_item (d : Decoders) (task : Str) (index : Nat) (n : Node) : FineItem d n ↔ ∀ r, ¬ ItemFault d task index n r :=
  fine_iff d task (depth n) index n (Nat.le_refl _)

/-- **C74** A problem in one place does not hide those of other entries of the file: they are reported whatever stands around. -/
theorem C74_together (d : Decoders) (l : Nat) (as es bs : List (Node × Node)) (r : Report) (h : DocFault d (some (.map l es)) r) :
    DocFault d (some (.map l (as ++ es ++ bs))) r := by
  cases h with
  | kind h => exact absurd rfl (h _ _)
  | entry he hf => exact .entry (by simp [he]) hf

/-- **C74** Nor does a problem of a task hide those of other tasks. -/
theorem C74_tasks (d : Decoders) (l l' : Nat) (k : Node) (es as bs : List (Node × Node)) (e : Node × Node) (r : Report) (hk : k.value = "tasks".toList)
    (he : (k, .map l' (as ++ e :: bs)) ∈ es) (hf : NoKey e.1.value as) (h : TaskFault d e.1.value e.2 r) :
    ∃ errs, unmarshalDoc d (some (.map l es)) = .error errs ∧ r ∈ errs :=
  (C74_reports d _ r).mpr (.entry he (.task hk rfl hf h))

/-! ## places -/

theorem Spec.Within.trans {a b c : Node} (h : Within a b) (h' : Within b c) : Within a c := by
  induction h' with
  | self => exact h
  | item hm _ ih => exact .item hm ih
  | key he _ ih => exact .key he ih
  | value he _ ih => exact .value he ih

theorem bool_line {d : Decoders} {n : Node} {r : Report} (h : BoolFault d n r) : r.part = .file ∧ r.line = n.line := by
  cases h <;> exact ⟨rfl, rfl⟩

theorem texts_line {what : Str} {n : Node} {r : Report} (h : TextsFault what n r) : r.part = .file ∧ ∃ m, Within m n ∧ m.line = r.line := by
  cases h with
  | kind h => exact ⟨rfl, n, .self, rfl⟩
  | entry e he _ => subst e; exact ⟨rfl, _, .value he .self, rfl⟩

theorem dir_line {pt : Part} {n : Node} {r : Report} (h : DirFault pt n r) : r.part = pt ∧ r.line = n.line := by cases h; exact ⟨rfl, rfl⟩

theorem platforms_line {d : Decoders} {l : Nat} {pt : Part} {n : Node} {r : Report} (h : PlatformsFault d l pt n r) : r.part = pt ∧ r.line = l := by
  cases h <;> exact ⟨rfl, rfl⟩

theorem field_line {d : Decoders} {pt : Part} {k v : Node} {r : Report} (h : FieldFault d pt k v r) :
    (r.part = .file ∨ r.part = pt) ∧ (r.line = k.line ∨ ∃ m, Within m v ∧ m.line = r.line) := by
  cases h with
  | dir _ h => exact ⟨Or.inr (dir_line h).1, Or.inr ⟨v, .self, (dir_line h).2.symm⟩⟩
  | env _ h => exact ⟨Or.inl (texts_line h).1, Or.inr (texts_line h).2⟩
  | flag _ h => exact ⟨Or.inl (bool_line h).1, Or.inr ⟨v, .self, (bool_line h).2.symm⟩⟩
  | platforms _ h => exact ⟨Or.inr (platforms_line h).1, Or.inl (platforms_line h).2⟩
  | list _ _ => exact ⟨Or.inr rfl, Or.inl rfl⟩
  | number _ _ => exact ⟨Or.inr rfl, Or.inl rfl⟩

theorem blockField_line {d : Decoders} {pt : Part} {k v : Node} {r : Report} (h : BlockFieldFault d pt k v r) :
    (r.part = .file ∨ r.part = pt) ∧ (r.line = k.line ∨ r.line = v.line) := by
  cases h with
  | parallel _ _ => exact ⟨Or.inr rfl, Or.inr rfl⟩
  | modeKind _ _ => exact ⟨Or.inr rfl, Or.inr rfl⟩
  | mode _ _ _ => exact ⟨Or.inr rfl, Or.inr rfl⟩
  | limit _ _ => exact ⟨Or.inr rfl, Or.inr rfl⟩
  | negative _ _ _ => exact ⟨Or.inr rfl, Or.inr rfl⟩
  | flag _ h => exact ⟨Or.inl (bool_line h).1, Or.inr (bool_line h).2⟩
  | platforms _ h => exact ⟨Or.inr (platforms_line h).1, Or.inl (platforms_line h).2⟩
  | unknown _ => exact ⟨Or.inr rfl, Or.inl rfl⟩

theorem simple_line {d : Decoders} {pt : Part} {l : Nat} {es : List (Node × Node)} {r : Report} (h : SimpleFault d pt l es r) :
    (r.part = .file ∨ r.part = pt) ∧ ∃ m, Within m (.map l es) ∧ m.line = r.line := by
  cases h with
  | field he h =>
    refine ⟨(field_line h).1, ?_⟩
    rcases (field_line h).2 with h | ⟨m, h1, h2⟩
    · exact ⟨_, .key he .self, h.symm⟩
    · exact ⟨m, .value he h1, h2⟩
  | many _ => exact ⟨Or.inr rfl, _, .self, rfl⟩
  | none _ => exact ⟨Or.inr rfl, _, .self, rfl⟩
  | level _ _ _ _ => exact ⟨Or.inr rfl, _, .self, rfl⟩
  | prompt _ _ _ => exact ⟨Or.inr rfl, _, .self, rfl⟩

/-- the list of a block is within it -/
theorem block_within {d : Decoders} {l : Nat} {es : List (Node × Node)} {l' : Nat} {ns : List Node} (h : Block d es l' ns) : Within (.seq l' ns) (.map l es) := by
  obtain ⟨e, he, _, e2⟩ := last_mem h.1
  exact .value he (e2 ▸ .self)

/-- the part that is named, seen from the item with a number: the item itself, or one in a list within it -/
theorem item_line {d : Decoders} {task : Str} {index : Nat} {n : Node} {r : Report} (h : ItemFault d task index n r) :
    (r.part = .file ∧ ∃ m, Within m n ∧ m.line = r.line) ∨
    (r.part = .item task index ∧ ∃ m, Within m n ∧ m.line = r.line) ∨
    (∃ j l ns k, r.part = .item task j ∧ Within (.seq l ns) n ∧ ns[j]? = some k ∧ ∃ m, Within m k ∧ m.line = r.line) := by
  induction h with
  | kind _ => exact Or.inr (Or.inl ⟨rfl, _, .self, rfl⟩)
  | simple _ h =>
    obtain ⟨h1 | h1, h2⟩ := simple_line h
    · exact Or.inl ⟨h1, h2⟩
    · exact Or.inr (Or.inl ⟨h1, h2⟩)
  | @entry index l es e r _ he h =>
    obtain ⟨h1, h2⟩ := blockField_line h
    have h3 : ∃ m, Within m (.map l es) ∧ m.line = r.line := by
      rcases h2 with h2 | h2
      · exact ⟨_, .key he .self, h2.symm⟩
      · exact ⟨_, .value he .self, h2.symm⟩
    rcases h1 with h1 | h1
    · exact Or.inl ⟨h1, h3⟩
    · exact Or.inr (Or.inl ⟨h1, h3⟩)
  | empty h => exact Or.inr (Or.inl ⟨rfl, _, block_within h, rfl⟩)
  | inner h hj _ ih =>
    have hb := fun l => block_within h (l := l)
    rcases ih with ⟨h1, m, h2, h3⟩ | ⟨h1, m, h2, h3⟩ | ⟨j', l2, ns2, k, h1, h2, h3, h4⟩
    · exact Or.inl ⟨h1, m, (Within.item (List.mem_of_getElem? hj) h2).trans (hb _), h3⟩
    · exact Or.inr (Or.inr ⟨_, _, _, _, h1, hb _, hj, m, h2, h3⟩)
    · exact Or.inr (Or.inr ⟨j', l2, ns2, k, h1, (Within.item (List.mem_of_getElem? hj) h2).trans (hb _), h3, h4⟩)
  | asks h _ hn _ _ => exact Or.inr (Or.inl ⟨rfl, _, (Within.item hn .self).trans (block_within h), rfl⟩)
  | nested h _ hn _ => exact Or.inr (Or.inl ⟨rfl, _, (Within.item hn .self).trans (block_within h), rfl⟩)

theorem task_place {d : Decoders} {root k v : Node} {name : Str} (hroot : TaskEntry root name k v) {r : Report} (h : TaskFault d name v r) : LineOf root r.line r.part := by
  have hin : Within v root := by
    obtain ⟨l, es, e, l', ts, rfl, he, _, h2, h3, _⟩ := hroot
    exact .value he (by rw [h2]; exact .value h3 .self)
  have onFile : r.part = .file → (∃ m, Within m v ∧ m.line = r.line) → LineOf root r.line r.part := by
    rintro h1 ⟨m, h2, h3⟩
    rw [h1]; exact ⟨m, h2.trans hin, h3⟩
  have onTask : r.part = .task name → (∃ m, Within m v ∧ m.line = r.line) → LineOf root r.line r.part := by
    rintro h1 ⟨m, h2, h3⟩
    rw [h1]; exact ⟨k, v, m, hroot, h2, h3⟩
  cases h with
  | kind _ => exact onTask rfl ⟨v, .self, rfl⟩
  | @entry l es e r ev he h =>
    subst ev
    cases h with
    | list _ _ => exact onTask rfl ⟨_, .key he .self, rfl⟩
    | vars _ h =>
      obtain ⟨h1, m, h2, h3⟩ := texts_line h
      exact onFile h1 ⟨m, .value he h2, h3⟩
    | flag _ h => exact onFile (bool_line h).1 ⟨_, .value he .self, (bool_line h).2.symm⟩
    | dir _ h => exact onTask (dir_line h).1 ⟨_, .value he .self, (dir_line h).2.symm⟩
    | run _ _ => exact onTask rfl ⟨_, .value he .self, rfl⟩
    | @item l2 ns j n r _ e2 hj h =>
      have hs : Within (.seq l2 ns) (.map l es) := .value he (e2 ▸ .self)
      rcases item_line h with ⟨h1, m, h2, h3⟩ | ⟨h1, m, h2, h3⟩ | ⟨j', l3, ns3, k3, h1, h2, h3, m, h4, h5⟩
      · exact onFile h1 ⟨m, (Within.item (List.mem_of_getElem? hj) h2).trans hs, h3⟩
      · rw [h1]; exact ⟨k, _, l2, ns, n, m, hroot, hs, hj, h2, h3⟩
      · rw [h1]; exact ⟨k, _, l3, ns3, k3, m, hroot, (Within.item (List.mem_of_getElem? hj) h2).trans hs, h3, h4, h5⟩

/-- **C74** The line of a report is one of the document, in the task that is named, and in an item with the number that is
named. Only if there is no document, there is no line. -/
theorem C74_place (d : Decoders) (doc : Option Node) (r : Report) (h : DocFault d doc r) :
    (doc = none ∧ r.line = 0 ∧ r.part = .file) ∨ ∃ root, doc = some root ∧ LineOf root r.line r.part := by
  cases h with
  | none => exact Or.inl ⟨rfl, rfl, rfl⟩
  | @kind n _ => exact Or.inr ⟨n, rfl, n, .self, rfl⟩
  | @entry l es e r he h =>
    refine Or.inr ⟨_, rfl, ?_⟩
    have onFile : r.part = .file → (∃ m, Within m (.map l es) ∧ m.line = r.line) → LineOf (.map l es) r.line r.part := by
      rintro h1 ⟨m, h2, h3⟩
      rw [h1]; exact ⟨m, h2, h3⟩
    cases h with
    | vars _ h =>
      obtain ⟨h1, m, h2, h3⟩ := texts_line h
      exact onFile h1 ⟨m, .value he h2, h3⟩
    | flag _ h => exact onFile (bool_line h).1 ⟨_, .value he .self, (bool_line h).2.symm⟩
    | dir _ h => exact onFile (dir_line h).1 ⟨_, .value he .self, (dir_line h).2.symm⟩
    | mapping _ _ => exact onFile rfl ⟨_, .value he .self, rfl⟩
    | task hk e1 _ h => exact task_place ⟨l, es, e, _, _, rfl, he, hk, e1, by simp, rfl⟩ h
    | @twice l' as a bs e' cs hk e1 _ _ =>
      exact onFile rfl ⟨e'.1, .value he (by rw [e1]; exact .key (by simp) .self), rfl⟩
    | inc hk e1 h1 _ => exact onFile rfl ⟨_, .value he (by rw [e1]; exact .key h1 .self), rfl⟩

/-! ## what is shown -/

/-- **C74** bab shows one message for every problem: the problems, with their texts, are what is printed, and the exit status
is 1. -/
theorem C74_shown (x : ReadTexts) (d : Decoders) (doc : Option Node) {g : GoErr} (h : readFile x d (.ok doc) = .error g) :
    ∃ shown, exitStatus (some g) = (1, shown) ∧ ∀ s, s ∈ shown ↔ ∃ r, DocFault d doc r ∧ s = r.text x := by
  unfold readFile at h
  dsimp only at h
  split at h
  · cases h
  · next errs hu =>
    cases h
    have hr : ∀ r, DocFault d doc r ↔ r ∈ errs := by
      intro r
      rw [← C74_reports]
      exact ⟨fun ⟨e, h1, h2⟩ => by rw [hu] at h1; cases h1; exact h2, fun h => ⟨errs, hu, h⟩⟩
    have single : ∀ r, errs = [r] → ∃ shown, exitStatus (some (.plain (r.text x))) = (1, shown) ∧ ∀ s, s ∈ shown ↔ ∃ r, DocFault d doc r ∧ s = r.text x := by
      intro r he
      refine ⟨[r.text x], ?_, fun s => ?_⟩
      · rw [exitStatus, GoErr.isCanceled, handleError, GoErr.asMany]
        dsimp only
        rw [if_neg (by simp), text_plain, if_pos]
        unfold Report.text
        split <;> simp
      · rw [List.mem_singleton]
        constructor
        · rintro rfl; exact ⟨r, (hr r).mpr (by rw [he]; simp), rfl⟩
        · rintro ⟨r', h1, rfl⟩
          rw [hr, he, List.mem_singleton] at h1
          rw [h1]
    unfold readErrors
    split
    · refine ⟨errs.map (fun r => r.text x), ?_, fun s => ?_⟩
      · rw [exitStatus, GoErr.isCanceled]
        have hc : GoErr.anyCanceled (errs.map fun r => .plain (r.text x)) = false := by
          clear hu hr single
          induction errs with
          | nil => rfl
          | cons r errs ih => rw [List.map_cons, GoErr.anyCanceled, GoErr.isCanceled, ih]; rfl
        rw [hc, if_neg (by simp), handleError, GoErr.asMany]
        dsimp only
        rw [List.map_map]
        congr 2
      · rw [List.mem_map]
        exact ⟨fun ⟨r, h1, h2⟩ => ⟨r, (hr r).mpr h1, h2.symm⟩, fun ⟨r, h1, h2⟩ => ⟨r, (hr r).mp h1, h2.symm⟩⟩
    · next hnm =>
      have : ∃ r, errs = [r] := by
        unfold unmarshalDoc at hu
        split at hu
        · cases hu; exact ⟨_, rfl⟩
        · next l es => exact absurd rfl (hnm l es)
        · cases hu; exact ⟨_, rfl⟩
      obtain ⟨r, rfl⟩ := this
      exact single r rfl

/-- **C74** Every message begins with the file and the line, if there is a line; if no decoder failed, the task and the item
follow, if they are named. -/
theorem C74_begins (x : ReadTexts) (r : Report) (hl : 0 < r.line) :
    ∃ rest, r.text x = relativePath x.cwd x.path ++ ':' :: (Nat.repr r.line).toList ++ ": ".toList ++ rest ∧
      (r.err.hasCause = false → (∀ n l, r.err ≠ .duplicateTask n l) → rest = r.part.text x.isPrint ++ r.err.text (quote x.isPrint)) := by
  unfold Report.text
  split
  · next h => exact ⟨_, rfl, fun _ h' => absurd h (h' _ _)⟩
  · have : formatLocation x.cwd { path := x.path, line := r.line } = relativePath x.cwd x.path ++ ':' :: (Nat.repr r.line).toList := by
      unfold formatLocation
      dsimp only
      rw [if_pos hl, if_neg (by simp)]
    rw [this]
    refine ⟨_, List.append_assoc _ _ _, fun hc _ => ?_⟩
    rw [hc, if_neg (by simp)]

/-! ## loading -/

theorem readFile_ok {x : ReadTexts} {d : Decoders} {c : Except Str (Option Node)} {s : Schema} (h : readFile x d c = .ok s) :
    ∃ doc, c = .ok doc ∧ unmarshalDoc d doc = .ok s := by
  unfold readFile at h
  split at h
  · cases h
  · next doc =>
    split at h
    · next s' hu => cases h; exact ⟨doc, rfl, hu⟩
    · cases h

theorem get?_filesOf (x : LoadTexts) (d : Decoders) (src : GoMap (Except Str (Option Node))) (q : Str) :
    (filesOf x d src).get? q = (src.get? q).map fun c =>
      match readFile { isPrint := x.isPrint, cwd := x.cwd, path := q } d c with | .ok s => some s | .error _ => none := by
  unfold filesOf
  induction src with
  | nil => rfl
  | cons e src ih =>
    obtain ⟨k, c⟩ := e
    rw [List.map_cons]
    simp only [GoMap.get?]
    split
    · next h => subst h; rfl
    · exact ih

theorem files_of_wf (x : LoadTexts) (d : Decoders) (src : GoMap (Except Str (Option Node))) : Bab.Spec.FilesWF (filesOf x d src) := by
  let docs : GoMap (Option Node) := src.map fun e => (e.1, match e.2 with | .ok doc => doc | .error _ => none)
  have hdocs : ∀ q, docs.get? q = (src.get? q).map fun c => match c with | .ok doc => doc | .error _ => none := by
    intro q
    show GoMap.get? (src.map _) q = _
    clear docs
    induction src with
    | nil => rfl
    | cons e src ih =>
      obtain ⟨k, c⟩ := e
      rw [List.map_cons]
      simp only [GoMap.get?]
      split
      · rfl
      · exact ih
  refine C40_files_wf d docs _ (fun p bf h => ?_)
  rw [get?_filesOf] at h
  obtain ⟨c, hc, h2⟩ := Option.map_eq_some_iff.mp h
  cases hr : readFile { isPrint := x.isPrint, cwd := x.cwd, path := p } d c with
  | error g => rw [hr] at h2; cases h2
  | ok s =>
    rw [hr] at h2
    cases h2
    obtain ⟨doc, rfl, hu⟩ := readFile_ok hr
    exact ⟨doc, by rw [hdocs, hc]; rfl, hu⟩

/-- the document is a mapping -/
def Spec.IsMapping (doc : Option Node) : Prop := ∃ l es, doc = some (Node.map l es)

theorem report_text_ne (x : ReadTexts) (r : Report) : r.text x ≠ [] := by
  unfold Report.text
  split <;> simp

theorem texts_ne {e : GoErr} {es : List GoErr} (h : e.text ≠ []) : (GoErr.many (e :: es)).text ≠ [] := by
  cases es with
  | nil => exact h
  | cons a as => 
    show e.text ++ '\n' :: GoErr.texts (a :: as) ≠ []
    simp

theorem readErrors_ne (x : ReadTexts) (doc : Option Node) {errs : List Report} (h : errs ≠ []) : (readErrors x doc errs).text ≠ [] := by
  obtain ⟨r, rs, rfl⟩ := List.exists_cons_of_ne_nil h
  unfold readErrors
  split
  · rw [List.map_cons]; exact texts_ne (report_text_ne x r)
  · exact report_text_ne x r

/-- **C74** What bab prints, from the contents of the files: if loading fails because of a file that can be parsed as YAML, the
includes lead to this file, and its problems are printed, one message for each; for a file without a mapping the way to the
file stands before the message. -/
theorem C74_load (x : LoadTexts) (d : Decoders) (src : GoMap (Except Str (Option Node))) {o : Orders} (ho : Bab.Spec.OrdersOK o) {p : Str} {e : PErr}
    (h : load (filesOf x d src) o p = .error e) :
    ∃ trail q leaf, Bab.Spec.Way (filesOf x d src) p trail q ∧ trail.Nodup ∧ Bab.Spec.LoadFault (filesOf x d src) trail q leaf ∧
      (leaf = .invalid q → ∀ doc, src.get? q = some (.ok doc) → ∃ way shown, exitStatus (some (e.toGo (withSources x d src))) = (1, shown) ∧
        (Spec.IsMapping doc → way = []) ∧ (¬ Spec.IsMapping doc → way = Bab.Spec.trailText x trail) ∧
        ∀ s, s ∈ shown ↔ ∃ r, DocFault d doc r ∧ s = way ++ r.text { isPrint := x.isPrint, cwd := x.cwd, path := q }) := by
  obtain ⟨trail, q, leaf, h1, h2, h3, -, h5⟩ := C72_message (files_of_wf x d src) ho (withSources x d src) h
  refine ⟨trail, q, leaf, h1, h2, h3, fun hl doc hdoc => ?_⟩
  generalize hrt : ({ isPrint := x.isPrint, cwd := x.cwd, path := q } : ReadTexts) = rt at *
  have hbad : ∃ g, readFile rt d (.ok doc) = .error g := by
    cases hr : readFile rt d (.ok doc) with
    | error g => exact ⟨g, rfl⟩
    | ok s =>
      exfalso
      subst hl
      cases h3 with
      | invalid hq =>
        rw [get?_filesOf, hdoc, Option.map_some, hrt, hr] at hq
        cases hq
  obtain ⟨g, hg⟩ := hbad
  have hinv : (withSources x d src).invalid q = g := by
    show (match (src.get? q).map (readFile { isPrint := x.isPrint, cwd := x.cwd, path := q } d) with | some (.error g) => g | _ => .plain []) = g
    rw [hdoc, hrt, Option.map_some, hg]
  obtain ⟨shown, hs1, hs2⟩ := C74_shown rt d doc hg
  have hnc : g.isCanceled = false := by
    cases hc : g.isCanceled with
    | false => rfl
    | true => rw [exitStatus, hc, if_pos rfl] at hs1; cases hs1
  rw [exitStatus, hnc, if_neg (by simp)] at hs1
  have hse : handleError g = shown := (Prod.mk.inj hs1).2
  have hne : g.text ≠ [] := by
    unfold readFile at hg
    dsimp only at hg
    split at hg
    · cases hg
    · next errs hu => cases hg; exact readErrors_ne rt doc (C40_rejected d hu)
  have hex := h5 hl (by rw [hinv]; exact hnc) (by rw [hinv]; exact hne)
  rw [hinv] at hex
  have hmany : Spec.IsMapping doc → ∃ es, g.asMany = some es := by
    rintro ⟨l, es, rfl⟩
    unfold readFile at hg
    dsimp only at hg
    split at hg
    · cases hg
    · cases hg; exact ⟨_, rfl⟩
  have hone : ¬ Spec.IsMapping doc → g.asMany = none := by
    intro hn
    unfold readFile at hg
    dsimp only at hg
    split at hg
    · cases hg
    · cases hg
      unfold readErrors
      split
      · next l es => exact absurd ⟨_, _, rfl⟩ hn
      · split <;> rfl
  by_cases hm : Spec.IsMapping doc
  · obtain ⟨es, he⟩ := hmany hm
    rw [he] at hex
    rw [handleError, he] at hse
    refine ⟨[], _, hex, fun _ => rfl, fun h => absurd hm h, fun s => ?_⟩
    dsimp only at hse ⊢
    rw [hse, hs2]
    simp only [List.nil_append]
  · rw [hone hm] at hex
    rw [handleError, hone hm] at hse
    dsimp only at hse
    rw [if_pos hne] at hse
    rw [← hse] at hs2
    refine ⟨_, _, hex, fun h => absurd h hm, fun _ => rfl, fun s => ?_⟩
    dsimp only
    rw [List.mem_singleton]
    constructor
    · rintro rfl
      obtain ⟨r, hr1, hr2⟩ := (hs2 g.text).mp (List.mem_singleton.mpr rfl)
      exact ⟨r, hr1, by rw [← hr2]; rfl⟩
    · rintro ⟨r, hr1, rfl⟩
      have := (hs2 (r.text rt)).mpr ⟨r, hr1, rfl⟩
      rw [← List.mem_singleton.mp this]; rfl

/-! ## examples -/

/-- a text at a line -/
def Sample.at (l : Nat) (s : String) : Node := .scalar l "!!str".toList s.toList

open Bab.Yaml.Sample

/-- a file with six problems:
```
1  vars:
2    v: [1]
3  tasks:
4    build:
5      dir: [a]
6      run:
7        - cmd: make
8          task: gen
9        - parallel:
10           - log: hi
11             level: loud
12   build: x
13 includes:
14   lib: x
``` -/
def Sample.faulty : Node :=
  .map 1 [(Sample.at 1 "vars", .map 2 [(Sample.at 2 "v", .seq 2 [Sample.at 2 "1"])]),
    (Sample.at 3 "tasks", .map 4 [
      (Sample.at 4 "build", .map 5 [(Sample.at 5 "dir", .seq 5 [Sample.at 5 "a"]),
        (Sample.at 6 "run", .seq 7 [.map 7 [(Sample.at 7 "cmd", Sample.at 7 "make"), (Sample.at 8 "task", Sample.at 8 "gen")],
          .map 9 [(Sample.at 9 "parallel", .seq 10 [.map 10 [(Sample.at 10 "log", Sample.at 10 "hi"), (Sample.at 11 "level", Sample.at 11 "loud")]])]])]),
      (Sample.at 12 "build", Sample.at 12 "x")]),
    (Sample.at 13 "includes", .map 14 [(Sample.at 14 "lib", Sample.at 14 "x")])]

example : unmarshalDoc decoders (some faulty) = .error [
    ⟨2, .file, .badEntry "vars".toList "v".toList⟩,
    ⟨5, .task "build".toList, .badDir⟩,
    ⟨7, .item "build".toList 0, .tooMany⟩,
    ⟨10, .item "build".toList 0, .badLevel "loud".toList⟩,
    ⟨12, .file, .duplicateTask "build".toList 4⟩,
    ⟨14, .file, .badInclude "lib".toList "cannot read x".toList⟩] := by rfl

/-- the messages are those a user sees, each with its line -/
def Sample.here : ReadTexts := { isPrint := fun _ => true, cwd := some "/p".toList, path := "/p/Babfile.yml".toList }

example : (match readFile here decoders (.ok (some faulty)) with | .error g => exitStatus (some g) | .ok _ => (0, [])) = (1, [
    "Babfile.yml:2: vars value for \"v\" must be a string".toList,
    "Babfile.yml:5: task \"build\": dir must be a string".toList,
    "Babfile.yml:7: task \"build\": run[0]: run item can only have one of 'cmd', 'task', 'log', or 'prompt'".toList,
    "Babfile.yml:10: task \"build\": run[0]: invalid log level \"loud\", must be one of: debug, info, warn, error".toList,
    "Babfile.yml:12: duplicate task \"build\" (first defined at line 4)".toList,
    "Babfile.yml:14: cannot read x".toList]) := by decide +kernel

/-- the problem of an item, as the specification has it -/
example : DocFault decoders (some faulty) ⟨7, .item "build".toList 0, .tooMany⟩ :=
  .entry (List.mem_cons_of_mem _ (List.mem_cons_self ..))
    (.task (as := []) rfl rfl (fun _ h => nomatch h) (.entry rfl (List.mem_cons_of_mem _ (List.mem_cons_self ..))
      (.item rfl rfl (j := 0) rfl (.simple (by intro e h; simp only [List.mem_cons, List.not_mem_nil, or_false] at h; rcases h with rfl | rfl <;> decide) (.many (by decide))))))

/-- a file without problems is accepted -/
example : ∀ r, ¬ DocFault decoders (some file) r := (C74_accepted decoders (some file)).mp ⟨_, rfl⟩

/-- Limits of what is said. The number of an item of a parallel block is its place in the block: the messages about the
first item of the task and about the first item of the block inside the second one name the same place. -/
theorem C74_same_name : (match unmarshalDoc decoders (some faulty) with | .error errs => errs.map (fun r => (r.line, r.part)) | .ok _ => []) =
    [(2, .file), (5, .task "build".toList), (7, .item "build".toList 0), (10, .item "build".toList 0), (12, .file), (14, .file)] := by rfl

/-- Where a decoder fails, its text is all that is said: neither the task nor the key is named. -/
theorem C74_cause_alone (x : ReadTexts) (l : Nat) (part : Part) (what why : Str) :
    (⟨l, part, .invalid what why⟩ : Report).text x = formatLocation x.cwd { path := x.path, line := l } ++ ": ".toList ++ why := by
  unfold Report.text
  dsimp only
  rw [show (UErr.invalid what why).hasCause = true from rfl, if_pos rfl, List.append_nil]
  rfl

/-- The problems of a level and of a prompt are not looked at while an entry of the item cannot be read. -/
theorem C74_hidden : (parseRunItem decoders "t".toList 5 0 (obj [("log", str "hi"), ("level", str "loud"), ("dir", list [])])).2 =
    [⟨0, .item "t".toList 0, .badDir⟩] := by rfl

/-- Loading, with the contents of two files: the Babfile includes a file with problems. -/
def Sample.sources : GoMap (Except Str (Option Node)) :=
  [("/p/Babfile.yml".toList, .ok (some (.map 1 [(Sample.at 1 "includes", .map 2 [(Sample.at 2 "lib", .map 3 [(Sample.at 3 "babfile", Sample.at 3 "lib.yml")])])]))),
   ("/p/lib.yml".toList, .ok (some (.map 1 [(Sample.at 1 "silent", Sample.at 1 "maybe"), (Sample.at 2 "tasks", .seq 2 [])])))]

/-- what is printed -/
def Sample.printed (src : GoMap (Except Str (Option Node))) : Option (Nat × List Str) :=
  match load (filesOf Bab.Sample.texts decoders src) Bab.Sample.asWritten "/p/Babfile.yml".toList with
  | .ok _ => none
  | .error e => some (exitStatus (some (e.toGo (withSources Bab.Sample.texts decoders src))))

example : printed sources = some (1, ["lib.yml:1: cannot read maybe".toList, "lib.yml:2: tasks must be a mapping".toList]) := by decide +kernel
/-- a file that is not a mapping, and a file that YAML cannot read: the way to it is shown -/
example : printed (sources.take 1 ++ [("/p/lib.yml".toList, .ok (some (.seq 1 [])))]) =
    some (1, ["Babfile.yml: lib.yml:1: expected mapping at root".toList]) := by decide +kernel
example : printed (sources.take 1 ++ [("/p/lib.yml".toList, .error "yaml: line 3: did not find expected key".toList)]) =
    some (1, ["Babfile.yml: lib.yml:3: did not find expected key".toList]) := by decide +kernel

end Bab.Yaml
