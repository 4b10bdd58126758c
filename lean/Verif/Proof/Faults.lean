import Verif.Proof.Unmarshal
import Verif.Spec.Faults
/-
Lemmas for C74: the errors that are added are the problems of the tree.
-/

namespace Bab.Yaml
open Bab Bab.Yaml.Spec

/-! ## single values -/

theorem mem_bool {d : Decoders} {n : Node} {r : Report} : r ∈ (parseBool d n).2 ↔ BoolFault d n r := by
  cases n with
  | scalar l t v =>
    have hn : ¬ NotText (.scalar l t v) := fun h => h l t v rfl
    rw [parseBool]
    cases hb : d.bool (.scalar l t v) with
    | some b =>
      dsimp only
      constructor
      · intro h; cases h
      · intro h
        cases h with
        | kind h => exact absurd h hn
        | value _ h => rw [hb] at h; cases h
    | none =>
      dsimp only
      rw [List.mem_singleton]
      constructor
      · rintro rfl; exact .value hn hb
      · intro h
        cases h with
        | kind h => exact absurd h hn
        | value _ h => rfl
  | seq l ns =>
    have hn : NotText (.seq l ns) := fun _ _ _ h => by cases h
    rw [show (parseBool d (.seq l ns)).2 = [⟨l, .file, .badBool⟩] from rfl, List.mem_singleton]
    constructor
    · rintro rfl; exact .kind hn
    · intro h
      cases h with
      | kind _ => rfl
      | value h _ => exact absurd hn h
  | map l ns =>
    have hn : NotText (.map l ns) := fun _ _ _ h => by cases h
    rw [show (parseBool d (.map l ns)).2 = [⟨l, .file, .badBool⟩] from rfl, List.mem_singleton]
    constructor
    · rintro rfl; exact .kind hn
    · intro h
      cases h with
      | kind _ => rfl
      | value h _ => exact absurd hn h
  | ref l x y =>
    have hn : NotText (.ref l x y) := fun _ _ _ h => by cases h
    rw [show (parseBool d (.ref l x y)).2 = [⟨l, .file, .badBool⟩] from rfl, List.mem_singleton]
    constructor
    · rintro rfl; exact .kind hn
    · intro h
      cases h with
      | kind _ => rfl
      | value h _ => exact absurd hn h

theorem mem_dir {pt : Part} {n : Node} {r : Report} : r ∈ (parseDir pt n).2 ↔ DirFault pt n r := by
  cases n with
  | scalar l t v =>
    constructor
    · intro h; cases h
    · rintro ⟨h⟩; exact absurd rfl (h l t v)
  | seq l ns =>
    rw [show (parseDir pt (.seq l ns)).2 = [⟨l, pt, .badDir⟩] from rfl, List.mem_singleton]
    exact ⟨fun h => h ▸ .kind (fun _ _ _ h => by cases h), fun h => by cases h; rfl⟩
  | map l ns =>
    rw [show (parseDir pt (.map l ns)).2 = [⟨l, pt, .badDir⟩] from rfl, List.mem_singleton]
    exact ⟨fun h => h ▸ .kind (fun _ _ _ h => by cases h), fun h => by cases h; rfl⟩
  | ref l x y =>
    rw [show (parseDir pt (.ref l x y)).2 = [⟨l, pt, .badDir⟩] from rfl, List.mem_singleton]
    exact ⟨fun h => h ▸ .kind (fun _ _ _ h => by cases h), fun h => by cases h; rfl⟩

theorem mem_strs {d : Decoders} {w : Str} {ln : Nat} {pt : Part} {n : Node} {r : Report} :
    r ∈ (parseStrs d w ln pt n).2 ↔ d.strs n = none ∧ r = ⟨ln, pt, .invalid w (d.why .strings n)⟩ := by
  unfold parseStrs
  cases d.strs n <;> simp

theorem mem_int {d : Decoders} {w : Str} {ln : Nat} {pt : Part} {n : Node} {r : Report} :
    r ∈ (parseInt d w ln pt n).2 ↔ d.int n = none ∧ r = ⟨ln, pt, .invalid w (d.why .int n)⟩ := by
  unfold parseInt
  cases d.int n <;> simp

theorem find_split {α : Type} {p : α → Bool} {x : α} : ∀ {l : List α}, l.find? p = some x → ∃ as bs, l = as ++ x :: bs ∧ (∀ a ∈ as, p a = false) ∧ p x = true
  | [], h => by cases h
  | y :: l, h => by
    rw [List.find?_cons] at h
    split at h
    · next hy => cases h; exact ⟨[], l, rfl, (fun _ ha => nomatch ha), hy⟩
    · next hy =>
      obtain ⟨as, bs, rfl, h1, h2⟩ := find_split h
      refine ⟨y :: as, bs, rfl, ?_, h2⟩
      intro a ha
      rcases List.mem_cons.mp ha with rfl | ha
      · exact hy
      · exact h1 a ha

theorem find_of_split {α : Type} {p : α → Bool} {x : α} : ∀ {as bs : List α}, (∀ a ∈ as, p a = false) → p x = true → (as ++ x :: bs).find? p = some x
  | [], bs, _, h => by rw [List.nil_append, List.find?_cons, h]
  | a :: as, bs, ha, h => by
    rw [List.cons_append, List.find?_cons, ha a (List.mem_cons_self ..)]
    exact find_of_split (fun b hb => ha b (List.mem_cons_of_mem _ hb)) h

theorem mem_platforms {d : Decoders} {ln : Nat} {pt : Part} {n : Node} {r : Report} : r ∈ (parsePlatforms d ln pt n).2 ↔ PlatformsFault d ln pt n r := by
  unfold parsePlatforms
  cases hs : d.strs n with
  | none =>
    dsimp only
    rw [List.mem_singleton]
    constructor
    · rintro rfl; exact .value hs
    · intro h
      cases h with
      | value _ => rfl
      | name h _ _ => rw [hs] at h; cases h
  | some ps =>
    dsimp only
    cases hf : ps.find? (fun p => p ∉ validPlatforms) with
    | some p =>
      dsimp only
      rw [List.mem_singleton]
      obtain ⟨as, bs, rfl, h1, h2⟩ := find_split hf
      constructor
      · rintro rfl
        exact .name hs (fun a ha => by have := h1 a ha; rw [decide_eq_false_iff_not, Decidable.not_not] at this; exact this) (of_decide_eq_true h2)
      · intro h
        cases h with
        | value h => rw [hs] at h; cases h
        | @name as' p' bs' h h3 h4 =>
          rw [hs] at h
          rw [Option.some.inj h, find_of_split (p := fun p => decide (p ∉ validPlatforms)) (fun a ha => by rw [decide_eq_false_iff_not, Decidable.not_not]; exact h3 a ha) (decide_eq_true h4)] at hf
          cases hf; rfl
    | none =>
      dsimp only
      constructor
      · intro h; cases h
      · intro h
        cases h with
        | value h => rw [hs] at h; cases h
        | name h h3 h4 =>
          rw [hs] at h
          rw [Option.some.inj h, find_of_split (p := fun p => decide (p ∉ validPlatforms)) (fun a ha => by rw [decide_eq_false_iff_not, Decidable.not_not]; exact h3 a ha) (decide_eq_true h4)] at hf
          cases hf

/-- errors that are added by the steps of a loop -/
theorem fold_errs {σ α : Type} (errs : σ → List Report) (step : σ → α → σ) (out : α → List Report) (h : ∀ st e, errs (step st e) = errs st ++ out e) :
    ∀ (l : List α) (st : σ), errs (l.foldl step st) = errs st ++ l.flatMap out
  | [], st => by simp
  | e :: l, st => by rw [List.foldl_cons, fold_errs errs step out h l, h, List.flatMap_cons, List.append_assoc]

theorem mem_strMap {w : Str} {n : Node} {r : Report} : r ∈ (parseStrMap w n).2 ↔ TextsFault w n r := by
  cases n with
  | map l es =>
    rw [parseStrMap]
    dsimp only
    rw [fold_errs (fun st : GoMap Str × List Report => st.2) (strMapField w)
      (fun e => match e.2 with | .scalar _ _ _ => [] | n => [⟨n.line, .file, .badEntry w e.1.value⟩]) ?_ es ([], []), List.nil_append, List.mem_flatMap]
    · constructor
      · rintro ⟨e, he, hr⟩
        split at hr
        · cases hr
        · next hn =>
          rw [List.mem_singleton] at hr
          rw [hr]
          exact .entry rfl he (fun l t v h => hn l t v h)
      · intro h
        cases h with
        | kind h => exact absurd rfl (h l es)
        | @entry l' es' e h he hn =>
          cases h
          refine ⟨e, he, ?_⟩
          split
          · next heq => exact absurd heq (hn _ _ _)
          · exact List.mem_singleton.mpr rfl
    · intro st e
      unfold strMapField
      split
      · next heq => rw [heq]; simp
      · next hne =>
        dsimp only
        split
        · next heq => exact absurd heq (hne _ _ _)
        · rfl
  | scalar l t v =>
    rw [show (parseStrMap w (.scalar l t v)).2 = [⟨l, .file, .notMapping w⟩] from rfl, List.mem_singleton]
    exact ⟨fun h => h ▸ .kind (fun _ _ h => by cases h), fun h => by cases h with | kind _ => rfl | entry h _ _ => cases h⟩
  | seq l ns =>
    rw [show (parseStrMap w (.seq l ns)).2 = [⟨l, .file, .notMapping w⟩] from rfl, List.mem_singleton]
    exact ⟨fun h => h ▸ .kind (fun _ _ h => by cases h), fun h => by cases h with | kind _ => rfl | entry h _ _ => cases h⟩
  | ref l x y =>
    rw [show (parseStrMap w (.ref l x y)).2 = [⟨l, .file, .notMapping w⟩] from rfl, List.mem_singleton]
    exact ⟨fun h => h ▸ .kind (fun _ _ h => by cases h), fun h => by cases h with | kind _ => rfl | entry h _ _ => cases h⟩

/-! ## entries of simple items -/

theorem keep_errs {α : Type} {rf : RunFields} {r : Res α} {f : RunFields → α → RunFields} : (rf.keep r f).errs = rf.errs ++ r.2 := by
  unfold RunFields.keep
  cases r.1 <;> rfl

/-- the errors of one entry -/
def fieldOut (d : Decoders) (pt : Part) (e : Node × Node) : List Report :=
  match rKeyOf e.1.value with
  | .dir => (parseDir pt e.2).2
  | .env => (parseStrMap "env".toList e.2).2
  | .silent => (parseBool d e.2).2
  | .output => (parseBool d e.2).2
  | .platforms => (parsePlatforms d e.1.line pt e.2).2
  | .other => (parsePromptKey d pt e.1 e.2 {}).2
  | _ => []

theorem promptKey_errs (d : Decoders) (pt : Part) (k v : Node) (pf pf' : PromptFields) :
    (parsePromptKey d pt k v pf).2 = (parsePromptKey d pt k v pf').2 := by
  unfold parsePromptKey
  cases pKeyOf k.value <;> rfl

theorem runField_errs (d : Decoders) (pt : Part) (rf : RunFields) (e : Node × Node) : (runField d pt rf e).errs = rf.errs ++ fieldOut d pt e := by
  unfold runField fieldOut
  cases rKeyOf e.1.value with
  | cmd => simp
  | cond => simp
  | task => simp
  | log => simp
  | level => simp
  | label => simp
  | dir => exact keep_errs
  | env => exact keep_errs
  | silent => exact keep_errs
  | output => exact keep_errs
  | platforms => exact keep_errs
  | other => dsimp only; rw [keep_errs, promptKey_errs d pt e.1 e.2 rf.pf {}]

theorem mem_fieldOut {d : Decoders} {pt : Part} {e : Node × Node} {r : Report} : r ∈ fieldOut d pt e ↔ FieldFault d pt e.1 e.2 r := by
  obtain ⟨k, v⟩ := e
  constructor
  · intro h
    unfold fieldOut at h
    cases hk : rKeyOf k.value with
    | dir =>
      have e : k.value = "dir".toList := by have := rKey_text hk (by decide); revert this; simp [rKeys]
      simp only [hk] at h
      exact .dir e (mem_dir.mp h)
    | env =>
      have e : k.value = "env".toList := by have := rKey_text hk (by decide); revert this; simp [rKeys]
      simp only [hk] at h
      exact .env e (mem_strMap.mp h)
    | silent =>
      have e : k.value = "silent".toList := by have := rKey_text hk (by decide); revert this; simp [rKeys]
      simp only [hk] at h
      exact .flag (by simp [e]) (mem_bool.mp h)
    | output =>
      have e : k.value = "output".toList := by have := rKey_text hk (by decide); revert this; simp [rKeys]
      simp only [hk] at h
      exact .flag (by simp [e]) (mem_bool.mp h)
    | platforms =>
      have e : k.value = "platforms".toList := by have := rKey_text hk (by decide); revert this; simp [rKeys]
      simp only [hk] at h
      exact .platforms e (mem_platforms.mp h)
    | other =>
      simp only [hk] at h
      unfold parsePromptKey at h
      cases hp : pKeyOf k.value with
      | options =>
        have e : k.value = "options".toList := by have := pKey_text hp (by decide); revert this; simp [pKeys]
        simp only [hp] at h
        obtain ⟨h1, rfl⟩ := mem_strs.mp h
        rw [← e]
        exact .list (by simp [e]) h1
      | defaults =>
        have e : k.value = "defaults".toList := by have := pKey_text hp (by decide); revert this; simp [pKeys]
        simp only [hp] at h
        obtain ⟨h1, rfl⟩ := mem_strs.mp h
        rw [← e]
        exact .list (by simp [e]) h1
      | min =>
        have e : k.value = "min".toList := by have := pKey_text hp (by decide); revert this; simp [pKeys]
        simp only [hp] at h
        obtain ⟨h1, rfl⟩ := mem_int.mp h
        rw [← e]
        exact .number (by simp [e]) h1
      | max =>
        have e : k.value = "max".toList := by have := pKey_text hp (by decide); revert this; simp [pKeys]
        simp only [hp] at h
        obtain ⟨h1, rfl⟩ := mem_int.mp h
        rw [← e]
        exact .number (by simp [e]) h1
      | confirm =>
        have e : k.value = "confirm".toList := by have := pKey_text hp (by decide); revert this; simp [pKeys]
        simp only [hp] at h
        exact .flag (by simp [e]) (mem_bool.mp h)
      | _ => simp only [hp] at h; cases h
    | _ => simp only [hk] at h; cases h
  · intro h
    unfold fieldOut
    cases h with
    | dir e h => dsimp only at e ⊢; rw [e]; exact mem_dir.mpr h
    | env e h => dsimp only at e ⊢; rw [e]; exact mem_strMap.mpr h
    | flag e h =>
      dsimp only at e ⊢
      simp only [List.mem_cons, List.not_mem_nil, or_false] at e
      rcases e with e | e | e
      · rw [e]; exact mem_bool.mpr h
      · rw [e]; exact mem_bool.mpr h
      · unfold parsePromptKey; rw [e]; exact mem_bool.mpr h
    | platforms e h => dsimp only at e ⊢; rw [e]; exact mem_platforms.mpr h
    | list e h =>
      dsimp only at e ⊢
      simp only [List.mem_cons, List.not_mem_nil, or_false] at e
      rcases e with e | e
      · unfold parsePromptKey; rw [e]; exact mem_strs.mpr ⟨h, rfl⟩
      · unfold parsePromptKey; rw [e]; exact mem_strs.mpr ⟨h, rfl⟩
    | number e h =>
      dsimp only at e ⊢
      simp only [List.mem_cons, List.not_mem_nil, or_false] at e
      rcases e with e | e
      · unfold parsePromptKey; rw [e]; exact mem_int.mpr ⟨h, rfl⟩
      · unfold parsePromptKey; rw [e]; exact mem_int.mpr ⟨h, rfl⟩

theorem fields_errs (d : Decoders) (pt : Part) (es : List (Node × Node)) : (parseRunFields d pt es).errs = es.flatMap (fieldOut d pt) := by
  unfold parseRunFields
  rw [fold_errs (fun rf : RunFields => rf.errs) _ _ (runField_errs d pt) es {}]
  rfl

theorem mem_fields {d : Decoders} {pt : Part} {es : List (Node × Node)} {r : Report} :
    r ∈ (parseRunFields d pt es).errs ↔ ∃ e ∈ es, FieldFault d pt e.1 e.2 r := by
  rw [fields_errs, List.mem_flatMap]
  exact ⟨fun ⟨e, he, h⟩ => ⟨e, he, mem_fieldOut.mp h⟩, fun ⟨e, he, h⟩ => ⟨e, he, mem_fieldOut.mpr h⟩⟩

theorem fields_good {d : Decoders} {pt : Part} {es : List (Node × Node)} :
    (parseRunFields d pt es).bad = false ↔ ∀ e ∈ es, ∀ r, ¬ FieldFault d pt e.1 e.2 r := by
  have ht := told_fields d pt es
  rw [← Bool.not_eq_true, ht.not, Decidable.not_not]
  constructor
  · intro h e he r hr
    have := mem_fields.mpr ⟨e, he, hr⟩
    rw [h] at this; cases this
  · intro h
    rw [List.eq_nil_iff_forall_not_mem]
    intro r hr
    obtain ⟨e, he, hf⟩ := mem_fields.mp hr
    exact h e he r hf

/-! ## prompts -/

theorem varName_iff {s : Str} : isVarName s = true ↔ VarName s := by
  refine ⟨varName_chars, ?_⟩
  have hl : ∀ c : Char, c.isAlpha = true ∨ c = '_' → (decide (('a' ≤ c ∧ c ≤ 'z') ∨ ('A' ≤ c ∧ c ≤ 'Z') ∨ c = '_')) = true := by
    intro c hc
    simp only [Char.isAlpha, Char.isUpper, Char.isLower, Bool.or_eq_true, Bool.and_eq_true, decide_eq_true_eq] at hc
    refine decide_eq_true ?_
    rcases hc with (hc | hc) | hc
    · exact Or.inr (Or.inl hc)
    · exact Or.inl hc
    · exact Or.inr (Or.inr hc)
  rintro ⟨c, r, rfl, h1, h2⟩
  unfold isVarName
  simp only [Bool.and_eq_true, List.all_eq_true, Bool.or_eq_true]
  refine ⟨hl c h1, ?_⟩
  intro x hx
  rcases h2 x hx with h | h
  · simp only [Char.isAlphanum, Bool.or_eq_true] at h
    rcases h with h | h
    · exact Or.inl (hl x (Or.inl h))
    · right
      simp only [Char.isDigit, Bool.and_eq_true, decide_eq_true_eq] at h
      exact decide_eq_true h
  · exact Or.inl (hl x (Or.inr h))

theorem mem_failIf {b : Bool} {r r' : Report} : r' ∈ failIf b r ↔ b = true ∧ r' = r := by
  unfold failIf; cases b <;> simp

theorem type_text {s : Str} {t : PromptType} (ht : t ≠ .other) : promptTypeOf s = t ↔ (s, t) ∈ promptTypes := by
  constructor
  · intro h; exact get?_table h ht
  · intro h
    have : ∀ p ∈ promptTypes, promptTypeOf p.1 = p.2 := by decide
    exact this _ h

theorem type_select {s : Str} : promptTypeOf s = .select ↔ s = "select".toList := by rw [type_text (by decide)]; simp [promptTypes]
theorem type_multi {s : Str} : promptTypeOf s = .multiselect ↔ s = "multiselect".toList := by rw [type_text (by decide)]; simp [promptTypes]
theorem type_input {s : Str} : promptTypeOf s = .input ↔ s = "input".toList := by rw [type_text (by decide)]; simp [promptTypes]
theorem type_password {s : Str} : promptTypeOf s = .password ↔ s = "password".toList := by rw [type_text (by decide)]; simp [promptTypes]
theorem type_number {s : Str} : promptTypeOf s = .number ↔ s = "number".toList := by rw [type_text (by decide)]; simp [promptTypes]

theorem type_other {s : Str} : promptTypeOf s = .other ↔ s ∉ types := by
  constructor
  · intro h hs
    have : ∀ s ∈ types, promptTypeOf s ≠ .other := by decide
    exact this s hs h
  · intro hs
    by_contra h
    have := get?_table (m := promptTypes) (s := s) (d := .other) rfl h
    apply hs
    have h2 : ∀ p ∈ promptTypes, p.1 ∈ types := by decide
    exact h2 _ this

theorem type_options {s : Str} : requiresOptions (promptTypeOf s) = true ↔ s ∈ ["select".toList, "multiselect".toList] := by
  unfold requiresOptions
  rw [decide_eq_true_eq, type_select, type_multi]
  simp

theorem mem_prompt {d : Decoders} {ln : Nat} {pt : Part} {es : List (Node × Node)} {pf : PromptFields} {ps : List Str} {c : Str} {r : Report}
    (ha : PromptFieldsAre d es pf) :
    r ∈ (validatePromptRun d ln pt pf ps c).2 ↔ ∃ f, PromptProblem d es f ∧ r = ⟨ln, pt, .prompt (text "prompt".toList es) f⟩ := by
  have h2 : (validatePromptRun d ln pt pf ps c).2 =
      (let add := fun f => Report.mk ln pt (.prompt pf.name f)
       validatePromptBasics add pf ++ validatePromptOptions add pf ++ validatePromptConstraints d add pf ++ validatePromptTypeSpecific add pf) := by
    unfold validatePromptRun
    dsimp only
    split
    · rfl
    · next h => simp only [ne_eq, Decidable.not_not] at h; rw [h]
  rw [h2]
  dsimp only
  unfold validatePromptBasics validatePromptOptions validatePromptConstraints validatePromptTypeSpecific
  dsimp only
  simp only [List.mem_append, mem_failIf, ← ha.name]
  have hopt : pf.options = texts d "options".toList es := ha.options
  have hdef : pf.defaults = texts d "defaults".toList es := ha.defaults
  constructor
  · rintro (((((h | h) | h) | (h | h) | h) | h | h) | h)
    · exact ⟨_, .name (by rw [← ha.name]; intro hv; rw [varName_iff.mpr hv] at h; simp at h), h.2⟩
    · split at h
      · next ht => exact ⟨_, .noType (by rw [← ha.type]; exact ht), (mem_failIf.mp h).2⟩
      · next ht =>
        obtain ⟨h1, h2⟩ := mem_failIf.mp h
        refine ⟨_, .badType (by rw [← ha.type]; exact ht) (by rw [← ha.type]; exact type_other.mp (of_decide_eq_true h1)), ?_⟩
        rw [h2, ← ha.type]
    · exact ⟨_, .noMessage (by rw [← ha.message]; exact of_decide_eq_true h.1), h.2⟩
    · obtain ⟨h1, h2⟩ := h
      simp only [Bool.and_eq_true, decide_eq_true_eq] at h1
      refine ⟨_, .noOptions (by rw [← ha.type]; exact type_options.mp h1.1) (by rw [← hopt]; exact h1.2), ?_⟩
      rw [h2, ← ha.type]
    · obtain ⟨h1, h2⟩ := h
      simp only [Bool.and_eq_true, decide_eq_true_eq] at h1
      obtain ⟨⟨⟨h3, h4⟩, h5⟩, h6⟩ := h1
      refine ⟨_, .default (by rw [← ha.type]; exact type_select.mp h3) (by rw [← ha.dflt]; exact h4) (by rw [← hopt]; exact h5)
        (by rw [← ha.dflt, ← hopt]; exact h6), ?_⟩
      rw [h2, ← ha.dflt]
    · split at h
      · next hc =>
        simp only [Bool.and_eq_true, decide_eq_true_eq] at hc
        obtain ⟨x, hx, hr⟩ := List.mem_flatMap.mp h
        obtain ⟨h1, h2⟩ := mem_failIf.mp hr
        exact ⟨_, .oneDefault (by rw [← ha.type]; exact type_multi.mp hc.1.1) (by rw [← hdef]; exact hx) (by rw [← hopt]; exact hc.2)
          (by rw [← hopt]; exact of_decide_eq_true h1), h2⟩
      · cases h
    · split at h
      · next a b h1 h2 =>
        obtain ⟨h3, h4⟩ := mem_failIf.mp h
        exact ⟨_, .range (by rw [← ha.min]; exact h1) (by rw [← ha.max]; exact h2) (of_decide_eq_true h3), h4⟩
      · cases h
    · obtain ⟨h1, h2⟩ := h
      simp only [Bool.and_eq_true, decide_eq_true_eq, Bool.not_eq_true'] at h1
      rw [ha.validate] at h1 h2
      exact ⟨_, .pattern h1.1 h1.2, h2⟩
    · split at h
      · cases h
      · next ht =>
        have ht' : text "type".toList es ∈ types := by rw [← ha.type]; by_contra hc; exact ht (type_other.mpr hc)
        simp only [List.mem_append, mem_failIf, Bool.and_eq_true, decide_eq_true_eq, Bool.not_eq_true'] at h
        rcases h with (((h | h) | h) | h) | h
        · refine ⟨_, .options ht' ?_ (by rw [← hopt]; exact h.1.1), h.2⟩
          rw [← ha.type, ← type_options, h.1.2]; simp
        · refine ⟨_, .defaults ht' ?_ (by rw [← hdef]; exact h.1.1), h.2⟩
          rw [← ha.type, ne_eq, ← type_multi]; exact h.1.2
        · refine ⟨_, .validate ht' ?_ (by rw [← ha.validate]; exact h.1.1), h.2⟩
          rw [← ha.type, ne_eq, ← type_input]; exact h.1.2
        · refine ⟨_, .confirm ht' ?_ (by unfold flag; rw [← ha.confirm]; exact h.1.1), h.2⟩
          rw [← ha.type, ne_eq, ← type_password]; exact h.1.2
        · refine ⟨_, .notANumber (by rw [← ha.type]; exact type_number.mp h.1.1.1) (by rw [← ha.dflt]; exact h.1.1.2) (by rw [← ha.dflt]; exact h.1.2), ?_⟩
          rw [h.2, ← ha.dflt]
  · rintro ⟨f, hf, rfl⟩
    cases hf with
    | name h =>
      refine Or.inl (Or.inl (Or.inl (Or.inl (Or.inl ⟨?_, rfl⟩))))
      rw [← ha.name, ← varName_iff] at h
      simpa using h
    | noType h =>
      refine Or.inl (Or.inl (Or.inl (Or.inl (Or.inr ?_))))
      rw [if_pos (by rw [ha.type]; exact h)]
      exact mem_failIf.mpr ⟨rfl, rfl⟩
    | badType h h' =>
      refine Or.inl (Or.inl (Or.inl (Or.inl (Or.inr ?_))))
      rw [if_neg (by rw [ha.type]; exact h), ← ha.type]
      exact mem_failIf.mpr ⟨decide_eq_true (type_other.mpr (by rw [ha.type]; exact h')), rfl⟩
    | noMessage h => exact Or.inl (Or.inl (Or.inl (Or.inr ⟨by rw [ha.message]; exact decide_eq_true h, rfl⟩)))
    | noOptions h h' =>
      refine Or.inl (Or.inl (Or.inr (Or.inl (Or.inl ⟨?_, by rw [← ha.type]⟩))))
      rw [Bool.and_eq_true, decide_eq_true_eq, type_options, ha.type, hopt]
      exact ⟨h, h'⟩
    | default h1 h2 h3 h4 =>
      refine Or.inl (Or.inl (Or.inr (Or.inl (Or.inr ⟨?_, by rw [← ha.dflt]⟩))))
      simp only [Bool.and_eq_true, decide_eq_true_eq]
      rw [type_select, ha.type, ha.dflt, hopt]
      exact ⟨⟨⟨h1, h2⟩, h3⟩, h4⟩
    | @oneDefault x h1 h2 h3 h4 =>
      refine Or.inl (Or.inl (Or.inr (Or.inr ?_)))
      rw [if_pos]
      · refine List.mem_flatMap.mpr ⟨x, by rw [hdef]; exact h2, mem_failIf.mpr ⟨decide_eq_true (by rw [hopt]; exact h4), rfl⟩⟩
      · simp only [Bool.and_eq_true, decide_eq_true_eq]
        rw [type_multi, ha.type, hopt, hdef]
        exact ⟨⟨h1, fun hn => by rw [hn] at h2; cases h2⟩, h3⟩
    | range h1 h2 h3 =>
      refine Or.inl (Or.inr (Or.inl ?_))
      rw [← ha.min] at h1
      rw [← ha.max] at h2
      rw [h1, h2]
      exact mem_failIf.mpr ⟨decide_eq_true h3, rfl⟩
    | pattern h1 h2 =>
      rw [ha.validate]
      refine Or.inl (Or.inr (Or.inr ⟨?_, rfl⟩))
      simp only [Bool.and_eq_true, decide_eq_true_eq, Bool.not_eq_true']
      exact ⟨h1, h2⟩
    | options h1 h2 h3 =>
      refine Or.inr ?_
      rw [if_neg (by rw [ha.type, type_other]; exact fun hn => hn h1)]
      simp only [List.mem_append, mem_failIf, Bool.and_eq_true, decide_eq_true_eq, Bool.not_eq_true']
      refine Or.inl (Or.inl (Or.inl (Or.inl ⟨⟨by rw [hopt]; exact h3, ?_⟩, trivial⟩)))
      rw [← Bool.not_eq_true, type_options, ha.type]; exact h2
    | defaults h1 h2 h3 =>
      refine Or.inr ?_
      rw [if_neg (by rw [ha.type, type_other]; exact fun hn => hn h1)]
      simp only [List.mem_append, mem_failIf, Bool.and_eq_true, decide_eq_true_eq, Bool.not_eq_true']
      refine Or.inl (Or.inl (Or.inl (Or.inr ⟨⟨by rw [hdef]; exact h3, ?_⟩, trivial⟩)))
      rw [ne_eq, type_multi, ha.type]; exact h2
    | validate h1 h2 h3 =>
      refine Or.inr ?_
      rw [if_neg (by rw [ha.type, type_other]; exact fun hn => hn h1)]
      simp only [List.mem_append, mem_failIf, Bool.and_eq_true, decide_eq_true_eq, Bool.not_eq_true']
      refine Or.inl (Or.inl (Or.inr ⟨⟨by rw [ha.validate]; exact h3, ?_⟩, trivial⟩))
      rw [ne_eq, type_input, ha.type]; exact h2
    | confirm h1 h2 h3 =>
      refine Or.inr ?_
      rw [if_neg (by rw [ha.type, type_other]; exact fun hn => hn h1)]
      simp only [List.mem_append, mem_failIf, Bool.and_eq_true, decide_eq_true_eq, Bool.not_eq_true']
      refine Or.inl (Or.inr ⟨⟨by rw [ha.confirm]; exact h3, ?_⟩, trivial⟩)
      rw [ne_eq, type_password, ha.type]; exact h2
    | notANumber h1 h2 h3 =>
      refine Or.inr ?_
      rw [if_neg (by rw [ha.type, h1]; decide)]
      simp only [List.mem_append, mem_failIf, Bool.and_eq_true, decide_eq_true_eq, Bool.not_eq_true']
      refine Or.inr ⟨⟨⟨?_, ?_⟩, ?_⟩, by rw [← ha.dflt]⟩
      · rw [type_number, ha.type]; exact h1
      · rw [ha.dflt]; exact h2
      · rw [ha.dflt]; exact h3

/-! ## items that are not parallel blocks -/

theorem keep_same {α β : Type} {rf : RunFields} {r : Res α} {f : RunFields → α → RunFields} (g : RunFields → β) (hf : ∀ a, g (f rf a) = g rf)
    (he : ∀ (rf : RunFields) l, g { rf with errs := l } = g rf) (hb : ∀ (rf : RunFields) b l, g { rf with bad := b, errs := l } = g rf) : g (rf.keep r f) = g rf := by
  unfold RunFields.keep
  cases r.1 with
  | none => exact hb _ _ _
  | some a => dsimp only; rw [he, hf]

theorem promptKey_name {d : Decoders} {pt : Part} {k v : Node} {pf pf' : PromptFields} (h : (parsePromptKey d pt k v pf).1 = some pf') :
    pf'.name = if k.value = "prompt".toList then v.value else pf.name := by
  unfold parsePromptKey at h
  cases hp : pKeyOf k.value with
  | prompt =>
    have e : k.value = "prompt".toList := by have := pKey_text hp (by decide); revert this; simp [pKeys]
    simp only [hp] at h
    cases h
    rw [if_pos e]
  | other =>
    have e : k.value ≠ "prompt".toList := by intro e; rw [e] at hp; exact absurd hp (by decide)
    simp only [hp] at h
    cases h
    rw [if_neg e]
  | _ =>
    have e : k.value ≠ "prompt".toList := by intro e; rw [e] at hp; exact absurd hp (by decide)
    rw [if_neg e]
    simp only [hp] at h
    first
    | (cases h; rfl)
    | (obtain ⟨a, -, rfl⟩ := Option.map_eq_some_iff.mp h; rfl)

theorem kindField (d : Decoders) (pt : Part) (rf : RunFields) (k v : Node) :
    (runField d pt rf (k, v)).cmd = (if k.value = "cmd".toList then v.value else rf.cmd) ∧
    (runField d pt rf (k, v)).task = (if k.value = "task".toList then v.value else rf.task) ∧
    (runField d pt rf (k, v)).log = (if k.value = "log".toList then v.value else rf.log) ∧
    ((runField d pt rf (k, v)).pf.name = if k.value = "prompt".toList then v.value else rf.pf.name) := by
  unfold runField
  dsimp only
  cases hk : rKeyOf k.value with
  | other =>
    have hne : ∀ s ∈ ["cmd".toList, "task".toList, "log".toList], k.value ≠ s := by
      intro s hs e
      rw [e] at hk
      clear e
      rcases List.mem_cons.mp hs with h | hs
      · rw [h] at hk; exact absurd hk (by decide)
      rcases List.mem_cons.mp hs with h | hs
      · rw [h] at hk; exact absurd hk (by decide)
      rw [List.mem_singleton.mp hs] at hk
      exact absurd hk (by decide)
    rw [if_neg (hne _ (by simp)), if_neg (hne _ (by simp)), if_neg (hne _ (by simp))]
    refine ⟨keep_same (·.cmd) (fun _ => rfl) (fun _ _ => rfl) (fun _ _ _ => rfl), keep_same (·.task) (fun _ => rfl) (fun _ _ => rfl) (fun _ _ _ => rfl),
      keep_same (·.log) (fun _ => rfl) (fun _ _ => rfl) (fun _ _ _ => rfl), ?_⟩
    unfold RunFields.keep
    cases hr : (parsePromptKey d pt k v rf.pf).1 with
    | some pf' => exact promptKey_name hr
    | none =>
      dsimp only
      rw [if_neg]
      intro e
      unfold parsePromptKey at hr
      rw [e] at hr
      cases hr
  | _ =>
    have hne : k.value ≠ "prompt".toList := by intro e; rw [e] at hk; exact absurd hk (by decide)
    rw [if_neg hne]
    have hm := rKey_text hk (by decide)
    first
    | (have e : k.value = "cmd".toList := by revert hm; simp [rKeys]
       rw [e]; exact ⟨rfl, rfl, rfl, rfl⟩)
    | (have e : k.value = "task".toList := by revert hm; simp [rKeys]
       rw [e]; exact ⟨rfl, rfl, rfl, rfl⟩)
    | (have e : k.value = "log".toList := by revert hm; simp [rKeys]
       rw [e]; exact ⟨rfl, rfl, rfl, rfl⟩)
    | (have h1 : k.value ≠ "cmd".toList := by intro e; rw [e] at hk; exact absurd hk (by decide)
       have h2 : k.value ≠ "task".toList := by intro e; rw [e] at hk; exact absurd hk (by decide)
       have h3 : k.value ≠ "log".toList := by intro e; rw [e] at hk; exact absurd hk (by decide)
       rw [if_neg h1, if_neg h2, if_neg h3]
       first
       | exact ⟨rfl, rfl, rfl, rfl⟩
       | exact ⟨keep_same (·.cmd) (fun _ => rfl) (fun _ _ => rfl) (fun _ _ _ => rfl), keep_same (·.task) (fun _ => rfl) (fun _ _ => rfl) (fun _ _ _ => rfl),
           keep_same (·.log) (fun _ => rfl) (fun _ _ => rfl) (fun _ _ _ => rfl), keep_same (·.pf.name) (fun _ => rfl) (fun _ _ => rfl) (fun _ _ _ => rfl)⟩)

theorem text_snoc (key : Str) (es : List (Node × Node)) (k v : Node) : text key (es ++ [(k, v)]) = if k.value = key then v.value else text key es := by
  split
  · next h => exact text_same h
  · next h => exact text_other h

/-- the kinds are known even if something else cannot be read -/
theorem kind_texts (d : Decoders) (pt : Part) (es : List (Node × Node)) :
    (parseRunFields d pt es).cmd = text "cmd".toList es ∧ (parseRunFields d pt es).task = text "task".toList es ∧
    (parseRunFields d pt es).log = text "log".toList es ∧ (parseRunFields d pt es).pf.name = text "prompt".toList es := by
  unfold parseRunFields
  induction es using List.reverseRecOn with
  | nil => exact ⟨rfl, rfl, rfl, rfl⟩
  | append_singleton es e ih =>
    obtain ⟨k, v⟩ := e
    rw [List.foldl_append, List.foldl_cons, List.foldl_nil, text_snoc, text_snoc, text_snoc, text_snoc]
    have := kindField d pt (es.foldl (runField d pt) {}) k v
    rw [ih.1, ih.2.1, ih.2.2.1, ih.2.2.2] at this
    exact this

theorem count_kinds {es : List (Node × Node)} :
    countRunTypes (text "cmd".toList es) (text "task".toList es) (text "log".toList es) (text "prompt".toList es) = (kinds es).length := by
  unfold countRunTypes kinds
  rw [List.filter_cons, List.filter_cons, List.filter_cons, List.filter_cons, List.filter_nil]
  generalize text "cmd".toList es = t1
  generalize text "task".toList es = t2
  generalize text "log".toList es = t3
  generalize text "prompt".toList es = t4
  by_cases h1 : t1 = [] <;> by_cases h2 : t2 = [] <;> by_cases h3 : t3 = [] <;> by_cases h4 : t4 = [] <;> simp [h1, h2, h3, h4]

theorem mem_log {ln : Nat} {pt : Part} {log level : Str} {ps : List Str} {c : Str} {r : Report} :
    r ∈ (buildLogRun ln pt log level ps c).2 ↔ level ≠ [] ∧ level ∉ ["debug".toList, "info".toList, "warn".toList, "error".toList] ∧ r = ⟨ln, pt, .badLevel level⟩ := by
  unfold buildLogRun
  dsimp only
  by_cases hl : level = []
  · rw [if_pos hl, if_neg (by decide)]
    simp [hl]
  · rw [if_neg hl]
    by_cases hv : level ∉ validLevels
    · rw [if_pos hv, List.mem_singleton]
      exact Iff.intro (fun h => And.intro hl (And.intro hv h)) (fun h => h.2.2)
    · rw [if_neg hv]
      exact Iff.intro (fun h => nomatch h) (fun h => absurd h.2.1 hv)

theorem mem_simple {d : Decoders} {ln : Nat} {pt : Part} {es : List (Node × Node)} {r : Report} :
    r ∈ (simpleItem d ln pt es).2 ↔ SimpleFault d pt ln es r := by
  have hmem := mem_fields (d := d) (pt := pt) (es := es) (r := r)
  have hgood := fields_good (d := d) (pt := pt) (es := es)
  obtain ⟨t1, t2, t3, t4⟩ := kind_texts d pt es
  have hare := runFields_are d pt es
  unfold simpleItem
  dsimp only
  have hcount := count_kinds (es := es)
  rw [← t1, ← t2, ← t3, ← t4] at hcount
  generalize parseRunFields d pt es = rf at *
  rw [hcount]
  -- the field errors are in every case among the errors
  by_cases h2 : (kinds es).length > 1
  · rw [if_pos h2]
    dsimp only
    rw [List.mem_append, List.mem_singleton, hmem]
    constructor
    · rintro (⟨e, he, h⟩ | rfl)
      · exact .field he h
      · exact .many h2
    · intro h
      cases h with
      | field he h => exact Or.inl ⟨_, he, h⟩
      | many _ => exact Or.inr rfl
      | none h => rw [h] at h2; simp at h2
      | level _ h => rw [h] at h2; simp at h2
      | prompt _ h => rw [h] at h2; simp at h2
  · rw [if_neg h2]
    by_cases h0 : (kinds es).length = 0
    · rw [if_pos h0]
      dsimp only
      rw [List.mem_append, List.mem_singleton, hmem]
      constructor
      · rintro (⟨e, he, h⟩ | rfl)
        · exact .field he h
        · exact .none (List.length_eq_zero_iff.mp h0)
      · intro h
        cases h with
        | field he h => exact Or.inl ⟨_, he, h⟩
        | many h => omega
        | none _ => exact Or.inr rfl
        | level _ h => rw [h] at h0; simp at h0
        | prompt _ h => rw [h] at h0; simp at h0
    · rw [if_neg h0]
      have h1 : (kinds es).length = 1 := by omega
      have hk := kinds_cmd t1 t2 t3 t4 (by rw [hcount]; exact h1)
      have hnone : kinds es ≠ [] := by intro h; rw [h] at h1; cases h1
      cases hb : rf.bad with
      | true =>
        rw [if_pos rfl]
        dsimp only
        have hbad : ¬ ∀ e ∈ es, ∀ r, ¬ FieldFault d pt e.1 e.2 r := by
          intro h; rw [hgood.mpr h] at hb; cases hb
        rw [hmem]
        constructor
        · rintro ⟨e, he, h⟩; exact .field he h
        · intro h
          cases h with
          | field he h => exact ⟨_, he, h⟩
          | many h => omega
          | none h => exact absurd h hnone
          | level h _ => exact absurd h hbad
          | prompt h _ => exact absurd h hbad
      | false =>
        rw [if_neg (by simp)]
        have ha := hare hb
        have hno := hgood.mp hb
        have hmem' : r ∉ rf.errs := fun h => by
          obtain ⟨e, he, h⟩ := hmem.mp h
          exact hno e he r h
        have hf : ∀ {e}, e ∈ es → ¬ FieldFault d pt e.1 e.2 r := fun he => hno _ he r
        by_cases c1 : rf.cmd ≠ []
        · rw [if_pos c1]
          dsimp only
          have hkk := hk.1 c1
          refine ⟨fun h => absurd h hmem', fun h => ?_⟩
          cases h with
          | field he h => exact absurd h (hf he)
          | many h => omega
          | none h => exact absurd h hnone
          | level _ h => rw [hkk] at h; exact absurd h (by decide)
          | prompt _ h => rw [hkk] at h; exact absurd h (by decide)
        · rw [if_neg c1]
          rw [ne_eq, Decidable.not_not] at c1
          by_cases c2 : rf.task ≠ []
          · rw [if_pos c2]
            dsimp only
            have hkk := hk.2.1 c1 c2
            refine ⟨fun h => absurd h hmem', fun h => ?_⟩
            cases h with
            | field he h => exact absurd h (hf he)
            | many h => omega
            | none h => exact absurd h hnone
            | level _ h => rw [hkk] at h; exact absurd h (by decide)
            | prompt _ h => rw [hkk] at h; exact absurd h (by decide)
          · rw [if_neg c2]
            rw [ne_eq, Decidable.not_not] at c2
            by_cases c3 : rf.log ≠ []
            · rw [if_pos c3]
              dsimp only
              have hkk := hk.2.2.1 c1 c2 c3
              rw [List.mem_append, mem_log, ha.level]
              constructor
              · rintro (h | ⟨h1, h2, rfl⟩)
                · exact absurd h hmem'
                · exact .level hno hkk h1 h2
              · intro h
                cases h with
                | field he h => exact absurd h (hf he)
                | many h => omega
                | none h => exact absurd h hnone
                | level _ _ h1 h2 => exact Or.inr ⟨h1, h2, rfl⟩
                | prompt _ h => rw [hkk] at h; exact absurd h (by decide)
            · rw [if_neg c3]
              rw [ne_eq, Decidable.not_not] at c3
              have hkk := hk.2.2.2 c1 c2 c3
              have c4 : rf.pf.name ≠ [] := by
                intro h
                have : "prompt".toList ∈ kinds es := by rw [hkk]; exact List.mem_singleton.mpr rfl
                unfold kinds at this
                rw [List.mem_filter, ← t4, h] at this
                simp at this
              rw [if_pos c4]
              dsimp only
              rw [List.mem_append, mem_prompt ha.pf]
              constructor
              · rintro (h | ⟨f, h1, rfl⟩)
                · exact absurd h hmem'
                · exact .prompt hno hkk h1
              · intro h
                cases h with
                | field he h => exact absurd h (hf he)
                | many h => omega
                | none h => exact absurd h hnone
                | level _ h => rw [hkk] at h; exact absurd h (by decide)
                | prompt _ _ h => exact Or.inr ⟨_, h, rfl⟩

/-! ## which part of the file is named does not decide whether there is a problem -/

theorem fieldFault_part {d : Decoders} {p q : Part} {k v : Node} {r : Report} (h : FieldFault d p k v r) : ∃ r', FieldFault d q k v r' := by
  cases h with
  | dir e h => cases h with | kind h => exact ⟨_, .dir e (.kind h)⟩
  | env e h => exact ⟨_, .env e h⟩
  | flag e h => exact ⟨_, .flag e h⟩
  | platforms e h =>
    cases h with
    | value h => exact ⟨_, .platforms e (.value h)⟩
    | name h1 h2 h3 => exact ⟨_, .platforms e (.name h1 h2 h3)⟩
  | list e h => exact ⟨_, .list e h⟩
  | number e h => exact ⟨_, .number e h⟩

theorem simpleFault_part {d : Decoders} {p q : Part} {l : Nat} {es : List (Node × Node)} {r : Report} (h : SimpleFault d p l es r) :
    ∃ r', SimpleFault d q l es r' := by
  have hno : (∀ e ∈ es, ∀ r, ¬ FieldFault d p e.1 e.2 r) → ∀ e ∈ es, ∀ r, ¬ FieldFault d q e.1 e.2 r := by
    intro hn e he r' hr
    obtain ⟨r2, h2⟩ := fieldFault_part (q := p) hr
    exact hn e he r2 h2
  cases h with
  | field he h => obtain ⟨r', h'⟩ := fieldFault_part (q := q) h; exact ⟨r', .field he h'⟩
  | many h => exact ⟨_, .many h⟩
  | none h => exact ⟨_, .none h⟩
  | level h1 h2 h3 h4 => exact ⟨_, .level (hno h1) h2 h3 h4⟩
  | prompt h1 h2 h3 => exact ⟨_, .prompt (hno h1) h2 h3⟩

theorem blockFault_part {d : Decoders} {p q : Part} {k v : Node} {r : Report} (h : BlockFieldFault d p k v r) : ∃ r', BlockFieldFault d q k v r' := by
  cases h with
  | parallel e h => exact ⟨_, .parallel e h⟩
  | modeKind e h => exact ⟨_, .modeKind e h⟩
  | mode e h1 h2 => exact ⟨_, .mode e h1 h2⟩
  | limit e h => exact ⟨_, .limit e h⟩
  | negative e h1 h2 => exact ⟨_, .negative e h1 h2⟩
  | flag e h => exact ⟨_, .flag e h⟩
  | platforms e h =>
    cases h with
    | value h => exact ⟨_, .platforms e (.value h)⟩
    | name h1 h2 h3 => exact ⟨_, .platforms e (.name h1 h2 h3)⟩
  | unknown e => exact ⟨_, .unknown e⟩

theorem block_part {d : Decoders} (p q : Part) {es : List (Node × Node)} (h : ∀ e ∈ es, ∀ r, ¬ BlockFieldFault d p e.1 e.2 r) :
    ∀ e ∈ es, ∀ r, ¬ BlockFieldFault d q e.1 e.2 r := by
  intro e he r hr
  obtain ⟨r2, h2⟩ := blockFault_part (q := p) hr
  exact h e he r2 h2

theorem block_key {d : Decoders} {es : List (Node × Node)} {l : Nat} {ns : List Node} (h : Block d es l ns) : ¬ NoKey "parallel".toList es := by
  rw [← last_none, h.1]; exact fun h => nomatch h

theorem block_same {d : Decoders} {es : List (Node × Node)} {l l' : Nat} {ns ns' : List Node} (h : Block d es l ns) (h' : Block d es l' ns') : l = l' ∧ ns = ns' := by
  have := h.1.symm.trans h'.1
  cases this; exact ⟨rfl, rfl⟩

/-- a block whose entries can be read has a list -/
theorem block_of {d : Decoders} {es : List (Node × Node)} {p : Part} (hk : ¬ NoKey "parallel".toList es)
    (h : ∀ e ∈ es, ∀ r, ¬ BlockFieldFault d p e.1 e.2 r) : ∃ l ns, Block d es l ns := by
  rw [← last_none] at hk
  cases hl : last "parallel".toList es with
  | none => exact absurd hl hk
  | some n =>
    obtain ⟨e, he, e1, e2⟩ := last_mem hl
    have hs : ∃ l ns, n = .seq l ns := by
      by_contra hc
      push Not at hc
      exact h e he _ (.parallel e1 (by rw [e2]; exact hc))
    obtain ⟨l, ns, rfl⟩ := hs
    exact ⟨l, ns, hl, block_part p .file h⟩

/-- simple items without problems have none -/
theorem simple_fine {d : Decoders} {task : Str} {index : Nat} {n : Node} (h : FineSimple d n) (r : Report) : ¬ ItemFault d task index n r := by
  obtain ⟨l, es, rfl, hk, hno⟩ := h
  intro hf
  cases hf with
  | kind h => exact h _ _ rfl
  | simple _ h => obtain ⟨r', h'⟩ := simpleFault_part (q := .file) h; exact hno r' h'
  | entry h _ _ => exact h hk
  | empty h => exact block_key h hk
  | inner h _ _ => exact block_key h hk
  | asks h _ _ _ _ => exact block_key h hk
  | nested h _ _ _ => exact block_key h hk

theorem not_both {d : Decoders} {n : Node} (h : FineSimple d n) (h' : FineBlock d n) : False := by
  obtain ⟨l, es, rfl, hk, _⟩ := h
  obtain ⟨l', es', l2, ns, e, hb, _⟩ := h'
  cases e
  exact block_key hb hk

theorem block_fine {d : Decoders} {task : Str} {index : Nat} {n : Node} (h : FineBlock d n) (r : Report) : ¬ ItemFault d task index n r := by
  obtain ⟨l, es, l2, ns, rfl, hb, hne, hall⟩ := h
  intro hf
  cases hf with
  | kind h => exact h _ _ rfl
  | simple hk _ => exact block_key hb hk
  | entry _ he h => exact block_part .file (.item task index) hb.2 _ he _ h
  | empty h => exact hne (block_same hb h).2
  | inner h hj hf =>
    rw [← (block_same hb h).2] at hj
    exact simple_fine (hall _ (List.mem_of_getElem? hj)).1 _ hf
  | asks h _ hn _ ha =>
    rw [← (block_same hb h).2] at hn
    exact (hall _ hn).2 ha
  | nested h _ hn hf =>
    rw [← (block_same hb h).2] at hn
    exact not_both (hall _ hn).1 hf

/-- an item is fine when nothing is to be said about it -/
theorem fine_iff (d : Decoders) (task : Str) : ∀ (f index : Nat) (n : Node), depth n ≤ f → (FineItem d n ↔ ∀ r, ¬ ItemFault d task index n r) := by
  intro f
  induction f with
  | zero => intro _ n h; have := depth_pos n; omega
  | succ f ih =>
    intro index n hd
    constructor
    · rintro (h | h)
      · exact simple_fine h
      · exact block_fine h
    · intro hno
      cases n with
      | scalar l t v => exact absurd (.kind (fun _ _ h => by cases h)) (hno _)
      | seq l ns => exact absurd (.kind (fun _ _ h => by cases h)) (hno _)
      | ref l x y => exact absurd (.kind (fun _ _ h => by cases h)) (hno _)
      | map l es =>
        by_cases hk : NoKey "parallel".toList es
        · refine Or.inl ⟨l, es, rfl, hk, fun r hr => ?_⟩
          obtain ⟨r', h'⟩ := simpleFault_part (q := .item task index) hr
          exact hno r' (.simple hk h')
        · have hb := block_of (p := .item task index) hk (fun e he r hr => hno r (.entry hk he hr))
          obtain ⟨l', ns, hb⟩ := hb
          have hdn : ∀ m ∈ ns, depth m ≤ f := by
            intro m hm
            obtain ⟨e, he, _, e2⟩ := last_mem hb.1
            have h1 := depth_le_entries he
            rw [e2, depth] at h1
            have h2 := depth_le_list hm
            rw [depth] at hd
            omega
          have hfine : ∀ m ∈ ns, FineItem d m := by
            intro m hm
            obtain ⟨j, hj⟩ := List.mem_iff_getElem?.mp hm
            rw [ih j m (hdn m hm)]
            exact fun r hr => hno r (.inner hb hj hr)
          refine Or.inr ⟨l, es, l', ns, rfl, hb, ?_, ?_⟩
          · rintro rfl; exact hno _ (.empty hb)
          · intro m hm
            rcases hfine m hm with h | h
            · exact ⟨h, fun ha => hno _ (.asks hb hfine hm h ha)⟩
            · exact absurd (.nested hb hfine hm h) (hno _)

/-! ## entries of parallel blocks -/

theorem pkeep_errs {α : Type} {pf : ParFields} {r : Res α} {f : ParFields → α → ParFields} : (pf.keep r f).errs = pf.errs ++ r.2 := by
  unfold ParFields.keep
  cases r.1 <;> rfl

/-- what an entry of a block adds -/
def blockOut (d : Decoders) (pt : Part) (e : Node × Node) : List Report :=
  match bKeyOf e.1.value with
  | .parallel => (parItems pt e.2).2
  | .mode => (parMode pt e.2).2
  | .limit => (parLimit d pt e.2).2
  | .color => (parseBool d e.2).2
  | .silent => (parseBool d e.2).2
  | .output => (parseBool d e.2).2
  | .platforms => (parsePlatforms d e.1.line pt e.2).2
  | .cond => []
  | .other => [⟨e.1.line, pt, .unknownKey e.1.value⟩]

theorem parField_errs (d : Decoders) (pt : Part) (pf : ParFields) (e : Node × Node) : (parField d pt pf e).errs = pf.errs ++ blockOut d pt e := by
  unfold parField blockOut
  cases bKeyOf e.1.value with
  | cond => simp
  | other => rfl
  | _ => exact pkeep_errs

theorem mem_items {pt : Part} {n : Node} {r : Report} : r ∈ (parItems pt n).2 ↔ NotList n ∧ r = ⟨n.line, pt, .parallelNotSequence⟩ := by
  cases n with
  | seq l ns => exact ⟨(fun h => nomatch h), fun h => absurd rfl (h.1 l ns)⟩
  | scalar l t v => exact List.mem_singleton.trans ⟨fun h => ⟨(fun _ _ h => nomatch h), h⟩, fun h => h.2⟩
  | map l es => exact List.mem_singleton.trans ⟨fun h => ⟨(fun _ _ h => nomatch h), h⟩, fun h => h.2⟩
  | ref l x y => exact List.mem_singleton.trans ⟨fun h => ⟨(fun _ _ h => nomatch h), h⟩, fun h => h.2⟩

theorem modes_iff {v : Str} : modes.get? v = none ↔ v ∉ ["interleaved".toList, "grouped".toList, "tabs".toList] := by
  rw [← Decidable.not_iff_not, Decidable.not_not]
  exact GoMap.mem_keys_iff.symm

theorem mem_mode {pt : Part} {n : Node} {r : Report} : r ∈ (parMode pt n).2 ↔
    (NotText n ∧ r = ⟨n.line, pt, .modeNotText⟩) ∨
    (¬ NotText n ∧ n.value ∉ ["interleaved".toList, "grouped".toList, "tabs".toList] ∧ r = ⟨n.line, pt, .badMode n.value⟩) := by
  have other : ∀ (l : Nat), NotText n → (r ∈ ([⟨l, pt, .modeNotText⟩] : List Report) ↔ (NotText n ∧ r = ⟨l, pt, .modeNotText⟩) ∨
      (¬ NotText n ∧ n.value ∉ ["interleaved".toList, "grouped".toList, "tabs".toList] ∧ r = ⟨n.line, pt, .badMode n.value⟩)) := by
    intro l h
    rw [List.mem_singleton]
    exact ⟨fun e => Or.inl ⟨h, e⟩, fun e => e.elim (·.2) (fun e => absurd h e.1)⟩
  cases n with
  | seq l ns => exact other l (fun _ _ _ h => by cases h)
  | map l es => exact other l (fun _ _ _ h => by cases h)
  | ref l x y => exact other l (fun _ _ _ h => by cases h)
  | scalar l t v =>
    have hn : ¬ NotText (.scalar l t v) := fun h => h l t v rfl
    rw [parMode]
    cases hm : modes.get? v with
    | some m =>
      refine ⟨(fun h => nomatch h), fun h => ?_⟩
      rcases h with h | ⟨_, h, _⟩
      · exact absurd h.1 hn
      · rw [show (Node.scalar l t v).value = v from rfl, ← modes_iff, hm] at h; cases h
    | none =>
      rw [List.mem_singleton]
      refine ⟨fun h => Or.inr ⟨hn, modes_iff.mp hm, h⟩, fun h => ?_⟩
      rcases h with h | ⟨_, _, h⟩
      · exact absurd h.1 hn
      · exact h

theorem mem_limit {d : Decoders} {pt : Part} {n : Node} {r : Report} : r ∈ (parLimit d pt n).2 ↔
    (d.int n = none ∧ r = ⟨n.line, pt, .invalid "limit".toList (d.why .int n)⟩) ∨ (∃ i, d.int n = some i ∧ i < 0 ∧ r = ⟨n.line, pt, .badLimit⟩) := by
  unfold parLimit
  cases h : d.int n with
  | none => simp
  | some i =>
    dsimp only
    split
    · next hi => simp [hi]
    · next hi => simp [hi]

theorem mem_blockOut {d : Decoders} {pt : Part} {e : Node × Node} {r : Report} : r ∈ blockOut d pt e ↔ BlockFieldFault d pt e.1 e.2 r := by
  obtain ⟨k, v⟩ := e
  constructor
  · intro h
    unfold blockOut at h
    cases hk : bKeyOf k.value with
    | parallel =>
      have e : k.value = "parallel".toList := by have := bKey_text hk (by decide); revert this; simp [bKeys]
      simp only [hk] at h
      obtain ⟨h1, rfl⟩ := mem_items.mp h
      exact .parallel e h1
    | mode =>
      have e : k.value = "mode".toList := by have := bKey_text hk (by decide); revert this; simp [bKeys]
      simp only [hk] at h
      rcases mem_mode.mp h with ⟨h1, rfl⟩ | ⟨h1, h2, rfl⟩
      · exact .modeKind e h1
      · exact .mode e h1 h2
    | limit =>
      have e : k.value = "limit".toList := by have := bKey_text hk (by decide); revert this; simp [bKeys]
      simp only [hk] at h
      rcases mem_limit.mp h with ⟨h1, rfl⟩ | ⟨i, h1, h2, rfl⟩
      · exact .limit e h1
      · exact .negative e h1 h2
    | color =>
      have e : k.value = "color".toList := by have := bKey_text hk (by decide); revert this; simp [bKeys]
      simp only [hk] at h
      exact .flag (by simp [e]) (mem_bool.mp h)
    | silent =>
      have e : k.value = "silent".toList := by have := bKey_text hk (by decide); revert this; simp [bKeys]
      simp only [hk] at h
      exact .flag (by simp [e]) (mem_bool.mp h)
    | output =>
      have e : k.value = "output".toList := by have := bKey_text hk (by decide); revert this; simp [bKeys]
      simp only [hk] at h
      exact .flag (by simp [e]) (mem_bool.mp h)
    | platforms =>
      have e : k.value = "platforms".toList := by have := bKey_text hk (by decide); revert this; simp [bKeys]
      simp only [hk] at h
      exact .platforms e (mem_platforms.mp h)
    | cond => simp only [hk] at h; cases h
    | other =>
      simp only [hk] at h
      obtain rfl := List.mem_singleton.mp h
      refine .unknown (fun hm => ?_)
      dsimp only at hm
      generalize k.value = x at hk hm
      simp only [List.mem_cons, List.not_mem_nil, or_false] at hm
      rcases hm with rfl | rfl | rfl | rfl | rfl | rfl | rfl | rfl <;> exact absurd hk (by decide)
  · intro h
    unfold blockOut
    cases h with
    | parallel e h => dsimp only at e ⊢; rw [e]; exact mem_items.mpr ⟨h, rfl⟩
    | modeKind e h => dsimp only at e ⊢; rw [e]; exact mem_mode.mpr (Or.inl ⟨h, rfl⟩)
    | mode e h1 h2 => dsimp only at e ⊢; rw [e]; exact mem_mode.mpr (Or.inr ⟨h1, h2, rfl⟩)
    | limit e h => dsimp only at e ⊢; rw [e]; exact mem_limit.mpr (Or.inl ⟨h, rfl⟩)
    | negative e h1 h2 => dsimp only at e ⊢; rw [e]; exact mem_limit.mpr (Or.inr ⟨_, h1, h2, rfl⟩)
    | flag e h =>
      dsimp only at e ⊢
      simp only [List.mem_cons, List.not_mem_nil, or_false] at e
      rcases e with e | e | e
      · rw [e]; exact mem_bool.mpr h
      · rw [e]; exact mem_bool.mpr h
      · rw [e]; exact mem_bool.mpr h
    | platforms e h => dsimp only at e ⊢; rw [e]; exact mem_platforms.mpr h
    | unknown e =>
      dsimp only at e ⊢
      have hk : bKeyOf k.value = .other := by
        by_contra hc
        have := bKey_text rfl hc
        apply e
        have h2 : k.value ∈ bKeys.map (·.1) := List.mem_map.mpr ⟨_, this, rfl⟩
        exact h2
      rw [hk]
      exact List.mem_singleton.mpr rfl

theorem mem_block {d : Decoders} {pt : Part} {es : List (Node × Node)} {r : Report} :
    r ∈ (es.foldl (parField d pt) {}).errs ↔ ∃ e ∈ es, BlockFieldFault d pt e.1 e.2 r := by
  rw [fold_errs (fun pf : ParFields => pf.errs) _ _ (parField_errs d pt) es {}, show ({} : ParFields).errs = [] from rfl, List.nil_append, List.mem_flatMap]
  exact ⟨fun ⟨e, he, h⟩ => ⟨e, he, mem_blockOut.mp h⟩, fun ⟨e, he, h⟩ => ⟨e, he, mem_blockOut.mpr h⟩⟩

theorem block_good {d : Decoders} {pt : Part} {es : List (Node × Node)} :
    (es.foldl (parField d pt) {}).bad = false ↔ ∀ e ∈ es, ∀ r, ¬ BlockFieldFault d pt e.1 e.2 r := by
  have ht := told_par d pt es
  rw [← Bool.not_eq_true, ht.not, Decidable.not_not]
  constructor
  · intro h e he r hr
    have := mem_block.mpr ⟨e, he, hr⟩
    rw [h] at this; cases this
  · intro h
    rw [List.eq_nil_iff_forall_not_mem]
    intro r hr
    obtain ⟨e, he, hf⟩ := mem_block.mp hr
    exact h e he r hf

/-! ## items -/

theorem mem_runItems {task : Str} {item : Nat → Node → Res RunItem} {l : Nat} {ns : List Node} {r : Report} :
    r ∈ (parseRunItems task item (.seq l ns)).2 ↔ ∃ (j : Nat) (n : Node), ns[j]? = some n ∧ r ∈ (item j n).2 := by
  rw [parseRunItems]
  dsimp only
  rw [List.mem_flatMap]
  constructor
  · rintro ⟨x, hx, hr⟩
    obtain ⟨j, hj, rfl⟩ := List.mem_mapIdx.mp hx
    exact ⟨j, ns[j], List.getElem?_eq_getElem hj, hr⟩
  · rintro ⟨j, n, hj, hr⟩
    obtain ⟨hj', rfl⟩ := List.getElem?_eq_some_iff.mp hj
    exact ⟨_, List.mem_mapIdx.mpr ⟨j, hj', rfl⟩, hr⟩

theorem mem_zip_left {α β : Type} {a : α} : ∀ {as : List α} {bs : List β}, as.length = bs.length → a ∈ as → ∃ b, (a, b) ∈ as.zip bs
  | [], [], _, h => nomatch h
  | a' :: as, b' :: bs, hl, h => by
    rcases List.mem_cons.mp h with rfl | h
    · exact ⟨b', by simp⟩
    · obtain ⟨b, hb⟩ := mem_zip_left (Nat.succ.inj hl) h
      exact ⟨b, by simp [hb]⟩

theorem forall₂_zip {α β : Type} {R : α → β → Prop} {as : List α} {bs : List β} (h : List.Forall₂ R as bs) : ∀ e ∈ as.zip bs, R e.1 e.2 := by
  induction h with
  | nil => intro e he; cases he
  | cons h _ ih =>
    intro e he
    rw [List.zip_cons_cons] at he
    rcases List.mem_cons.mp he with rfl | he
    · exact h
    · exact ih e he

theorem mem_item (d : Decoders) (task : Str) : ∀ (f index : Nat) (n : Node), depth n ≤ f → ∀ r, r ∈ (parseRunItem d task f index n).2 ↔ ItemFault d task index n r := by
  intro f
  induction f with
  | zero => intro _ n h; have := depth_pos n; omega
  | succ f ih =>
    intro index n hd r
    have other : (∀ l es, n ≠ .map l es) → (r ∈ ([⟨n.line, .item task index, .itemNotMapping⟩] : List Report) ↔ ItemFault d task index n r) := by
      intro hn
      rw [List.mem_singleton]
      constructor
      · rintro rfl; exact .kind hn
      · intro h
        cases h with
        | kind _ => rfl
        | _ => exact absurd rfl (hn _ _)
    cases n with
    | scalar l t v => exact other (fun _ _ h => by cases h)
    | seq l ns => exact other (fun _ _ h => by cases h)
    | ref l x y => exact other (fun _ _ h => by cases h)
    | map l es =>
      clear other
      rw [parseRunItem]
      by_cases hk : NoKey "parallel".toList es
      · rw [if_neg (by rw [hasParallel_iff.mpr hk]; simp), mem_simple]
        constructor
        · exact fun h => .simple hk h
        · intro h
          cases h with
          | kind h => exact absurd rfl (h _ _)
          | simple _ h => exact h
          | entry h _ _ => exact absurd hk h
          | empty h => exact absurd hk (block_key h)
          | inner h _ _ => exact absurd hk (block_key h)
          | asks h _ _ _ _ => exact absurd hk (block_key h)
          | nested h _ _ _ => exact absurd hk (block_key h)
      · have hp : hasParallel es = true := by
          by_contra hc; rw [Bool.not_eq_true] at hc; exact hk (hasParallel_iff.mp hc)
        rw [if_pos hp]
        have hmem := mem_block (d := d) (pt := .item task index) (es := es) (r := r)
        have hgood := block_good (d := d) (pt := .item task index) (es := es)
        have hare := parFields_are d (.item task index) es
        unfold parseParallelRun
        dsimp only
        generalize es.foldl (parField d (.item task index)) {} = pf at *
        cases hb : pf.bad with
        | true =>
          have hbad : ¬ ∀ e ∈ es, ∀ r, ¬ BlockFieldFault d (.item task index) e.1 e.2 r := by
            intro h; rw [hgood.mpr h] at hb; cases hb
          have hnb : ∀ {l' ns}, ¬ Block d es l' ns := fun h => hbad (block_part .file _ h.2)
          have key : r ∈ pf.errs ↔ ItemFault d task index (.map l es) r := by
            rw [hmem]
            constructor
            · rintro ⟨e, he, h⟩; exact .entry hk he h
            · intro h
              cases h with
              | kind h => exact absurd rfl (h _ _)
              | simple h _ => exact absurd h hk
              | entry _ he h => exact ⟨_, he, h⟩
              | empty h => exact absurd h hnb
              | inner h _ _ => exact absurd h hnb
              | asks h _ _ _ _ => exact absurd h hnb
              | nested h _ _ _ => exact absurd h hnb
          cases pf.items with
          | none => exact key
          | some p => dsimp only; rw [if_pos rfl]; exact key
        | false =>
          have hno := hgood.mp hb
          have ha := hare hb
          obtain ⟨l', ns, hB⟩ := block_of hk hno
          have hi : pf.items = some (l', ns) := by rw [← ha.items, hB.1]; rfl
          have hre : r ∉ pf.errs := fun h => by
            obtain ⟨e, he, h⟩ := hmem.mp h
            exact hno e he r h
          rw [hi]
          dsimp only
          rw [if_neg (by simp)]
          have hdn : ∀ m ∈ ns, depth m ≤ f := by
            intro m hm
            obtain ⟨e, he, _, e2⟩ := last_mem hB.1
            have h1 := depth_le_entries he
            rw [e2, depth] at h1
            have h2 := depth_le_list hm
            rw [depth] at hd
            omega
          by_cases hne : ns = []
          · rw [if_pos hne]
            dsimp only
            rw [List.mem_append, List.mem_singleton]
            constructor
            · rintro (h | rfl)
              · exact absurd h hre
              · exact .empty (hne ▸ hB)
            · intro h
              cases h with
              | kind h => exact absurd rfl (h _ _)
              | simple h _ => exact absurd h hk
              | entry _ he h => exact absurd h (hno _ he _)
              | empty h => rw [(block_same hB h).1]; exact Or.inr rfl
              | inner h hj _ => rw [← (block_same hB h).2, hne] at hj; cases hj
              | asks h _ hn _ _ => rw [← (block_same hB h).2, hne] at hn; cases hn
              | nested h _ hn _ => rw [← (block_same hB h).2, hne] at hn; cases hn
          · rw [if_neg hne]
            have hf := fair_runItems (task := task) (item := parseRunItem d task f) (n := .seq l' ns) (fun l2 ns2 e m hm j => by
              cases e; exact fair_item d task f j m (hdn m hm))
            have hmi : ∀ r, r ∈ (parseRunItems task (parseRunItem d task f) (.seq l' ns)).2 ↔ ∃ (j : Nat) (n : Node), ns[j]? = some n ∧ ItemFault d task j n r := by
              intro r
              rw [mem_runItems]
              constructor
              · rintro ⟨j, n, hj, h⟩
                exact ⟨j, n, hj, (ih j n (hdn n (List.mem_of_getElem? hj)) r).mp h⟩
              · rintro ⟨j, n, hj, h⟩
                exact ⟨j, n, hj, (ih j n (hdn n (List.mem_of_getElem? hj)) r).mpr h⟩
            have hsome := fun is => runItems_some (task := task) (item := parseRunItem d task f) (n := .seq l' ns) (items := is)
            generalize hr : parseRunItems task (parseRunItem d task f) (.seq l' ns) = res at *
            obtain ⟨o, errs⟩ := res
            cases o with
            | none =>
              dsimp only at hmi ⊢
              have herr : errs ≠ [] := hf.mp rfl
              have hnf : ¬ ∀ m ∈ ns, FineItem d m := by
                intro hall
                apply herr
                rw [List.eq_nil_iff_forall_not_mem]
                intro r' hr'
                obtain ⟨j, n, hj, h⟩ := (hmi r').mp hr'
                have hm := List.mem_of_getElem? hj
                exact (fine_iff d task f j n (hdn n hm)).mp (hall n hm) r' h
              rw [List.mem_append, hmi]
              constructor
              · rintro (h | ⟨j, n, hj, h⟩)
                · exact absurd h hre
                · exact .inner hB hj h
              · intro h
                cases h with
                | kind h => exact absurd rfl (h _ _)
                | simple h _ => exact absurd h hk
                | entry _ he h => exact absurd h (hno _ he _)
                | empty h => exact absurd (block_same hB h).2 hne
                | inner h hj hf => rw [← (block_same hB h).2] at hj; exact Or.inr ⟨_, _, hj, hf⟩
                | asks h hall _ _ _ => rw [← (block_same hB h).2] at hall; exact absurd hall hnf
                | nested h hall _ _ => rw [← (block_same hB h).2] at hall; exact absurd hall hnf
            | some items =>
              have herr : errs = [] := hf.errs rfl
              subst herr
              obtain ⟨l2, ns2, e, hall⟩ := hsome _ rfl
              cases e
              have hfine : ∀ m ∈ ns, FineItem d m := by
                intro m hm
                obtain ⟨j, hj⟩ := List.mem_iff_getElem?.mp hm
                rw [fine_iff d task f j m (hdn m hm)]
                intro r' h'
                have := (hmi r').mpr ⟨j, m, hj, h'⟩
                cases this
              have hpair : ∀ e ∈ ns.zip items, Describes d e.1 e.2 := by
                intro e he
                obtain ⟨j, hj⟩ := forall₂_zip hall e he
                exact item_describes d task f j e.1 e.2 hj
              -- the same errors in both cases
              have hv : ∀ r, r ∈ validateParallelItems (.item task index) ns items ↔
                  (∃ n ∈ ns, FineSimple d n ∧ Asks n ∧ r = ⟨n.line, .item task index, .promptInParallel⟩) ∨
                  (∃ n ∈ ns, FineBlock d n ∧ r = ⟨n.line, .item task index, .nestedParallel⟩) := by
                intro r
                unfold validateParallelItems
                rw [List.mem_flatMap]
                have fineS : ∀ {n i}, (n, i) ∈ ns.zip items → (∃ l es, n = .map l es ∧ NoKey "parallel".toList es) → FineSimple d n := by
                  intro n i hz hn
                  rcases hfine n (List.of_mem_zip hz).1 with h | ⟨_, _, _, _, rfl, hb, _⟩
                  · exact h
                  · obtain ⟨_, _, e, hk'⟩ := hn
                    cases e
                    exact absurd hk' (block_key hb)
                constructor
                · rintro ⟨⟨n, i⟩, hz, hr⟩
                  have hd := hpair _ hz
                  have hn := (List.of_mem_zip hz).1
                  cases i with
                  | prompt p =>
                    obtain rfl := List.mem_singleton.mp hr
                    obtain ⟨l3, es3, e3, hk3, hs3⟩ := hd
                    exact Or.inl ⟨n, hn, fineS hz ⟨l3, es3, e3, hk3⟩, ⟨l3, es3, e3, hs3.1⟩, rfl⟩
                  | parallel a b c d' e f' g h k l =>
                    obtain rfl := List.mem_singleton.mp hr
                    obtain ⟨es3, l3, ns3, e3, hl3, _⟩ := hd
                    refine Or.inr ⟨n, hn, ?_, rfl⟩
                    rcases hfine n hn with h | h
                    · obtain ⟨_, _, e4, hk4, _⟩ := h
                      dsimp only at e3
                      rw [e3] at e4
                      cases e4
                      rw [← last_none, hl3] at hk4
                      cases hk4
                    · exact h
                  | command _ => cases hr
                  | task _ => cases hr
                  | log _ => cases hr
                · rintro (⟨n, hn, hs, ha, rfl⟩ | ⟨n, hn, hb, rfl⟩)
                  · obtain ⟨i, hz⟩ := mem_zip_left hall.length_eq hn
                    refine ⟨(n, i), hz, ?_⟩
                    have hd := hpair _ hz
                    obtain ⟨l3, es3, e3, ha3⟩ := ha
                    obtain ⟨l4, es4, e4, hk4, _⟩ := hs
                    rw [e3] at e4
                    cases e4
                    cases i with
                    | prompt p => exact List.mem_singleton.mpr rfl
                    | parallel a b c d' e f' g h k l =>
                      obtain ⟨es5, l5, ns5, e5, hl5, _⟩ := hd
                      dsimp only at e5
                      rw [e3] at e5
                      cases e5
                      rw [← last_none, hl5] at hk4
                      cases hk4
                    | command _ =>
                      obtain ⟨l5, es5, e5, _, hs5⟩ := hd
                      dsimp only at e5
                      rw [e3] at e5
                      cases e5
                      have := hs5.1
                      rw [ha3] at this
                      exact absurd this (by decide)
                    | task _ =>
                      obtain ⟨l5, es5, e5, _, hs5⟩ := hd
                      dsimp only at e5
                      rw [e3] at e5
                      cases e5
                      have := hs5.1
                      rw [ha3] at this
                      exact absurd this (by decide)
                    | log _ =>
                      obtain ⟨l5, es5, e5, _, hs5⟩ := hd
                      dsimp only at e5
                      rw [e3] at e5
                      cases e5
                      have := hs5.1
                      rw [ha3] at this
                      exact absurd this (by decide)
                  · obtain ⟨i, hz⟩ := mem_zip_left hall.length_eq hn
                    refine ⟨(n, i), hz, ?_⟩
                    have hd := hpair _ hz
                    have no : (∃ l es, n = .map l es ∧ NoKey "parallel".toList es) → False := fun h => not_both (fineS hz h) hb
                    cases i with
                    | parallel a b c d' e f' g h k l => exact List.mem_singleton.mpr rfl
                    | prompt _ => obtain ⟨l5, es5, e5, hk5, _⟩ := hd; exact (no ⟨l5, es5, e5, hk5⟩).elim
                    | command _ => obtain ⟨l5, es5, e5, hk5, _⟩ := hd; exact (no ⟨l5, es5, e5, hk5⟩).elim
                    | task _ => obtain ⟨l5, es5, e5, hk5, _⟩ := hd; exact (no ⟨l5, es5, e5, hk5⟩).elim
                    | log _ => obtain ⟨l5, es5, e5, hk5, _⟩ := hd; exact (no ⟨l5, es5, e5, hk5⟩).elim
              have key : r ∈ validateParallelItems (.item task index) ns items ↔ ItemFault d task index (.map l es) r := by
                rw [hv]
                constructor
                · rintro (⟨n, hn, hs, ha, rfl⟩ | ⟨n, hn, hb, rfl⟩)
                  · exact .asks hB hfine hn hs ha
                  · exact .nested hB hfine hn hb
                · intro h
                  cases h with
                  | kind h => exact absurd rfl (h _ _)
                  | simple h _ => exact absurd h hk
                  | entry _ he h => exact absurd h (hno _ he _)
                  | empty h => exact absurd (block_same hB h).2 hne
                  | inner h hj hf =>
                    rw [← (block_same hB h).2] at hj
                    have := (hmi _).mpr ⟨_, _, hj, hf⟩
                    cases this
                  | asks h _ hn hs ha => rw [← (block_same hB h).2] at hn; exact Or.inl ⟨_, hn, hs, ha, rfl⟩
                  | nested h _ hn hb => rw [← (block_same hB h).2] at hn; exact Or.inr ⟨_, hn, hb, rfl⟩
              dsimp only
              split
              · dsimp only
                rw [List.append_nil, List.mem_append]
                exact ⟨fun h => h.elim (fun h => absurd h hre) key.mp, fun h => Or.inr (key.mpr h)⟩
              · next hnil =>
                rw [ne_eq, Decidable.not_not] at hnil
                dsimp only
                rw [List.append_nil, ← key, hnil]
                exact ⟨fun h => absurd h hre, fun h => nomatch h⟩

/-! ## tasks -/

theorem mem_run {d : Decoders} {name : Str} {n : Node} {r : Report} : r ∈ (parseRunItems name (parseRunItem d name (depth n)) n).2 ↔
    (NotList n ∧ r = ⟨n.line, .task name, .notSequence⟩) ∨ ∃ (l : Nat) (ns : List Node) (j : Nat) (m : Node), n = .seq l ns ∧ ns[j]? = some m ∧ ItemFault d name j m r := by
  have other : NotList n → (r ∈ ([⟨n.line, .task name, .notSequence⟩] : List Report) ↔ (NotList n ∧ r = ⟨n.line, .task name, .notSequence⟩) ∨
      ∃ (l : Nat) (ns : List Node) (j : Nat) (m : Node), n = .seq l ns ∧ ns[j]? = some m ∧ ItemFault d name j m r) := by
    intro h
    rw [List.mem_singleton]
    constructor
    · exact fun e => Or.inl ⟨h, e⟩
    · rintro (e | ⟨l, ns, _, _, e, _⟩)
      · exact e.2
      · exact absurd e (h l ns)
  cases n with
  | scalar l t v => exact other (fun _ _ h => nomatch h)
  | map l es => exact other (fun _ _ h => nomatch h)
  | ref l x y => exact other (fun _ _ h => nomatch h)
  | seq l ns =>
    rw [mem_runItems]
    have hdn : ∀ m ∈ ns, depth m ≤ depth (.seq l ns) := by
      intro m hm
      have := depth_le_list hm
      rw [depth]; omega
    constructor
    · rintro ⟨j, m, hj, h⟩
      exact Or.inr ⟨l, ns, j, m, rfl, hj, (mem_item d name _ j m (hdn m (List.mem_of_getElem? hj)) r).mp h⟩
    · rintro (e | ⟨l', ns', j, m, e, hj, h⟩)
      · exact absurd rfl (e.1 l ns)
      · cases e
        exact ⟨j, m, hj, (mem_item d name _ j m (hdn m (List.mem_of_getElem? hj)) r).mpr h⟩

theorem tkeep_errs {α : Type} {st : TaskState} {r : Res α} {f : Task → α → Task} : (st.keep r f).errs = st.errs ++ r.2 := by
  unfold TaskState.keep
  cases r.1 <;> rfl

/-- what an entry of a task adds -/
def taskOut (d : Decoders) (name : Str) (e : Node × Node) : List Report :=
  match tKeyOf e.1.value with
  | .aliases => (parseStrs d "aliases".toList e.1.line (.task name) e.2).2
  | .vars => (parseStrMap "vars".toList e.2).2
  | .env => (parseStrMap "env".toList e.2).2
  | .silent => (parseBool d e.2).2
  | .output => (parseBool d e.2).2
  | .dir => (parseDir (.task name) e.2).2
  | .deps => (parseStrs d "deps".toList e.1.line (.task name) e.2).2
  | .run => (parseRunItems name (parseRunItem d name (depth e.2)) e.2).2
  | _ => []

theorem taskField_errs (d : Decoders) (name : Str) (st : TaskState) (e : Node × Node) : (taskField d name st e).errs = st.errs ++ taskOut d name e := by
  unfold taskField taskOut
  cases tKeyOf e.1.value with
  | desc => simp
  | nick => simp
  | cond => simp
  | other => simp
  | _ => exact tkeep_errs

theorem mem_taskOut {d : Decoders} {name : Str} {e : Node × Node} {r : Report} : r ∈ taskOut d name e ↔ TaskFieldFault d name e.1 e.2 r := by
  obtain ⟨k, v⟩ := e
  constructor
  · intro h
    unfold taskOut at h
    cases hk : tKeyOf k.value with
    | aliases =>
      have e : k.value = "aliases".toList := by have := tKey_text hk (by decide); revert this; simp [tKeys]
      simp only [hk] at h
      obtain ⟨h1, rfl⟩ := mem_strs.mp h
      rw [← e]
      exact .list (by simp [e]) h1
    | deps =>
      have e : k.value = "deps".toList := by have := tKey_text hk (by decide); revert this; simp [tKeys]
      simp only [hk] at h
      obtain ⟨h1, rfl⟩ := mem_strs.mp h
      rw [← e]
      exact .list (by simp [e]) h1
    | vars =>
      have e : k.value = "vars".toList := by have := tKey_text hk (by decide); revert this; simp [tKeys]
      simp only [hk] at h
      exact .vars (by simp [e]) (by dsimp only; rw [e]; exact mem_strMap.mp h)
    | env =>
      have e : k.value = "env".toList := by have := tKey_text hk (by decide); revert this; simp [tKeys]
      simp only [hk] at h
      exact .vars (by simp [e]) (by dsimp only; rw [e]; exact mem_strMap.mp h)
    | silent =>
      have e : k.value = "silent".toList := by have := tKey_text hk (by decide); revert this; simp [tKeys]
      simp only [hk] at h
      exact .flag (by simp [e]) (mem_bool.mp h)
    | output =>
      have e : k.value = "output".toList := by have := tKey_text hk (by decide); revert this; simp [tKeys]
      simp only [hk] at h
      exact .flag (by simp [e]) (mem_bool.mp h)
    | dir =>
      have e : k.value = "dir".toList := by have := tKey_text hk (by decide); revert this; simp [tKeys]
      simp only [hk] at h
      exact .dir e (mem_dir.mp h)
    | run =>
      have e : k.value = "run".toList := by have := tKey_text hk (by decide); revert this; simp [tKeys]
      simp only [hk] at h
      rcases mem_run.mp h with ⟨h1, rfl⟩ | ⟨l, ns, j, m, h1, h2, h3⟩
      · exact .run e h1
      · exact .item e h1 h2 h3
    | _ => simp only [hk] at h; cases h
  · intro h
    unfold taskOut
    cases h with
    | list e h =>
      dsimp only at e ⊢
      simp only [List.mem_cons, List.not_mem_nil, or_false] at e
      rcases e with e | e
      · rw [e]; exact mem_strs.mpr ⟨h, rfl⟩
      · rw [e]; exact mem_strs.mpr ⟨h, rfl⟩
    | vars e h =>
      dsimp only at e h ⊢
      simp only [List.mem_cons, List.not_mem_nil, or_false] at e
      rcases e with e | e
      · rw [e] at h ⊢; exact mem_strMap.mpr h
      · rw [e] at h ⊢; exact mem_strMap.mpr h
    | flag e h =>
      dsimp only at e ⊢
      simp only [List.mem_cons, List.not_mem_nil, or_false] at e
      rcases e with e | e
      · rw [e]; exact mem_bool.mpr h
      · rw [e]; exact mem_bool.mpr h
    | dir e h => dsimp only at e ⊢; rw [e]; exact mem_dir.mpr h
    | run e h => dsimp only at e ⊢; rw [e]; exact mem_run.mpr (Or.inl ⟨h, rfl⟩)
    | item e h1 h2 h3 => dsimp only at e ⊢; rw [e]; exact mem_run.mpr (Or.inr ⟨_, _, _, _, h1, h2, h3⟩)

theorem mem_task {d : Decoders} {name : Str} {n : Node} {r : Report} : r ∈ (parseTask d name n).2 ↔ TaskFault d name n r := by
  have other : NotMapping n → (r ∈ ([⟨n.line, .task name, .notMapping "task".toList⟩] : List Report) ↔ TaskFault d name n r) := by
    intro h
    rw [List.mem_singleton]
    constructor
    · rintro rfl; exact .kind h
    · intro hf
      cases hf with
      | kind _ => rfl
      | entry e _ _ => exact absurd e (h _ _)
  cases n with
  | scalar l t v => exact other (fun _ _ h => nomatch h)
  | seq l es => exact other (fun _ _ h => nomatch h)
  | ref l x y => exact other (fun _ _ h => nomatch h)
  | map l es =>
    rw [parseTask]
    dsimp only
    rw [fold_errs (fun st : TaskState => st.errs) _ _ (taskField_errs d name) es, List.nil_append, List.mem_flatMap]
    constructor
    · rintro ⟨e, he, h⟩; exact .entry rfl he (mem_taskOut.mp h)
    · intro h
      cases h with
      | kind h => exact absurd rfl (h _ _)
      | entry e he h => cases e; exact ⟨_, he, mem_taskOut.mpr h⟩

theorem snoc_split {α : Type} {es as bs : List α} {z e : α} (h : es ++ [z] = as ++ e :: bs) :
    (bs = [] ∧ as = es ∧ e = z) ∨ ∃ bs', bs = bs' ++ [z] ∧ es = as ++ e :: bs' := by
  rcases List.eq_nil_or_concat bs with rfl | ⟨bs', w, hbs⟩
  · obtain ⟨h1, h2⟩ := List.append_inj' h rfl
    cases h2
    exact Or.inl ⟨rfl, h1.symm, rfl⟩
  · rw [List.concat_eq_append] at hbs
    subst hbs
    rw [show as ++ e :: (bs' ++ [w]) = (as ++ e :: bs') ++ [w] by simp] at h
    obtain ⟨h1, h2⟩ := List.append_inj' h rfl
    cases h2
    exact Or.inr ⟨bs', rfl, h1⟩

theorem first_key {x : Str} : ∀ {es : List (Node × Node)} {y : Node × Node}, y ∈ es → y.1.value = x → ∃ as a bs, es = as ++ a :: bs ∧ NoKey x as ∧ a.1.value = x
  | e :: es, y, hy, hx => by
    by_cases he : e.1.value = x
    · exact ⟨[], e, es, rfl, (fun _ h => nomatch h), he⟩
    · rcases List.mem_cons.mp hy with rfl | hy
      · exact absurd hx he
      · obtain ⟨as, a, bs, h1, h2, h3⟩ := first_key hy hx
        refine ⟨e :: as, a, bs, by rw [h1]; rfl, ?_, h3⟩
        intro z hz
        rcases List.mem_cons.mp hz with rfl | hz
        · exact he
        · exact h2 z hz

/-- `taskLines` -/
theorem seen_is (d : Decoders) (T0 : TaskMap) (es : List (Node × Node)) :
    ∀ x l, (es.foldl (tasksField d) { tasks := T0 }).seen.get? x = some l ↔ ∃ as a bs, es = as ++ a :: bs ∧ NoKey x as ∧ a.1.value = x ∧ l = a.1.line := by
  induction es using List.reverseRecOn with
  | nil => intro x l; exact ⟨(fun h => nomatch h), fun ⟨as, a, bs, h, _⟩ => by cases as <;> cases h⟩
  | append_singleton es e ih =>
    intro x l
    rw [List.foldl_append, List.foldl_cons, List.foldl_nil]
    generalize es.foldl (tasksField d) { tasks := T0 } = st at ih
    have hseen : (tasksField d st e).seen = if st.seen.get? e.1.value = none then st.seen.set e.1.value e.1.line else st.seen := by
      unfold tasksField
      dsimp only
      cases h : st.seen.get? e.1.value with
      | some f => rw [if_neg (by simp)]
      | none =>
        dsimp only
        rw [if_pos rfl]
        split <;> rfl
    rw [hseen]
    constructor
    · intro h
      split at h
      · next hn =>
        rw [GoMap.get?_set] at h
        split at h
        · next e1 =>
          cases h
          refine ⟨es, e, [], rfl, ?_, e1, rfl⟩
          intro y hy e2
          -- a key in `es` would have been seen
          obtain ⟨l', hl'⟩ : ∃ l', st.seen.get? x = some l' := by
            obtain ⟨p, a, q, h1, h2, h3⟩ := first_key hy e2
            exact ⟨_, (ih x _).mpr ⟨p, a, q, h1, h2, h3, rfl⟩⟩
          rw [e1] at hn
          rw [hn] at hl'; cases hl'
        · obtain ⟨as, a, bs, h1, h2, h3, h4⟩ := (ih x l).mp h
          exact ⟨as, a, bs ++ [e], by rw [h1]; simp, h2, h3, h4⟩
      · obtain ⟨as, a, bs, h1, h2, h3, h4⟩ := (ih x l).mp h
        exact ⟨as, a, bs ++ [e], by rw [h1]; simp, h2, h3, h4⟩
    · rintro ⟨as, a, bs, h1, h2, h3, rfl⟩
      rcases snoc_split h1 with ⟨rfl, rfl, rfl⟩ | ⟨bs', rfl, h5⟩
      · have hn : st.seen.get? a.1.value = none := by
          cases hc : st.seen.get? a.1.value with
          | none => rfl
          | some l' =>
            obtain ⟨as', a', bs', h5, _, h6, _⟩ := (ih _ l').mp hc
            exact absurd (h6.trans h3) (h2 a' (by rw [h5]; simp))
        rw [if_pos hn, GoMap.get?_set, if_pos h3]
      · have := (ih x a.1.line).mpr ⟨as, a, bs', h5, h2, h3, rfl⟩
        split
        · next hn =>
          rw [GoMap.get?_set, if_neg]
          · exact this
          · rintro rfl
            rw [hn] at this; cases this
        · exact this

theorem mem_tasksFold (d : Decoders) (T0 : TaskMap) (es : List (Node × Node)) (r : Report) :
    r ∈ (es.foldl (tasksField d) { tasks := T0 }).errs ↔
    (∃ as e bs, es = as ++ e :: bs ∧ NoKey e.1.value as ∧ TaskFault d e.1.value e.2 r) ∨
    (∃ as a bs e cs, es = as ++ a :: bs ++ e :: cs ∧ NoKey e.1.value as ∧ a.1.value = e.1.value ∧ r = ⟨e.1.line, .file, .duplicateTask e.1.value a.1.line⟩) := by
  induction es using List.reverseRecOn with
  | nil =>
    refine ⟨(fun h => nomatch h), ?_⟩
    rintro (⟨as, e, bs, h, _⟩ | ⟨as, a, bs, e, cs, h, _⟩)
    · cases as <;> cases h
    · cases as <;> cases h
  | append_singleton es z ih =>
    have hseen := seen_is d T0 es
    rw [List.foldl_append, List.foldl_cons, List.foldl_nil]
    generalize es.foldl (tasksField d) { tasks := T0 } = st at ih hseen
    have step : r ∈ (tasksField d st z).errs ↔ r ∈ st.errs ∨
        (st.seen.get? z.1.value = none ∧ TaskFault d z.1.value z.2 r) ∨
        (∃ f, st.seen.get? z.1.value = some f ∧ r = ⟨z.1.line, .file, .duplicateTask z.1.value f⟩) := by
      unfold tasksField
      dsimp only
      cases h : st.seen.get? z.1.value with
      | some f => simp
      | none =>
        dsimp only
        have hm := mem_task (d := d) (name := z.1.value) (n := z.2) (r := r)
        cases hp : parseTask d z.1.value z.2 with
        | mk o errs =>
          rw [hp] at hm
          cases o with
          | none => dsimp only at hm ⊢; rw [List.mem_append, hm]; simp
          | some t => dsimp only at hm ⊢; rw [List.mem_append, hm]; simp
    have hnone : st.seen.get? z.1.value = none ↔ NoKey z.1.value es := by
      constructor
      · intro hn y hy e2
        obtain ⟨p, a, q, h1, h2, h3⟩ := first_key hy e2
        have := (hseen z.1.value a.1.line).mpr ⟨p, a, q, h1, h2, h3, rfl⟩
        rw [hn] at this; cases this
      · intro h
        cases hc : st.seen.get? z.1.value with
        | none => rfl
        | some l =>
          obtain ⟨as, a, bs, h5, _, h6, _⟩ := (hseen _ l).mp hc
          exact absurd h6 (h a (by rw [h5]; simp))
    rw [step, ih, hnone]
    constructor
    · rintro ((⟨as, e, bs, h1, h2, h3⟩ | ⟨as, a, bs, e, cs, h1, h2, h3, h4⟩) | ⟨h1, h2⟩ | ⟨f, h1, rfl⟩)
      · exact Or.inl ⟨as, e, bs ++ [z], by rw [h1]; simp, h2, h3⟩
      · exact Or.inr ⟨as, a, bs, e, cs ++ [z], by rw [h1]; simp, h2, h3, h4⟩
      · exact Or.inl ⟨es, z, [], rfl, h1, h2⟩
      · obtain ⟨as, a, bs, h5, h6, h7, rfl⟩ := (hseen _ f).mp h1
        exact Or.inr ⟨as, a, bs, z, [], by rw [h5], h6, h7, rfl⟩
    · rintro (⟨as, e, bs, h1, h2, h3⟩ | ⟨as, a, bs, e, cs, h1, h2, h3, rfl⟩)
      · rcases snoc_split h1 with ⟨rfl, rfl, rfl⟩ | ⟨bs', rfl, h5⟩
        · exact Or.inr (Or.inl ⟨h2, h3⟩)
        · exact Or.inl (Or.inl ⟨as, e, bs', h5, h2, h3⟩)
      · rcases snoc_split h1 with ⟨rfl, h5, rfl⟩ | ⟨cs', rfl, h5⟩
        · exact Or.inr (Or.inr ⟨a.1.line, (hseen _ _).mpr ⟨as, a, bs, h5.symm, h2, h3, rfl⟩, rfl⟩)
        · exact Or.inl (Or.inr ⟨as, a, bs, e, cs', h5, h2, h3, rfl⟩)

/-! ## files -/

theorem fkeep_errs' {α : Type} {st : FileState} {r : Res α} {f : Schema → α → Schema} : (st.keep r f).errs = st.errs ++ r.2 := by
  unfold FileState.keep
  cases r.1 <;> rfl

/-- what an entry of a file adds -/
def fileOut (d : Decoders) (e : Node × Node) : List Report :=
  match fKeyOf e.1.value with
  | .vars => (parseStrMap "vars".toList e.2).2
  | .env => (parseStrMap "env".toList e.2).2
  | .silent => (parseBool d e.2).2
  | .output => (parseBool d e.2).2
  | .dir => (parseDir .file e.2).2
  | .tasks => (parseTasks d e.2 []).2
  | .includes => (parseIncludes d e.2 []).2
  | .other => []

theorem mem_tasks {d : Decoders} {n : Node} {T : TaskMap} {r : Report} : r ∈ (parseTasks d n T).2 ↔
    (NotMapping n ∧ r = ⟨n.line, .file, .notMapping "tasks".toList⟩) ∨ ∃ l es, n = .map l es ∧
      ((∃ as e bs, es = as ++ e :: bs ∧ NoKey e.1.value as ∧ TaskFault d e.1.value e.2 r) ∨
       (∃ as a bs e cs, es = as ++ a :: bs ++ e :: cs ∧ NoKey e.1.value as ∧ a.1.value = e.1.value ∧ r = ⟨e.1.line, .file, .duplicateTask e.1.value a.1.line⟩)) := by
  cases n with
  | map l es =>
    rw [show (parseTasks d (.map l es) T).2 = (es.foldl (tasksField d) { tasks := T }).errs from rfl, mem_tasksFold]
    constructor
    · exact fun h => Or.inr ⟨l, es, rfl, h⟩
    · rintro (h | ⟨l', es', e, h⟩)
      · exact absurd rfl (h.1 _ _)
      · cases e; exact h
  | scalar l t v =>
    rw [show (parseTasks d (.scalar l t v) T).2 = [⟨l, .file, .notMapping "tasks".toList⟩] from rfl, List.mem_singleton]
    refine ⟨fun h => Or.inl ⟨(fun _ _ h => nomatch h), h⟩, ?_⟩
    rintro (h | ⟨l', es', e, h⟩)
    · exact h.2
    · cases e
  | seq l ns =>
    rw [show (parseTasks d (.seq l ns) T).2 = [⟨l, .file, .notMapping "tasks".toList⟩] from rfl, List.mem_singleton]
    refine ⟨fun h => Or.inl ⟨(fun _ _ h => nomatch h), h⟩, ?_⟩
    rintro (h | ⟨l', es', e, h⟩)
    · exact h.2
    · cases e
  | ref l x y =>
    rw [show (parseTasks d (.ref l x y) T).2 = [⟨l, .file, .notMapping "tasks".toList⟩] from rfl, List.mem_singleton]
    refine ⟨fun h => Or.inl ⟨(fun _ _ h => nomatch h), h⟩, ?_⟩
    rintro (h | ⟨l', es', e, h⟩)
    · exact h.2
    · cases e

theorem mem_includes {d : Decoders} {n : Node} {I : GoMap Str} {r : Report} : r ∈ (parseIncludes d n I).2 ↔
    (NotMapping n ∧ r = ⟨n.line, .file, .notMapping "includes".toList⟩) ∨
    ∃ l es, n = .map l es ∧ ∃ e ∈ es, d.inc e.2 = none ∧ r = ⟨e.1.line, .file, .badInclude e.1.value (d.why .inc e.2)⟩ := by
  cases n with
  | map l es =>
    rw [show (parseIncludes d (.map l es) I).2 = (es.foldl (includeField d) (I, [])).2 from rfl]
    rw [fold_errs (fun st : GoMap Str × List Report => st.2) (includeField d)
      (fun e => if d.inc e.2 = none then [⟨e.1.line, .file, .badInclude e.1.value (d.why .inc e.2)⟩] else []) ?_ es (I, []), List.nil_append, List.mem_flatMap]
    · constructor
      · rintro ⟨e, he, h⟩
        split at h
        · next hn => exact Or.inr ⟨l, es, rfl, e, he, hn, List.mem_singleton.mp h⟩
        · cases h
      · rintro (h | ⟨l', es', e, e', he, hn, h⟩)
        · exact absurd rfl (h.1 _ _)
        · cases e
          exact ⟨e', he, by rw [if_pos hn, h]; exact List.mem_singleton.mpr rfl⟩
    · intro st e
      unfold includeField
      cases h : d.inc e.2 <;> simp
  | scalar l t v =>
    rw [show (parseIncludes d (.scalar l t v) I).2 = [⟨l, .file, .notMapping "includes".toList⟩] from rfl, List.mem_singleton]
    refine ⟨fun h => Or.inl ⟨(fun _ _ h => nomatch h), h⟩, ?_⟩
    rintro (h | ⟨l', es', e, h⟩)
    · exact h.2
    · cases e
  | seq l ns =>
    rw [show (parseIncludes d (.seq l ns) I).2 = [⟨l, .file, .notMapping "includes".toList⟩] from rfl, List.mem_singleton]
    refine ⟨fun h => Or.inl ⟨(fun _ _ h => nomatch h), h⟩, ?_⟩
    rintro (h | ⟨l', es', e, h⟩)
    · exact h.2
    · cases e
  | ref l x y =>
    rw [show (parseIncludes d (.ref l x y) I).2 = [⟨l, .file, .notMapping "includes".toList⟩] from rfl, List.mem_singleton]
    refine ⟨fun h => Or.inl ⟨(fun _ _ h => nomatch h), h⟩, ?_⟩
    rintro (h | ⟨l', es', e, h⟩)
    · exact h.2
    · cases e

theorem tasks_errs (d : Decoders) (es : List (Node × Node)) (T T' : TaskMap) :
    (es.foldl (tasksField d) { tasks := T }).errs = (es.foldl (tasksField d) { tasks := T' }).errs ∧
    (es.foldl (tasksField d) { tasks := T }).seen = (es.foldl (tasksField d) { tasks := T' }).seen := by
  induction es using List.reverseRecOn with
  | nil => exact ⟨rfl, rfl⟩
  | append_singleton es z ih =>
    rw [List.foldl_append, List.foldl_cons, List.foldl_nil, List.foldl_append, List.foldl_cons, List.foldl_nil]
    generalize es.foldl (tasksField d) { tasks := T } = s1 at ih
    generalize es.foldl (tasksField d) { tasks := T' } = s2 at ih
    unfold tasksField
    dsimp only
    rw [ih.2]
    cases s2.seen.get? z.1.value with
    | some f => exact ⟨by dsimp only; rw [ih.1], rfl⟩
    | none =>
      cases parseTask d z.1.value z.2 with
      | mk o errs => cases o <;> exact ⟨by dsimp only; rw [ih.1], rfl⟩

theorem parseTasks_errs (d : Decoders) (n : Node) (T T' : TaskMap) : (parseTasks d n T).2 = (parseTasks d n T').2 := by
  cases n with
  | map l es => exact (tasks_errs d es T T').1
  | _ => rfl

theorem parseIncludes_errs (d : Decoders) (n : Node) (T T' : GoMap Str) : (parseIncludes d n T).2 = (parseIncludes d n T').2 := by
  cases n with
  | map l es =>
    have h : ∀ T : GoMap Str, (es.foldl (includeField d) (T, [])).2 = es.flatMap
        (fun e => if d.inc e.2 = none then [⟨e.1.line, .file, .badInclude e.1.value (d.why .inc e.2)⟩] else []) := by
      intro T
      rw [fold_errs (fun st : GoMap Str × List Report => st.2) (includeField d)
        (fun e => if d.inc e.2 = none then [⟨e.1.line, .file, .badInclude e.1.value (d.why .inc e.2)⟩] else []) ?_ es (T, []), List.nil_append]
      intro st e
      unfold includeField
      cases h : d.inc e.2 <;> simp
    exact (h T).trans (h T').symm
  | _ => rfl

theorem fileField_errs (d : Decoders) (st : FileState) (e : Node × Node) : (fileField d st e).errs = st.errs ++ fileOut d e := by
  unfold fileField fileOut
  cases fKeyOf e.1.value with
  | other => simp
  | tasks => dsimp only; rw [parseTasks_errs d e.2 st.schema.tasks []]
  | includes => dsimp only; rw [parseIncludes_errs d e.2 st.schema.includes []]
  | _ => exact fkeep_errs'

theorem mem_fileOut {d : Decoders} {e : Node × Node} {r : Report} : r ∈ fileOut d e ↔ FileFieldFault d e.1 e.2 r := by
  obtain ⟨k, v⟩ := e
  constructor
  · intro h
    unfold fileOut at h
    cases hk : fKeyOf k.value with
    | vars =>
      have e : k.value = "vars".toList := by have := fKey_text hk (by decide); revert this; simp [fKeys]
      simp only [hk] at h
      exact .vars (by simp [e]) (by dsimp only; rw [e]; exact mem_strMap.mp h)
    | env =>
      have e : k.value = "env".toList := by have := fKey_text hk (by decide); revert this; simp [fKeys]
      simp only [hk] at h
      exact .vars (by simp [e]) (by dsimp only; rw [e]; exact mem_strMap.mp h)
    | silent =>
      have e : k.value = "silent".toList := by have := fKey_text hk (by decide); revert this; simp [fKeys]
      simp only [hk] at h
      exact .flag (by simp [e]) (mem_bool.mp h)
    | output =>
      have e : k.value = "output".toList := by have := fKey_text hk (by decide); revert this; simp [fKeys]
      simp only [hk] at h
      exact .flag (by simp [e]) (mem_bool.mp h)
    | dir =>
      have e : k.value = "dir".toList := by have := fKey_text hk (by decide); revert this; simp [fKeys]
      simp only [hk] at h
      exact .dir e (mem_dir.mp h)
    | tasks =>
      have e : k.value = "tasks".toList := by have := fKey_text hk (by decide); revert this; simp [fKeys]
      simp only [hk] at h
      rcases mem_tasks.mp h with ⟨h1, rfl⟩ | ⟨l, es, h1, ⟨as, e', bs, rfl, h2, h3⟩ | ⟨as, a, bs, e', cs, rfl, h2, h3, rfl⟩⟩
      · rw [← e]; exact .mapping (by simp [e]) h1
      · exact .task e h1 h2 h3
      · exact .twice e h1 h2 h3
    | includes =>
      have e : k.value = "includes".toList := by have := fKey_text hk (by decide); revert this; simp [fKeys]
      simp only [hk] at h
      rcases mem_includes.mp h with ⟨h1, rfl⟩ | ⟨l, es, h1, e', he, h2, rfl⟩
      · rw [← e]; exact .mapping (by simp [e]) h1
      · exact .inc e h1 he h2
    | other => simp only [hk] at h; cases h
  · intro h
    unfold fileOut
    cases h with
    | vars e h =>
      dsimp only at e h ⊢
      simp only [List.mem_cons, List.not_mem_nil, or_false] at e
      rcases e with e | e
      · rw [e] at h ⊢; exact mem_strMap.mpr h
      · rw [e] at h ⊢; exact mem_strMap.mpr h
    | flag e h =>
      dsimp only at e ⊢
      simp only [List.mem_cons, List.not_mem_nil, or_false] at e
      rcases e with e | e
      · rw [e]; exact mem_bool.mpr h
      · rw [e]; exact mem_bool.mpr h
    | dir e h => dsimp only at e ⊢; rw [e]; exact mem_dir.mpr h
    | mapping e h =>
      dsimp only at e ⊢
      simp only [List.mem_cons, List.not_mem_nil, or_false] at e
      rcases e with e | e
      · rw [e]; exact mem_tasks.mpr (Or.inl ⟨h, rfl⟩)
      · rw [e]; exact mem_includes.mpr (Or.inl ⟨h, rfl⟩)
    | task e h1 h2 h3 => dsimp only at e ⊢; rw [e]; exact mem_tasks.mpr (Or.inr ⟨_, _, h1, Or.inl ⟨_, _, _, rfl, h2, h3⟩⟩)
    | twice e h1 h2 h3 => dsimp only at e ⊢; rw [e]; exact mem_tasks.mpr (Or.inr ⟨_, _, h1, Or.inr ⟨_, _, _, _, _, rfl, h2, h3, rfl⟩⟩)
    | inc e h1 h2 h3 => dsimp only at e ⊢; rw [e]; exact mem_includes.mpr (Or.inr ⟨_, _, h1, _, h2, h3, rfl⟩)

theorem mem_file {d : Decoders} {es : List (Node × Node)} {r : Report} :
    r ∈ (es.foldl (fileField d) {}).errs ↔ ∃ e ∈ es, FileFieldFault d e.1 e.2 r := by
  rw [fold_errs (fun st : FileState => st.errs) _ _ (fileField_errs d) es {}, show ({} : FileState).errs = [] from rfl, List.nil_append, List.mem_flatMap]
  exact ⟨fun ⟨e, he, h⟩ => ⟨e, he, mem_fileOut.mp h⟩, fun ⟨e, he, h⟩ => ⟨e, he, mem_fileOut.mpr h⟩⟩

end Bab.Yaml
