import Verif.Spec.Unmarshal
import Verif.Proof.GoMap
import Mathlib.Data.List.Induction
/-
Lemmas about unmarshalling: what the loops over keys collect, and that nothing is dropped without an error.
-/

namespace Bab.Yaml
open Bab Bab.Yaml.Spec

/-- a value is there exactly if no error was added -/
def Fair {α : Type} (r : Res α) : Prop := r.1 = none ↔ r.2 ≠ []

theorem Fair.errs {α : Type} {r : Res α} (h : Fair r) {a : α} (ha : r.1 = some a) : r.2 = [] := by
  by_contra hne
  rw [h.mpr hne] at ha; cases ha

theorem Fair.some {α : Type} {r : Res α} (h : Fair r) (he : r.2 = []) : ∃ a, r.1 = some a := by
  cases hr : r.1 with
  | none => exact absurd he (h.mp hr)
  | some a => exact ⟨a, rfl⟩

theorem fair_ok {α : Type} (a : α) : Fair ((some a, []) : Res α) := by simp [Fair]

theorem fair_err {α : Type} (e : Report) : Fair ((none, [e]) : Res α) := by simp [Fair]

theorem fair_map {α β : Type} {r : Res α} (h : Fair r) (f : α → β) : Fair ((r.1.map f, r.2) : Res β) := by
  unfold Fair at *
  rw [← h]; simp

theorem last_snoc (key : Str) (es : List (Node × Node)) (e : Node × Node) :
    last key (es ++ [e]) = if e.1.value = key then some e.2 else last key es := by
  unfold last
  rw [List.filter_append]
  by_cases h : e.1.value = key
  · rw [List.filter_cons_of_pos (by simp [h]), List.filter_nil, List.getLast?_append]
    simp [h]
  · rw [List.filter_cons_of_neg (by simp [h]), List.filter_nil, List.append_nil, if_neg h]

theorem last_nil (key : Str) : last key [] = none := rfl

theorem last_mem {key : Str} {es : List (Node × Node)} {n : Node} (h : last key es = some n) : ∃ e ∈ es, e.1.value = key ∧ e.2 = n := by
  unfold last at h
  obtain ⟨e, he, rfl⟩ := Option.map_eq_some_iff.mp h
  have := List.mem_of_getLast? he
  rw [List.mem_filter] at this
  exact ⟨e, this.1, of_decide_eq_true this.2, rfl⟩

theorem last_none {key : Str} {es : List (Node × Node)} : last key es = none ↔ NoKey key es := by
  unfold last NoKey
  rw [Option.map_eq_none_iff, List.getLast?_eq_none_iff, List.filter_eq_nil_iff]
  simp

theorem get?_table {β : Type} {m : GoMap β} {s : Str} {v d : β} (h : (m.get? s).getD d = v) (hne : v ≠ d) : (s, v) ∈ m := by
  cases hg : m.get? s with
  | none => rw [hg] at h; exact absurd h.symm hne
  | some w =>
    rw [hg] at h
    obtain rfl : w = v := h
    exact GoMap.mem_of_get? hg

theorem rKey_text {s : Str} {k : RKey} (h : rKeyOf s = k) (hne : k ≠ .other) : (s, k) ∈ rKeys := get?_table h hne
theorem pKey_text {s : Str} {k : PKey} (h : pKeyOf s = k) (hne : k ≠ .other) : (s, k) ∈ pKeys := get?_table h hne
theorem bKey_text {s : Str} {k : BKey} (h : bKeyOf s = k) (hne : k ≠ .other) : (s, k) ∈ bKeys := get?_table h hne
theorem tKey_text {s : Str} {k : TKey} (h : tKeyOf s = k) (hne : k ≠ .other) : (s, k) ∈ tKeys := get?_table h hne
theorem fKey_text {s : Str} {k : FKey} (h : fKeyOf s = k) (hne : k ≠ .other) : (s, k) ∈ fKeys := get?_table h hne

/-! ## single values -/

theorem fair_bool (d : Decoders) (n : Node) : Fair (parseBool d n) := by
  cases n with
  | scalar ln t v =>
    rw [parseBool]
    cases d.bool (.scalar ln t v) with
    | none => exact fair_err _
    | some b => exact fair_ok _
  | seq _ _ => exact fair_err _
  | map _ _ => exact fair_err _
  | ref _ _ _ => exact fair_err _

theorem bool_some {d : Decoders} {n : Node} {b : Bool} (h : (parseBool d n).1 = some b) : d.bool n = some b := by
  cases n with
  | scalar ln t v =>
    rw [parseBool] at h
    cases hb : d.bool (.scalar ln t v) with
    | none => rw [hb] at h; cases h
    | some b' => rw [hb] at h; exact h
  | seq _ _ => cases h
  | map _ _ => cases h
  | ref _ _ _ => cases h

theorem fair_dir (pt : Part) (n : Node) : Fair (parseDir pt n) := by
  cases n with
  | scalar ln t v => exact fair_ok _
  | seq _ _ => exact fair_err _
  | map _ _ => exact fair_err _
  | ref _ _ _ => exact fair_err _

theorem dir_some {pt : Part} {n : Node} {v : Str} (h : (parseDir pt n).1 = some v) : n.value = v := by
  cases n with
  | scalar ln t v' => exact Option.some.inj h
  | seq _ _ => cases h
  | map _ _ => cases h
  | ref _ _ _ => cases h

theorem fair_strs (d : Decoders) (w : Str) (ln : Nat) (pt : Part) (n : Node) : Fair (parseStrs d w ln pt n) := by
  unfold parseStrs
  cases d.strs n with
  | none => exact fair_err _
  | some b => exact fair_ok _

theorem strs_some {d : Decoders} {w : Str} {ln : Nat} {pt : Part} {n : Node} {l : List Str} (h : (parseStrs d w ln pt n).1 = some l) : d.strs n = some l := by
  unfold parseStrs at h
  cases hs : d.strs n with
  | none => rw [hs] at h; cases h
  | some b => rw [hs] at h; exact h

theorem fair_int (d : Decoders) (w : Str) (ln : Nat) (pt : Part) (n : Node) : Fair (parseInt d w ln pt n) := by
  unfold parseInt
  cases d.int n with
  | none => exact fair_err _
  | some b => exact fair_ok _

theorem int_some {d : Decoders} {w : Str} {ln : Nat} {pt : Part} {n : Node} {l : Int} (h : (parseInt d w ln pt n).1 = some l) : d.int n = some l := by
  unfold parseInt at h
  cases hs : d.int n with
  | none => rw [hs] at h; cases h
  | some b => rw [hs] at h; exact h

theorem fair_platforms (d : Decoders) (ln : Nat) (pt : Part) (n : Node) : Fair (parsePlatforms d ln pt n) := by
  unfold parsePlatforms
  cases d.strs n with
  | none => exact fair_err _
  | some ps =>
    dsimp only
    cases ps.find? (fun p => p ∉ validPlatforms) with
    | none => exact fair_ok _
    | some _ => exact fair_err _

theorem platforms_some {d : Decoders} {ln : Nat} {pt : Part} {n : Node} {l : List Str} (h : (parsePlatforms d ln pt n).1 = some l) :
    d.strs n = some l ∧ ∀ p ∈ l, p ∈ validPlatforms := by
  unfold parsePlatforms at h
  cases hs : d.strs n with
  | none => rw [hs] at h; cases h
  | some ps =>
    rw [hs] at h
    dsimp only at h
    cases hf : ps.find? (fun p => p ∉ validPlatforms) with
    | some _ => rw [hf] at h; cases h
    | none =>
      rw [hf] at h
      obtain rfl : ps = l := Option.some.inj h
      refine ⟨rfl, ?_⟩
      intro p hp
      have := List.find?_eq_none.mp hf p hp
      simpa using this

theorem strMap_fold (w : Str) (es : List (Node × Node)) :
    ∃ m errs, es.foldl (strMapField w) ([], []) = (m, errs) ∧ m.WF ∧
      (errs = [] → (∀ e ∈ es, ∃ ln t v, e.2 = .scalar ln t v) ∧ ∀ x, m.get? x = (last x es).map Node.value) := by
  induction es using List.reverseRecOn with
  | nil => exact ⟨[], [], rfl, List.nodup_nil, fun _ => ⟨(fun e h => by cases h), fun x => rfl⟩⟩
  | append_singleton es e ih =>
    obtain ⟨m, errs, heq, hwf, h⟩ := ih
    rw [List.foldl_append, heq]
    obtain ⟨k, n⟩ := e
    have bad : ∃ m' errs', (m, errs ++ [Report.mk n.line .file (.badEntry w k.value)]) = (m', errs') ∧ m'.WF ∧
        (errs' = [] → (∀ e ∈ es ++ [(k, n)], ∃ ln t v, e.2 = .scalar ln t v) ∧ ∀ x, m'.get? x = (last x (es ++ [(k, n)])).map Node.value) :=
      ⟨m, _, rfl, hwf, fun h => by simp at h⟩
    cases n with
    | scalar ln t v =>
      refine ⟨m.set k.value v, errs, rfl, GoMap.WF_set hwf _ _, ?_⟩
      intro he
      obtain ⟨h1, h2⟩ := h he
      refine ⟨?_, ?_⟩
      · intro e' he'
        rcases List.mem_append.mp he' with he' | he'
        · exact h1 e' he'
        · rw [List.mem_singleton] at he'; rw [he']; exact ⟨ln, t, v, rfl⟩
      · intro x
        rw [last_snoc]
        by_cases hx : k.value = x
        · rw [if_pos hx, ← hx, GoMap.get?_set_self]; rfl
        · rw [if_neg hx, GoMap.get?_set_ne _ _ hx, h2]
    | seq _ _ => exact bad
    | map _ _ => exact bad
    | ref _ _ _ => exact bad

theorem fair_strMap (w : Str) (n : Node) : Fair (parseStrMap w n) := by
  cases n with
  | map ln es =>
    obtain ⟨m, errs, heq, _, _⟩ := strMap_fold w es
    rw [parseStrMap, heq]
    unfold Fair
    dsimp only
    by_cases h : errs = []
    · simp [h]
    · simp [h]
  | seq _ _ => exact fair_err _
  | scalar _ _ _ => exact fair_err _
  | ref _ _ _ => exact fair_err _

theorem strMap_some {w : Str} {n : Node} {m : GoMap Str} (h : (parseStrMap w n).1 = some m) : EnvIs (some n) m := by
  cases n with
  | map ln es =>
    obtain ⟨m', errs, heq, hwf, hh⟩ := strMap_fold w es
    rw [parseStrMap, heq] at h
    dsimp only at h
    split at h
    · next he =>
      obtain rfl := Option.some.inj h
      exact ⟨(hh he).1, hwf, (hh he).2⟩
    · cases h
  | seq _ _ => cases h
  | scalar _ _ _ => cases h
  | ref _ _ _ => cases h

/-! ## the fields of a run item -/

theorem fair_promptKey (d : Decoders) (pt : Part) (k v : Node) (pf : PromptFields) : Fair (parsePromptKey d pt k v pf) := by
  unfold parsePromptKey
  cases pKeyOf k.value with
  | prompt => exact fair_ok _
  | type => exact fair_ok _
  | message => exact fair_ok _
  | default => exact fair_ok _
  | placeholder => exact fair_ok _
  | validate => exact fair_ok _
  | options => exact fair_map (fair_strs d _ _ _ v) _
  | defaults => exact fair_map (fair_strs d _ _ _ v) _
  | min => exact fair_map (fair_int d _ _ _ v) _
  | max => exact fair_map (fair_int d _ _ _ v) _
  | confirm => exact fair_map (fair_bool d v) _
  | other => exact fair_ok _

/-- the errors so far tell whether something went wrong -/
def RunFields.Told (rf : RunFields) : Prop := rf.bad = true ↔ rf.errs ≠ []

theorem told_keep {α : Type} {rf : RunFields} (h : rf.Told) {r : Res α} (hr : Fair r) {f : RunFields → α → RunFields}
    (hf : ∀ rf a, (f rf a).bad = rf.bad) : (rf.keep r f).Told := by
  unfold RunFields.keep RunFields.Told at *
  cases ha : r.1 with
  | none =>
    simp [hr.mp ha]
  | some a =>
    dsimp only
    rw [hf, hr.errs ha, List.append_nil]
    exact h

theorem told_runField (d : Decoders) (pt : Part) {rf : RunFields} (h : rf.Told) (e : Node × Node) : (runField d pt rf e).Told := by
  unfold runField
  cases rKeyOf e.1.value with
  | cmd => exact h
  | dir => exact told_keep h (fair_dir _ _) (fun _ _ => rfl)
  | cond => exact h
  | task => exact h
  | log => exact h
  | level => exact h
  | env => exact told_keep h (fair_strMap _ _) (fun _ _ => rfl)
  | silent => exact told_keep h (fair_bool d _) (fun _ _ => rfl)
  | output => exact told_keep h (fair_bool d _) (fun _ _ => rfl)
  | platforms => exact told_keep h (fair_platforms d _ _ _) (fun _ _ => rfl)
  | label => exact h
  | other => exact told_keep h (fair_promptKey d _ _ _ _) (fun _ _ => rfl)

theorem told_fields (d : Decoders) (pt : Part) (es : List (Node × Node)) : (parseRunFields d pt es).Told := by
  have : ∀ (es : List (Node × Node)) (rf : RunFields), rf.Told → (es.foldl (runField d pt) rf).Told := by
    intro es
    induction es with
    | nil => intro rf h; exact h
    | cons e es ih => intro rf h; exact ih _ (told_runField d pt h e)
  exact this es {} (by simp [RunFields.Told])

/-- what the fields of a prompt should be -/
structure PromptFieldsAre (d : Decoders) (es : List (Node × Node)) (pf : PromptFields) : Prop where
  name : pf.name = text "prompt".toList es
  type : pf.type = text "type".toList es
  message : pf.message = text "message".toList es
  dflt : pf.dflt = text "default".toList es
  placeholder : pf.placeholder = text "placeholder".toList es
  validate : pf.validate = text "validate".toList es
  options : pf.options = ((last "options".toList es).bind d.strs).getD []
  defaults : pf.defaults = ((last "defaults".toList es).bind d.strs).getD []
  min : pf.min = (last "min".toList es).bind d.int
  max : pf.max = (last "max".toList es).bind d.int
  confirm : pf.confirm = (last "confirm".toList es).bind d.bool

/-- the keys of prompts -/
def promptNames : List Str := ["prompt".toList, "type".toList, "message".toList, "default".toList, "placeholder".toList, "validate".toList,
  "options".toList, "defaults".toList, "min".toList, "max".toList, "confirm".toList]

theorem promptFields_congr {d : Decoders} {es es' : List (Node × Node)} {pf : PromptFields} (h : PromptFieldsAre d es pf)
    (he : ∀ k ∈ promptNames, last k es' = last k es) : PromptFieldsAre d es' pf := by
  have t : ∀ k ∈ promptNames, text k es' = text k es := fun k hk => by unfold text; rw [he k hk]
  constructor
  · rw [t _ (by decide)]; exact h.name
  · rw [t _ (by decide)]; exact h.type
  · rw [t _ (by decide)]; exact h.message
  · rw [t _ (by decide)]; exact h.dflt
  · rw [t _ (by decide)]; exact h.placeholder
  · rw [t _ (by decide)]; exact h.validate
  · rw [he _ (by decide)]; exact h.options
  · rw [he _ (by decide)]; exact h.defaults
  · rw [he _ (by decide)]; exact h.min
  · rw [he _ (by decide)]; exact h.max
  · rw [he _ (by decide)]; exact h.confirm

theorem text_eq_of_last {key : Str} {es es' : List (Node × Node)} (h : last key es' = last key es) : text key es' = text key es := by
  unfold text; rw [h]

theorem last_other {key : Str} {es : List (Node × Node)} {k v : Node} (h : k.value ≠ key) : last key (es ++ [(k, v)]) = last key es := by
  rw [last_snoc, if_neg h]

theorem last_same {key : Str} {es : List (Node × Node)} {k v : Node} (h : k.value = key) : last key (es ++ [(k, v)]) = some v := by
  rw [last_snoc, if_pos h]

theorem text_same {key : Str} {es : List (Node × Node)} {k v : Node} (h : k.value = key) : text key (es ++ [(k, v)]) = v.value := by
  unfold text; rw [last_same h]; rfl

theorem text_other {key : Str} {es : List (Node × Node)} {k v : Node} (h : k.value ≠ key) : text key (es ++ [(k, v)]) = text key es :=
  text_eq_of_last (last_other h)

/-- one more entry with a known key: the other keys keep their values -/
syntax "keep_fields " term:max term:max : tactic
macro_rules
  | `(tactic| keep_fields $h $hk) => `(tactic|
      (constructor <;>
        first
        | (rw [text_other (by rw [$hk:term]; decide)]; first | exact ($h).1 | exact ($h).2 | exact ($h).3 | exact ($h).4 | exact ($h).5 | exact ($h).6 | exact ($h).7 | exact ($h).8 | exact ($h).9 | exact ($h).10 | exact ($h).11)
        | (rw [last_other (by rw [$hk:term]; decide)]; first | exact ($h).1 | exact ($h).2 | exact ($h).3 | exact ($h).4 | exact ($h).5 | exact ($h).6 | exact ($h).7 | exact ($h).8 | exact ($h).9 | exact ($h).10 | exact ($h).11)
        | (rw [text_same $hk])
        | (rw [last_same $hk]; simp_all)))

theorem promptKey_some {d : Decoders} {pt : Part} {es : List (Node × Node)} {pf pf' : PromptFields} {k v : Node}
    (h : PromptFieldsAre d es pf) (hs : (parsePromptKey d pt k v pf).1 = some pf') : PromptFieldsAre d (es ++ [(k, v)]) pf' := by
  unfold parsePromptKey at hs
  cases hk : pKeyOf k.value with
  | other =>
    rw [hk] at hs
    obtain rfl := Option.some.inj hs
    refine promptFields_congr h ?_
    intro key hkey
    refine last_other ?_
    rintro rfl
    have : ∀ x ∈ promptNames, pKeyOf x ≠ .other := by decide
    exact this _ hkey hk
  | prompt =>
    have e : k.value = "prompt".toList := by have := pKey_text hk (by decide); revert this; simp [pKeys]
    rw [hk] at hs
    obtain rfl := Option.some.inj hs
    keep_fields h e
  | type =>
    have e : k.value = "type".toList := by have := pKey_text hk (by decide); revert this; simp [pKeys]
    rw [hk] at hs
    obtain rfl := Option.some.inj hs
    keep_fields h e
  | message =>
    have e : k.value = "message".toList := by have := pKey_text hk (by decide); revert this; simp [pKeys]
    rw [hk] at hs
    obtain rfl := Option.some.inj hs
    keep_fields h e
  | default =>
    have e : k.value = "default".toList := by have := pKey_text hk (by decide); revert this; simp [pKeys]
    rw [hk] at hs
    obtain rfl := Option.some.inj hs
    keep_fields h e
  | placeholder =>
    have e : k.value = "placeholder".toList := by have := pKey_text hk (by decide); revert this; simp [pKeys]
    rw [hk] at hs
    obtain rfl := Option.some.inj hs
    keep_fields h e
  | validate =>
    have e : k.value = "validate".toList := by have := pKey_text hk (by decide); revert this; simp [pKeys]
    rw [hk] at hs
    obtain rfl := Option.some.inj hs
    keep_fields h e
  | options =>
    have e : k.value = "options".toList := by have := pKey_text hk (by decide); revert this; simp [pKeys]
    rw [hk] at hs
    obtain ⟨l, hl, rfl⟩ := Option.map_eq_some_iff.mp hs
    have hd := strs_some hl
    keep_fields h e
  | defaults =>
    have e : k.value = "defaults".toList := by have := pKey_text hk (by decide); revert this; simp [pKeys]
    rw [hk] at hs
    obtain ⟨l, hl, rfl⟩ := Option.map_eq_some_iff.mp hs
    have hd := strs_some hl
    keep_fields h e
  | min =>
    have e : k.value = "min".toList := by have := pKey_text hk (by decide); revert this; simp [pKeys]
    rw [hk] at hs
    obtain ⟨l, hl, rfl⟩ := Option.map_eq_some_iff.mp hs
    have hd := int_some hl
    keep_fields h e
  | max =>
    have e : k.value = "max".toList := by have := pKey_text hk (by decide); revert this; simp [pKeys]
    rw [hk] at hs
    obtain ⟨l, hl, rfl⟩ := Option.map_eq_some_iff.mp hs
    have hd := int_some hl
    keep_fields h e
  | confirm =>
    have e : k.value = "confirm".toList := by have := pKey_text hk (by decide); revert this; simp [pKeys]
    rw [hk] at hs
    obtain ⟨l, hl, rfl⟩ := Option.map_eq_some_iff.mp hs
    have hd := bool_some hl
    keep_fields h e

/-- what the fields of a run item should be -/
structure RunFieldsAre (d : Decoders) (es : List (Node × Node)) (rf : RunFields) : Prop where
  cmd : rf.cmd = text "cmd".toList es
  task : rf.task = text "task".toList es
  log : rf.log = text "log".toList es
  dir : rf.dir = text "dir".toList es
  cond : rf.cond = text "when".toList es
  env : EnvIs (last "env".toList es) rf.env
  platforms : PlatformsAre d es rf.platforms
  level : rf.level = text "level".toList es
  silent : rf.silent = flag d "silent".toList es
  output : rf.output = flag d "output".toList es
  pf : PromptFieldsAre d es rf.pf

theorem keep_good {α : Type} {rf : RunFields} {r : Res α} {f : RunFields → α → RunFields} (h : (rf.keep r f).bad = false) :
    ∃ a, r.1 = some a ∧ rf.keep r f = { f rf a with errs := rf.errs ++ r.2 } := by
  unfold RunFields.keep at h ⊢
  cases ha : r.1 with
  | none => rw [ha] at h; cases h
  | some a => exact ⟨a, rfl, rfl⟩

/-- one more entry with a known key of a run item: the other keys keep their values -/
syntax "keep_run " term:max term:max : tactic
macro_rules
  | `(tactic| keep_run $h $hk) => `(tactic|
      ((constructor <;> try dsimp only) <;>
        first
        | (rw [text_other (by rw [$hk:term]; decide)]; first | exact ($h).1 | exact ($h).2 | exact ($h).3 | exact ($h).4 | exact ($h).5 | exact ($h).8)
        | (rw [last_other (by rw [$hk:term]; decide)]; exact ($h).6)
        | (unfold PlatformsAre; rw [last_other (by rw [$hk:term]; decide)]; exact ($h).7)
        | (unfold flag; rw [last_other (by rw [$hk:term]; decide)]; first | exact ($h).9 | exact ($h).10)
        | (refine promptFields_congr ($h).11 (fun key hkey => last_other ?_); rw [$hk:term]; revert key; decide)
        | (rw [text_same $hk]; done)
        | skip))

theorem runField_fields (d : Decoders) {pt : Part} {es : List (Node × Node)} {rf : RunFields} (h : RunFieldsAre d es rf) {e : Node × Node}
    (hbad : (runField d pt rf e).bad = false) : RunFieldsAre d (es ++ [e]) (runField d pt rf e) := by
  obtain ⟨k, v⟩ := e
  unfold runField at hbad ⊢
  cases hk : rKeyOf k.value with
  | cmd =>
    have e : k.value = "cmd".toList := by have := rKey_text hk (by decide); revert this; simp [rKeys]
    try dsimp only
    keep_run h e
  | cond =>
    have e : k.value = "when".toList := by have := rKey_text hk (by decide); revert this; simp [rKeys]
    try dsimp only
    keep_run h e
  | task =>
    have e : k.value = "task".toList := by have := rKey_text hk (by decide); revert this; simp [rKeys]
    try dsimp only
    keep_run h e
  | log =>
    have e : k.value = "log".toList := by have := rKey_text hk (by decide); revert this; simp [rKeys]
    try dsimp only
    keep_run h e
  | level =>
    have e : k.value = "level".toList := by have := rKey_text hk (by decide); revert this; simp [rKeys]
    try dsimp only
    keep_run h e
  | label =>
    have e : k.value = "label".toList := by have := rKey_text hk (by decide); revert this; simp [rKeys]
    try dsimp only
    keep_run h e
  | dir =>
    have e : k.value = "dir".toList := by have := rKey_text hk (by decide); revert this; simp [rKeys]
    simp only [hk] at hbad ⊢
    obtain ⟨a, ha, heq⟩ := keep_good hbad
    rw [heq]
    have := dir_some ha
    keep_run h e
    rw [text_same e, this]
  | env =>
    have e : k.value = "env".toList := by have := rKey_text hk (by decide); revert this; simp [rKeys]
    simp only [hk] at hbad ⊢
    obtain ⟨a, ha, heq⟩ := keep_good hbad
    rw [heq]
    have := strMap_some ha
    keep_run h e
    rw [last_same e]; exact this
  | silent =>
    have e : k.value = "silent".toList := by have := rKey_text hk (by decide); revert this; simp [rKeys]
    simp only [hk] at hbad ⊢
    obtain ⟨a, ha, heq⟩ := keep_good hbad
    rw [heq]
    have := bool_some ha
    keep_run h e
    unfold flag; rw [last_same e]; exact this.symm
  | output =>
    have e : k.value = "output".toList := by have := rKey_text hk (by decide); revert this; simp [rKeys]
    simp only [hk] at hbad ⊢
    obtain ⟨a, ha, heq⟩ := keep_good hbad
    rw [heq]
    have := bool_some ha
    keep_run h e
    unfold flag; rw [last_same e]; exact this.symm
  | platforms =>
    have e : k.value = "platforms".toList := by have := rKey_text hk (by decide); revert this; simp [rKeys]
    simp only [hk] at hbad ⊢
    obtain ⟨a, ha, heq⟩ := keep_good hbad
    rw [heq]
    have := platforms_some ha
    keep_run h e
    unfold PlatformsAre; rw [last_same e]
    exact ⟨by simp [this.1], this.2⟩
  | other =>
    simp only [hk] at hbad ⊢
    obtain ⟨a, ha, heq⟩ := keep_good hbad
    rw [heq]
    have hne : ∀ key ∈ ["cmd".toList, "task".toList, "log".toList, "dir".toList, "when".toList, "env".toList, "platforms".toList,
        "level".toList, "silent".toList, "output".toList], k.value ≠ key := by
      intro key hkey hkk
      rw [hkk] at hk
      have hall : ∀ x ∈ ["cmd".toList, "task".toList, "log".toList, "dir".toList, "when".toList, "env".toList, "platforms".toList,
        "level".toList, "silent".toList, "output".toList], rKeyOf x ≠ .other := by decide
      exact hall key hkey hk
    constructor <;> dsimp only
    · rw [text_other (hne _ (by decide))]; exact h.cmd
    · rw [text_other (hne _ (by decide))]; exact h.task
    · rw [text_other (hne _ (by decide))]; exact h.log
    · rw [text_other (hne _ (by decide))]; exact h.dir
    · rw [text_other (hne _ (by decide))]; exact h.cond
    · rw [last_other (hne _ (by decide))]; exact h.env
    · unfold PlatformsAre; rw [last_other (hne _ (by decide))]; exact h.platforms
    · rw [text_other (hne _ (by decide))]; exact h.level
    · unfold flag; rw [last_other (hne _ (by decide))]; exact h.silent
    · unfold flag; rw [last_other (hne _ (by decide))]; exact h.output
    · exact promptKey_some h.pf ha

theorem keep_bad {α : Type} {rf : RunFields} {r : Res α} {f : RunFields → α → RunFields} (hf : ∀ rf a, (f rf a).bad = rf.bad) (h : rf.bad = true) :
    (rf.keep r f).bad = true := by
  unfold RunFields.keep
  cases r.1 with
  | none => rfl
  | some a => dsimp only; rw [hf]; exact h

theorem runField_bad (d : Decoders) {pt : Part} {rf : RunFields} (h : rf.bad = true) (e : Node × Node) : (runField d pt rf e).bad = true := by
  unfold runField
  cases rKeyOf e.1.value with
  | cmd => exact h
  | dir => exact keep_bad (fun _ _ => rfl) h
  | cond => exact h
  | task => exact h
  | log => exact h
  | level => exact h
  | env => exact keep_bad (fun _ _ => rfl) h
  | silent => exact keep_bad (fun _ _ => rfl) h
  | output => exact keep_bad (fun _ _ => rfl) h
  | platforms => exact keep_bad (fun _ _ => rfl) h
  | label => exact h
  | other => exact keep_bad (fun _ _ => rfl) h

theorem runFields_are (d : Decoders) (pt : Part) (es : List (Node × Node)) (h : (parseRunFields d pt es).bad = false) :
    RunFieldsAre d es (parseRunFields d pt es) := by
  unfold parseRunFields at h ⊢
  induction es using List.reverseRecOn with
  | nil =>
    constructor <;> first | rfl | exact ⟨rfl, fun p hp => by cases hp⟩ | (constructor <;> rfl)
  | append_singleton es e ih =>
    rw [List.foldl_append, List.foldl_cons, List.foldl_nil] at h ⊢
    have hb : (es.foldl (runField d pt) {}).bad = false := by
      by_contra hc
      rw [Bool.not_eq_false] at hc
      rw [runField_bad d hc e] at h; cases h
    exact runField_fields d (ih hb) h

/-! ## a run item that is not a parallel block -/

theorem kinds_cmd {es : List (Node × Node)} {a b c e : Str} (ha : a = text "cmd".toList es) (hb : b = text "task".toList es)
    (hc : c = text "log".toList es) (he : e = text "prompt".toList es) (h : countRunTypes a b c e = 1) :
    (a ≠ [] → kinds es = ["cmd".toList]) ∧ (a = [] → b ≠ [] → kinds es = ["task".toList]) ∧
    (a = [] → b = [] → c ≠ [] → kinds es = ["log".toList]) ∧ (a = [] → b = [] → c = [] → kinds es = ["prompt".toList]) := by
  unfold countRunTypes at h
  unfold kinds
  rw [List.filter_cons, List.filter_cons, List.filter_cons, List.filter_cons, List.filter_nil, ← ha, ← hb, ← hc, ← he]
  by_cases h1 : a = [] <;> by_cases h2 : b = [] <;> by_cases h3 : c = [] <;> by_cases h4 : e = [] <;> simp_all

theorem flatMap_nil {α β : Type} {l : List α} {f : α → List β} (h : l.flatMap f = []) : ∀ x ∈ l, f x = [] := by
  rw [List.flatMap_eq_nil_iff] at h; exact h

theorem fair_append {α : Type} {errs : List Report} {r : Res α} (h : Fair r) (he : errs = []) : Fair ((r.1, errs ++ r.2) : Res α) := by
  rw [he, List.nil_append]; exact h

theorem fair_log (ln : Nat) (pt : Part) (log level : Str) (ps : List Str) (c : Str) : Fair (buildLogRun ln pt log level ps c) := by
  unfold buildLogRun
  dsimp only
  generalize (if level = [] then "info".toList else level) = lv
  split
  · exact fair_err _
  · exact fair_ok _

theorem fair_prompt (d : Decoders) (ln : Nat) (pt : Part) (pf : PromptFields) (ps : List Str) (c : Str) : Fair (validatePromptRun d ln pt pf ps c) := by
  unfold validatePromptRun
  dsimp only
  split
  · next h => unfold Fair; simp only [true_iff]; exact h
  · exact fair_ok _

theorem fair_simple (d : Decoders) (ln : Nat) (pt : Part) (es : List (Node × Node)) : Fair (simpleItem d ln pt es) := by
  unfold simpleItem
  have told := told_fields d pt es
  dsimp only
  generalize parseRunFields d pt es = rf at told ⊢
  split
  · unfold Fair; simp
  · split
    · unfold Fair; simp
    · next h0 =>
      split
      · next hb => unfold Fair; simp only [true_iff]; exact told.mp hb
      · next hb =>
        have he : rf.errs = [] := by
          by_contra hc
          exact hb (told.mpr hc)
        rw [he]
        split
        · exact fair_ok _
        · split
          · exact fair_ok _
          · split
            · rw [List.nil_append]; exact fair_log _ _ _ _ _ _
            · split
              · rw [List.nil_append]; exact fair_prompt _ _ _ _ _ _
              · next h1 h2 h3 h4 =>
                exfalso
                apply h0
                unfold countRunTypes
                simp only [ne_eq, Decidable.not_not] at h1 h2 h3 h4
                rw [if_pos h1, if_pos h2, if_pos h3, if_pos h4]

theorem simple_some {d : Decoders} {ln : Nat} {pt : Part} {es : List (Node × Node)} {i : RunItem} (h : (simpleItem d ln pt es).1 = some i) : Simple d ln es i := by
  unfold simpleItem at h
  dsimp only at h
  split at h
  · cases h
  · next hc1 =>
    split at h
    · cases h
    · next hc0 =>
      split at h
      · cases h
      · next hb =>
        have hf := runFields_are d pt es (by simpa using hb)
        generalize parseRunFields d pt es = rf at *
        have hk := kinds_cmd hf.cmd hf.task hf.log hf.pf.name (by omega)
        split at h
        · next h1 =>
          obtain rfl := Option.some.inj h
          exact ⟨hk.1 h1, hf.cmd, hf.dir, hf.env, hf.silent, hf.output, hf.platforms, hf.cond, rfl⟩
        · next h1 =>
          simp only [ne_eq, Decidable.not_not] at h1
          split at h
          · next h2 =>
            obtain rfl := Option.some.inj h
            exact ⟨hk.2.1 h1 h2, hf.task, hf.silent, hf.output, hf.platforms, hf.cond, rfl⟩
          · next h2 =>
            simp only [ne_eq, Decidable.not_not] at h2
            split at h
            · next h3 =>
              unfold buildLogRun at h
              dsimp only at h
              generalize hlv : (if rf.level = [] then "info".toList else rf.level) = lv at h
              by_cases hl : lv ∉ validLevels
              · rw [if_pos hl] at h; cases h
              · rw [if_neg hl] at h
                obtain rfl := Option.some.inj h
                refine ⟨hk.2.2.1 h1 h2 h3, hf.log, ?_, ?_, hf.platforms, hf.cond, rfl⟩
                · dsimp only; rw [← hf.level, hlv]
                · exact Decidable.not_not.mp hl
            · next h3 =>
              simp only [ne_eq, Decidable.not_not] at h3
              split at h
              · unfold validatePromptRun at h
                dsimp only at h
                split at h
                · cases h
                · next hv =>
                  obtain rfl := Option.some.inj h
                  simp only [ne_eq, Decidable.not_not, List.append_eq_nil_iff] at hv
                  refine ⟨hk.2.2.2 h1 h2 h3, hf.pf.name, hf.pf.message, hf.pf.dflt, hf.pf.placeholder, hf.pf.validate, hf.pf.options, hf.pf.defaults,
                    hf.pf.min, hf.pf.max, hf.pf.confirm, ?_, hf.platforms, hf.cond, rfl⟩
                  dsimp only
                  rw [← hf.pf.type]
                  obtain ⟨⟨⟨hv, _⟩, _⟩, _⟩ := hv
                  unfold validatePromptBasics at hv
                  simp only [List.append_eq_nil_iff] at hv
                  obtain ⟨⟨_, hv⟩, _⟩ := hv
                  have hne : promptTypeOf rf.pf.type ≠ .other := by
                    intro ho
                    split at hv
                    · cases hv
                    · rw [ho] at hv; cases hv
                  exact get?_table rfl hne
              · cases h

/-! ## parallel blocks -/

def ParFields.Told (pf : ParFields) : Prop := pf.bad = true ↔ pf.errs ≠ []

theorem told_pkeep {α : Type} {pf : ParFields} (h : pf.Told) {r : Res α} (hr : Fair r) {f : ParFields → α → ParFields}
    (hf : ∀ pf a, (f pf a).bad = pf.bad) : (pf.keep r f).Told := by
  unfold ParFields.keep ParFields.Told at *
  cases ha : r.1 with
  | none => simp [hr.mp ha]
  | some a =>
    dsimp only
    rw [hf, hr.errs ha, List.append_nil]
    exact h

theorem fair_items (pt : Part) (n : Node) : Fair (parItems pt n) := by
  cases n with
  | seq _ _ => exact fair_ok _
  | map _ _ => exact fair_err _
  | scalar _ _ _ => exact fair_err _
  | ref _ _ _ => exact fair_err _

theorem fair_mode (pt : Part) (n : Node) : Fair (parMode pt n) := by
  cases n with
  | seq _ _ => exact fair_err _
  | map _ _ => exact fair_err _
  | ref _ _ _ => exact fair_err _
  | scalar ln t v =>
    rw [parMode]
    cases modes.get? v with
    | none => exact fair_err _
    | some _ => exact fair_ok _

theorem fair_limit (d : Decoders) (pt : Part) (n : Node) : Fair (parLimit d pt n) := by
  unfold parLimit
  cases d.int n with
  | none => exact fair_err _
  | some v =>
    dsimp only
    split
    · exact fair_err _
    · exact fair_ok _

theorem told_parField (d : Decoders) (pt : Part) {pf : ParFields} (h : pf.Told) (e : Node × Node) : (parField d pt pf e).Told := by
  unfold parField
  cases bKeyOf e.1.value with
  | parallel => exact told_pkeep h (fair_items _ _) (fun _ _ => rfl)
  | mode => exact told_pkeep h (fair_mode _ _) (fun _ _ => rfl)
  | limit => exact told_pkeep h (fair_limit d _ _) (fun _ _ => rfl)
  | color => exact told_pkeep h (fair_bool d _) (fun _ _ => rfl)
  | silent => exact told_pkeep h (fair_bool d _) (fun _ _ => rfl)
  | output => exact told_pkeep h (fair_bool d _) (fun _ _ => rfl)
  | platforms => exact told_pkeep h (fair_platforms d _ _ _) (fun _ _ => rfl)
  | cond => exact h
  | other => simp [ParFields.Told]

theorem told_par (d : Decoders) (pt : Part) (es : List (Node × Node)) : (es.foldl (parField d pt) {}).Told := by
  have : ∀ (es : List (Node × Node)) (pf : ParFields), pf.Told → (es.foldl (parField d pt) pf).Told := by
    intro es
    induction es with
    | nil => intro pf h; exact h
    | cons e es ih => intro pf h; exact ih _ (told_parField d pt h e)
  exact this es {} (by simp [ParFields.Told])

/-- what the fields of a parallel block should be -/
structure ParFieldsAre (d : Decoders) (es : List (Node × Node)) (pf : ParFields) : Prop where
  items : (last "parallel".toList es).bind (fun n => match n with | .seq ln ns => some (ln, ns) | _ => none) = pf.items
  seq : ∀ n, last "parallel".toList es = some n → ∃ ln ns, n = .seq ln ns
  mode : match last "mode".toList es with
    | none => pf.mode = none
    | some m => ∃ ln t v md, m = .scalar ln t v ∧ pf.mode = some md ∧ (v, md) ∈ modes
  limit : match last "limit".toList es with
    | none => pf.limit = 0
    | some l => d.int l = some (pf.limit : Int)
  color : pf.color = flag d "color".toList es
  silent : pf.silent = flag d "silent".toList es
  output : pf.output = flag d "output".toList es
  platforms : PlatformsAre d es pf.platforms
  cond : pf.cond = text "when".toList es
  keys : ∀ e ∈ es, e.1.value ∈ bKeys.keys

theorem pkeep_good {α : Type} {pf : ParFields} {r : Res α} {f : ParFields → α → ParFields} (h : (pf.keep r f).bad = false) :
    ∃ a, r.1 = some a ∧ pf.keep r f = { f pf a with errs := pf.errs ++ r.2 } := by
  unfold ParFields.keep at h ⊢
  cases ha : r.1 with
  | none => rw [ha] at h; cases h
  | some a => exact ⟨a, rfl, rfl⟩

theorem pkeep_bad {α : Type} {pf : ParFields} {r : Res α} {f : ParFields → α → ParFields} (hf : ∀ pf a, (f pf a).bad = pf.bad) (h : pf.bad = true) :
    (pf.keep r f).bad = true := by
  unfold ParFields.keep
  cases r.1 with
  | none => rfl
  | some a => dsimp only; rw [hf]; exact h

theorem parField_bad (d : Decoders) {pt : Part} {pf : ParFields} (h : pf.bad = true) (e : Node × Node) : (parField d pt pf e).bad = true := by
  unfold parField
  cases bKeyOf e.1.value with
  | parallel => exact pkeep_bad (fun _ _ => rfl) h
  | mode => exact pkeep_bad (fun _ _ => rfl) h
  | limit => exact pkeep_bad (fun _ _ => rfl) h
  | color => exact pkeep_bad (fun _ _ => rfl) h
  | silent => exact pkeep_bad (fun _ _ => rfl) h
  | output => exact pkeep_bad (fun _ _ => rfl) h
  | platforms => exact pkeep_bad (fun _ _ => rfl) h
  | cond => exact h
  | other => rfl

/-- one more entry of a parallel block: the other keys keep their values -/
syntax "keep_par " term:max term:max : tactic
macro_rules
  | `(tactic| keep_par $h $hk) => `(tactic|
      ((constructor <;> try dsimp only) <;>
        first
        | (rw [last_other (by rw [$hk:term]; decide)]; first | exact ($h).1 | exact ($h).2 | exact ($h).3 | exact ($h).4)
        | (unfold flag; rw [last_other (by rw [$hk:term]; decide)]; first | exact ($h).5 | exact ($h).6 | exact ($h).7)
        | (unfold PlatformsAre; rw [last_other (by rw [$hk:term]; decide)]; exact ($h).8)
        | (rw [text_other (by rw [$hk:term]; decide)]; exact ($h).9)
        | (intro e he; rcases List.mem_append.mp he with he | he
           · exact ($h).10 e he
           · rw [List.mem_singleton] at he; rw [he, $hk:term]; decide)
        | (rw [text_same $hk]; done)
        | skip))

theorem parField_fields (d : Decoders) {pt : Part} {es : List (Node × Node)} {pf : ParFields} (h : ParFieldsAre d es pf) {e : Node × Node}
    (hbad : (parField d pt pf e).bad = false) : ParFieldsAre d (es ++ [e]) (parField d pt pf e) := by
  obtain ⟨k, v⟩ := e
  unfold parField at hbad ⊢
  cases hk : bKeyOf k.value with
  | parallel =>
    have e : k.value = "parallel".toList := by have := bKey_text hk (by decide); revert this; simp [bKeys]
    simp only [hk] at hbad ⊢
    obtain ⟨a, ha, heq⟩ := pkeep_good hbad
    rw [heq]
    obtain rfl : v = .seq a.1 a.2 := by
      cases v with
      | seq ln ns => rw [← Option.some.inj ha]
      | map _ _ => cases ha
      | scalar _ _ _ => cases ha
      | ref _ _ _ => cases ha
    keep_par h e
    · rw [last_same e]; rfl
    · rw [last_same e]; intro n hn; exact ⟨a.1, a.2, (Option.some.inj hn).symm⟩
  | mode =>
    have e : k.value = "mode".toList := by have := bKey_text hk (by decide); revert this; simp [bKeys]
    simp only [hk] at hbad ⊢
    obtain ⟨a, ha, heq⟩ := pkeep_good hbad
    rw [heq]
    keep_par h e
    rw [last_same e]
    cases v with
    | seq ln ns => cases ha
    | map _ _ => cases ha
    | ref _ _ _ => cases ha
    | scalar ln t v =>
      rw [parMode] at ha
      cases hm : modes.get? v with
      | none => rw [hm] at ha; cases ha
      | some md =>
        rw [hm] at ha
        obtain rfl := Option.some.inj ha
        exact ⟨ln, t, v, _, rfl, rfl, GoMap.mem_of_get? hm⟩
  | limit =>
    have e : k.value = "limit".toList := by have := bKey_text hk (by decide); revert this; simp [bKeys]
    simp only [hk] at hbad ⊢
    obtain ⟨a, ha, heq⟩ := pkeep_good hbad
    rw [heq]
    keep_par h e
    rw [last_same e]
    dsimp only
    unfold parLimit at ha
    cases hi : d.int v with
    | none => rw [hi] at ha; cases ha
    | some x =>
      rw [hi] at ha
      dsimp only at ha
      split at ha
      · cases ha
      · next hx =>
        obtain rfl := Option.some.inj ha
        rw [Int.toNat_of_nonneg (by omega)]
  | color =>
    have e : k.value = "color".toList := by have := bKey_text hk (by decide); revert this; simp [bKeys]
    simp only [hk] at hbad ⊢
    obtain ⟨a, ha, heq⟩ := pkeep_good hbad
    rw [heq]
    have := bool_some ha
    keep_par h e
    unfold flag; rw [last_same e]; exact this.symm
  | silent =>
    have e : k.value = "silent".toList := by have := bKey_text hk (by decide); revert this; simp [bKeys]
    simp only [hk] at hbad ⊢
    obtain ⟨a, ha, heq⟩ := pkeep_good hbad
    rw [heq]
    have := bool_some ha
    keep_par h e
    unfold flag; rw [last_same e]; exact this.symm
  | output =>
    have e : k.value = "output".toList := by have := bKey_text hk (by decide); revert this; simp [bKeys]
    simp only [hk] at hbad ⊢
    obtain ⟨a, ha, heq⟩ := pkeep_good hbad
    rw [heq]
    have := bool_some ha
    keep_par h e
    unfold flag; rw [last_same e]; exact this.symm
  | platforms =>
    have e : k.value = "platforms".toList := by have := bKey_text hk (by decide); revert this; simp [bKeys]
    simp only [hk] at hbad ⊢
    obtain ⟨a, ha, heq⟩ := pkeep_good hbad
    rw [heq]
    have := platforms_some ha
    keep_par h e
    unfold PlatformsAre; rw [last_same e]
    exact ⟨by simp [this.1], this.2⟩
  | cond =>
    have e : k.value = "when".toList := by have := bKey_text hk (by decide); revert this; simp [bKeys]
    try dsimp only
    keep_par h e
  | other =>
    simp only [hk] at hbad
    cases hbad

theorem parFields_are (d : Decoders) (pt : Part) (es : List (Node × Node)) (h : (es.foldl (parField d pt) {}).bad = false) :
    ParFieldsAre d es (es.foldl (parField d pt) {}) := by
  induction es using List.reverseRecOn with
  | nil =>
    constructor <;> first | rfl | exact ⟨rfl, fun p hp => by cases hp⟩ | (intro _ h; cases h)
  | append_singleton es e ih =>
    rw [List.foldl_append, List.foldl_cons, List.foldl_nil] at h ⊢
    have hb : (es.foldl (parField d pt) {}).bad = false := by
      by_contra hc
      rw [Bool.not_eq_false] at hc
      rw [parField_bad d hc e] at h; cases h
    exact parField_fields d (ih hb) h

theorem fair_runItems {task : Str} {item : Nat → Node → Res RunItem} {n : Node} (h : ∀ ln ns, n = .seq ln ns → ∀ m ∈ ns, ∀ j, Fair (item j m)) :
    Fair (parseRunItems task item n) := by
  cases n with
  | map _ _ => exact fair_err _
  | scalar _ _ _ => exact fair_err _
  | ref _ _ _ => exact fair_err _
  | seq ln ns =>
    rw [parseRunItems]
    unfold Fair
    dsimp only
    constructor
    · intro hn
      split at hn
      · cases hn
      · next hall =>
        rw [List.all_eq_true] at hall
        push Not at hall
        obtain ⟨r, hr, hr'⟩ := hall
        intro he
        obtain ⟨j, hj, rfl⟩ := List.mem_mapIdx.mp hr
        have hfl := flatMap_nil he _ hr
        obtain ⟨a, ha⟩ := (h ln ns rfl _ (List.getElem_mem hj) j).some hfl
        rw [ha] at hr'
        exact hr' rfl
    · intro he
      rw [if_neg]
      intro hall
      apply he
      rw [List.flatMap_eq_nil_iff]
      intro r hr
      rw [List.all_eq_true] at hall
      have h1 := hall r hr
      obtain ⟨j, hj, rfl⟩ := List.mem_mapIdx.mp hr
      obtain ⟨a, ha⟩ := Option.isSome_iff_exists.mp h1
      exact (h ln ns rfl _ (List.getElem_mem hj) j).errs ha

theorem runItems_some {task : Str} {item : Nat → Node → Res RunItem} {n : Node} {items : List RunItem} (h : (parseRunItems task item n).1 = some items) :
    ∃ ln ns, n = .seq ln ns ∧ List.Forall₂ (fun m i => ∃ j, (item j m).1 = some i) ns items := by
  cases n with
  | map _ _ => cases h
  | scalar _ _ _ => cases h
  | ref _ _ _ => cases h
  | seq ln ns =>
    rw [parseRunItems] at h
    dsimp only at h
    split at h
    · next hall =>
      refine ⟨ln, ns, rfl, ?_⟩
      obtain rfl := Option.some.inj h
      clear h
      induction ns generalizing item with
      | nil => exact .nil
      | cons m ns ih =>
        rw [List.mapIdx_cons, List.all_cons, Bool.and_eq_true] at hall
        obtain ⟨a, ha⟩ := Option.isSome_iff_exists.mp hall.1
        rw [List.mapIdx_cons, List.filterMap_cons_some ha]
        exact .cons ⟨0, ha⟩ ((ih hall.2).imp (fun _ _ h => h.elim fun j hj => ⟨j + 1, hj⟩))
    · cases h

theorem depth_le_list {n : Node} : ∀ {ns : List Node}, n ∈ ns → depth n ≤ depthList ns := by
  intro ns
  induction ns with
  | nil => intro h; cases h
  | cons m ns ih =>
    intro h
    rw [depthList]
    rcases List.mem_cons.mp h with rfl | h
    · exact Nat.le_max_left _ _
    · exact Nat.le_trans (ih h) (Nat.le_max_right _ _)

theorem depth_le_entries {e : Node × Node} : ∀ {es : List (Node × Node)}, e ∈ es → depth e.2 ≤ depthEntries es := by
  intro es
  induction es with
  | nil => intro h; cases h
  | cons m es ih =>
    intro h
    obtain ⟨k, v⟩ := m
    rw [depthEntries]
    rcases List.mem_cons.mp h with rfl | h
    · exact Nat.le_max_left _ _
    · exact Nat.le_trans (ih h) (Nat.le_max_right _ _)

theorem hasParallel_iff {es : List (Node × Node)} : hasParallel es = false ↔ NoKey "parallel".toList es := by
  unfold hasParallel NoKey
  rw [List.any_eq_false]
  exact ⟨fun h e he hv => h e he (decide_eq_true hv), fun h e he hv => h e he (of_decide_eq_true hv)⟩

theorem depth_pos (n : Node) : 0 < depth n := by
  cases n <;> rw [depth] <;> omega

theorem fair_parallel {d : Decoders} {ln : Nat} {task : Str} {index : Nat} {item : Nat → Node → Res RunItem} {es : List (Node × Node)} (hp : hasParallel es = true)
    (h : ∀ l ns, last "parallel".toList es = some (.seq l ns) → ∀ m ∈ ns, ∀ j, Fair (item j m)) : Fair (parseParallelRun d ln task index item es) := by
  unfold parseParallelRun
  dsimp only
  have told := told_par d (.item task index) es
  have hare := parFields_are d (.item task index) es
  generalize hpf : es.foldl (parField d (.item task index)) {} = pf at *
  have badErr : pf.bad = true → pf.errs ≠ [] := told.mp
  have goodErr : pf.bad = false → pf.errs = [] := by
    intro hb
    by_contra hc
    rw [told.mpr hc] at hb; cases hb
  cases hb : pf.bad with
  | true =>
    cases hi : pf.items with
    | none => dsimp only; unfold Fair; simp only [true_iff]; exact badErr hb
    | some ns => dsimp only; rw [if_pos rfl]; unfold Fair; simp only [true_iff]; exact badErr hb
  | false =>
    have ha := hare hb
    have hlast : ∃ l ns, last "parallel".toList es = some (.seq l ns) := by
      cases hl : last "parallel".toList es with
      | none =>
        rw [last_none, ← hasParallel_iff, hp] at hl; cases hl
      | some n =>
        obtain ⟨l, ns, rfl⟩ := ha.seq n hl
        exact ⟨l, ns, rfl⟩
    obtain ⟨l, ns, hl⟩ := hlast
    have hi : pf.items = some (l, ns) := by rw [← ha.items, hl]; rfl
    rw [hi]
    dsimp only
    rw [if_neg (by simp), goodErr hb]
    split
    · unfold Fair; simp
    · have hf := fair_runItems (task := task) (item := item) (n := .seq l ns) (fun l' ns' e m hm => by
        cases e; exact h l ns hl m hm)
      cases hr : parseRunItems task item (.seq l ns) with
      | mk o errs =>
        rw [hr] at hf
        cases o with
        | none => dsimp only; rw [List.nil_append]; exact ⟨fun _ => hf.mp rfl, fun _ => rfl⟩
        | some items =>
          dsimp only
          have he : errs = [] := hf.errs rfl
          rw [he]
          split
          · next hv => unfold Fair; simpa using hv
          · exact fair_ok _

/-- with enough fuel an item is dropped only with an error -/
theorem fair_item (d : Decoders) (task : Str) : ∀ (fuel index : Nat) (n : Node), depth n ≤ fuel → Fair (parseRunItem d task fuel index n) := by
  intro fuel
  induction fuel with
  | zero => intro _ n h; have := depth_pos n; omega
  | succ fuel ih =>
    intro index n h
    cases n with
    | scalar _ _ _ => exact fair_err _
    | seq _ _ => exact fair_err _
    | ref _ _ _ => exact fair_err _
    | map ln es =>
      rw [parseRunItem]
      split
      · next hp =>
        refine fair_parallel hp ?_
        intro _ ns hl m hm j
        refine ih j m ?_
        obtain ⟨e, he, _, e2⟩ := last_mem hl
        have h1 := depth_le_entries he
        rw [e2, depth] at h1
        have h2 := depth_le_list hm
        rw [depth] at h
        omega
      · exact fair_simple d _ _ es

theorem label_eq (ln : Nat) (es : List (Node × Node)) : ((firstOf "label".toList es).map Node.value).getD [] = labelOf (.map ln es) := by
  rw [labelOf]
  induction es with
  | nil => rfl
  | cons e es ih =>
    obtain ⟨k, v⟩ := e
    rw [firstOf, List.filter_cons]
    by_cases h : k.value = "label".toList
    · rw [if_pos h, if_pos (decide_eq_true h)]; rfl
    · rw [if_neg h, if_neg (by simpa using h)]; exact ih

theorem labels_eq {ns : List Node} {items : List RunItem} (h : ns.length = items.length) : extractParallelLabels ns items = ns.map labelOf := by
  unfold extractParallelLabels
  rw [← h]
  refine List.ext_getElem (by simp) ?_
  intro j h1 h2
  rw [List.getElem_map, List.getElem_map, List.getElem_range]
  have hj : j < ns.length := by simpa using h1
  rw [List.getElem?_eq_getElem hj]
  cases ns[j] with
  | map ln es => exact label_eq _ es
  | scalar _ _ _ => rfl
  | seq _ _ => rfl
  | ref _ _ _ => rfl

theorem simple_not_parallel {d : Decoders} {ln : Nat} {es : List (Node × Node)} {i : RunItem} (h : Simple d ln es i) :
    ∀ a b c d e f g h' k l, i ≠ .parallel a b c d e f g h' k l := by
  intro _ _ _ _ _ _ _ _ _ _ e
  rw [e] at h
  exact h

theorem mem_zip_right {α β : Type} {b : β} : ∀ {as : List α} {bs : List β}, as.length = bs.length → b ∈ bs → ∃ a, (a, b) ∈ as.zip bs
  | [], [], _, h => nomatch h
  | a :: as, b' :: bs, hl, h => by
    rcases List.mem_cons.mp h with rfl | h
    · exact ⟨a, by simp⟩
    · obtain ⟨a', ha⟩ := mem_zip_right (Nat.succ.inj hl) h
      exact ⟨a', by simp [ha]⟩

/-- an accepted item is the one the entry describes -/
theorem item_describes (d : Decoders) (task : Str) : ∀ (fuel index : Nat) (n : Node) (i : RunItem), (parseRunItem d task fuel index n).1 = some i → Describes d n i := by
  intro fuel
  induction fuel with
  | zero => intro _ n i h; cases h
  | succ fuel ih =>
    intro index n i h
    cases n with
    | scalar _ _ _ => cases h
    | seq _ _ => cases h
    | ref _ _ _ => cases h
    | map ln es =>
      rw [parseRunItem] at h
      split at h
      · next hp =>
        unfold parseParallelRun at h
        dsimp only at h
        have hare := parFields_are d (.item task index) es
        generalize hpf : es.foldl (parField d (.item task index)) {} = pf at *
        cases hi : pf.items with
        | none => rw [hi] at h; cases h
        | some lns =>
          obtain ⟨l, ns⟩ := lns
          rw [hi] at h
          dsimp only at h
          split at h
          · cases h
          · next hb =>
            have ha := hare (by simpa using hb)
            split at h
            · cases h
            · next hne =>
              cases hr : parseRunItems task (parseRunItem d task fuel) (.seq l ns) with
              | mk o errs =>
                rw [hr] at h
                cases o with
                | none => cases h
                | some items =>
                  dsimp only at h
                  split at h
                  · cases h
                  · next hv =>
                    obtain rfl := Option.some.inj h
                    obtain ⟨l', ns', e, hall⟩ := runItems_some (by rw [hr])
                    cases e
                    have hl : last "parallel".toList es = some (.seq l ns) := by
                      cases hl : last "parallel".toList es with
                      | none => rw [last_none, ← hasParallel_iff, hp] at hl; cases hl
                      | some n =>
                        obtain ⟨l', ns', rfl⟩ := ha.seq n hl
                        have := ha.items
                        rw [hl, hi] at this
                        cases this; rfl
                    simp only [ne_eq, Decidable.not_not] at hv
                    have hv' := flatMap_nil hv
                    refine ⟨es, l, ns, rfl, hl, hne, ?_, ?_, ?_, ?_, ha.limit, ha.color, ha.silent, ha.output, ha.platforms, ha.cond⟩
                    · intro e he
                      exact ha.keys e he
                    · clear hr h hv hi hne hl ha
                      have hv2 : ∀ i ∈ items, (∀ p, i ≠ .prompt p) ∧ ∀ a b c d e f g h k l, i ≠ .parallel a b c d e f g h k l := by
                        intro i hi
                        obtain ⟨m, hm⟩ := mem_zip_right hall.length_eq hi
                        have := hv' _ hm
                        cases i <;> simp at this ⊢
                      clear hv'
                      induction hall with
                      | nil => exact .nil
                      | @cons m i ms is hmi _ ih2 =>
                        refine .cons ?_ (ih2 (fun i hi => hv2 i (by simp [hi])))
                        obtain ⟨j, hmi⟩ := hmi
                        have hd := ih j m i hmi
                        obtain ⟨h1, h2⟩ := hv2 i (by simp)
                        cases i with
                        | command c =>
                          obtain ⟨l', es', e1, e2, e3⟩ := hd
                          exact ⟨l', es', e1, e2, e3, h1⟩
                        | task c =>
                          obtain ⟨l', es', e1, e2, e3⟩ := hd
                          exact ⟨l', es', e1, e2, e3, h1⟩
                        | log c =>
                          obtain ⟨l', es', e1, e2, e3⟩ := hd
                          exact ⟨l', es', e1, e2, e3, h1⟩
                        | prompt p => exact absurd rfl (h1 p)
                        | parallel a b c d e f g h k l => exact absurd rfl (h2 a b c d e f g h k l)
                    · exact labels_eq hall.length_eq
                    · have hm := ha.mode
                      cases hlm : last "mode".toList es with
                      | none => rw [hlm] at hm; dsimp only at hm ⊢; rw [hm]; rfl
                      | some m =>
                        rw [hlm] at hm
                        obtain ⟨lm, t, v, md, e1, e2, e3⟩ := hm
                        dsimp only
                        rw [e2]
                        exact ⟨lm, t, v, e1, e3⟩
      · next hp =>
        have hs := simple_some h
        have hnp := simple_not_parallel hs
        have hnk : NoKey "parallel".toList es := hasParallel_iff.mp (by simpa using hp)
        cases i with
        | command c => exact ⟨_, es, rfl, hnk, hs⟩
        | task c => exact ⟨_, es, rfl, hnk, hs⟩
        | log c => exact ⟨_, es, rfl, hnk, hs⟩
        | prompt c => exact ⟨_, es, rfl, hnk, hs⟩
        | parallel a b c x e f g y k l => exact absurd rfl (hnp a b c x e f g y k l)

/-- more fuel than the depth changes nothing -/
theorem item_fuel (d : Decoders) (task : Str) : ∀ (f f' index : Nat) (n : Node), depth n ≤ f → depth n ≤ f' → parseRunItem d task f index n = parseRunItem d task f' index n := by
  intro f
  induction f with
  | zero => intro f' index n h; have := depth_pos n; omega
  | succ f ih =>
    intro f' index n h h'
    cases f' with
    | zero => have := depth_pos n; omega
    | succ f' =>
      cases n with
      | scalar _ _ _ => rfl
      | seq _ _ => rfl
      | ref _ _ _ => rfl
      | map ln es =>
        rw [parseRunItem, parseRunItem]
        by_cases hp : hasParallel es = true
        · rw [if_pos hp, if_pos hp]
          unfold parseParallelRun
          dsimp only
          have hare := parFields_are d (.item task index) es
          generalize es.foldl (parField d (.item task index)) {} = pf at hare
          cases hi : pf.items with
          | none => rfl
          | some lns =>
            obtain ⟨l, ns⟩ := lns
            dsimp only
            by_cases hb : pf.bad = true
            · rw [if_pos hb, if_pos hb]
            · rw [if_neg hb, if_neg hb]
              have ha := hare (by simpa using hb)
              have hl : last "parallel".toList es = some (.seq l ns) := by
                cases hl : last "parallel".toList es with
                | none => rw [last_none, ← hasParallel_iff, hp] at hl; cases hl
                | some n =>
                  obtain ⟨l', ns', rfl⟩ := ha.seq n hl
                  have := ha.items
                  rw [hl, hi] at this
                  cases this; rfl
              have : parseRunItems task (parseRunItem d task f) (.seq l ns) = parseRunItems task (parseRunItem d task f') (.seq l ns) := by
                rw [parseRunItems, parseRunItems]
                have : ns.mapIdx (parseRunItem d task f) = ns.mapIdx (parseRunItem d task f') := by
                  refine List.ext_getElem (by simp) ?_
                  intro j h1 h2
                  rw [List.getElem_mapIdx, List.getElem_mapIdx]
                  have hj : j < ns.length := by simpa using h1
                  have hm := List.getElem_mem hj
                  obtain ⟨e, he, _, e2⟩ := last_mem hl
                  have h3 := depth_le_entries he
                  rw [e2, depth] at h3
                  have h4 := depth_le_list hm
                  rw [depth] at h h'
                  exact ih f' j _ (by omega) (by omega)
                rw [this]
              rw [this]
        · rw [if_neg hp, if_neg hp]

/-! ## tasks -/

def TaskState.Told (st : TaskState) : Prop := st.bad = true ↔ st.errs ≠ []

theorem told_tkeep {α : Type} {st : TaskState} (h : st.Told) {r : Res α} (hr : Fair r) {f : Task → α → Task} : (st.keep r f).Told := by
  unfold TaskState.keep TaskState.Told at *
  cases ha : r.1 with
  | none => simp [hr.mp ha]
  | some a =>
    dsimp only
    rw [hr.errs ha, List.append_nil]
    exact h

theorem fair_run (d : Decoders) (task : Str) (n : Node) : Fair (parseRunItems task (parseRunItem d task (depth n)) n) := by
  refine fair_runItems ?_
  rintro ln ns rfl m hm j
  refine fair_item d task _ j m ?_
  have := depth_le_list hm
  rw [depth]; omega

theorem told_taskField (d : Decoders) (name : Str) {st : TaskState} (h : st.Told) (e : Node × Node) : (taskField d name st e).Told := by
  unfold taskField
  cases tKeyOf e.1.value with
  | desc => exact h
  | nick => exact h
  | aliases => exact told_tkeep h (fair_strs d _ _ _ _)
  | vars => exact told_tkeep h (fair_strMap _ _)
  | env => exact told_tkeep h (fair_strMap _ _)
  | silent => exact told_tkeep h (fair_bool d _)
  | output => exact told_tkeep h (fair_bool d _)
  | dir => exact told_tkeep h (fair_dir _ _)
  | cond => exact h
  | deps => exact told_tkeep h (fair_strs d _ _ _ _)
  | run => exact told_tkeep h (fair_run d _ _)
  | other => exact h

/-- what a task should be -/
structure TaskFieldsAre (d : Decoders) (es : List (Node × Node)) (t : Task) : Prop where
  desc : t.desc = text "desc".toList es
  nick : t.alias = text "alias".toList es
  dir : t.dir = text "dir".toList es
  cond : t.cond = text "when".toList es
  aliases : t.aliases = ((last "aliases".toList es).bind d.strs).getD []
  deps : t.deps = ((last "deps".toList es).bind d.strs).getD []
  vars : match last "vars".toList es with | none => t.vars = none | some v => ∃ m, t.vars = some m ∧ EnvIs (some v) m
  env : EnvIs (last "env".toList es) t.env
  run : RunIs d (last "run".toList es) t.run
  silent : t.silent = flag d "silent".toList es
  output : t.output = flag d "output".toList es
  depsLine : t.depsLine = keyLine "deps".toList es

theorem keyLine_other {key : Str} {es : List (Node × Node)} {k v : Node} (h : k.value ≠ key) : keyLine key (es ++ [(k, v)]) = keyLine key es := by
  unfold keyLine
  rw [List.filter_append, List.filter_cons_of_neg (by simp [h]), List.filter_nil, List.append_nil]

theorem keyLine_same {key : Str} {es : List (Node × Node)} {k v : Node} (h : k.value = key) : keyLine key (es ++ [(k, v)]) = k.line := by
  unfold keyLine
  rw [List.filter_append, List.filter_cons_of_pos (by simp [h]), List.filter_nil, List.getLast?_append]
  rfl

theorem tkeep_good {α : Type} {st : TaskState} {r : Res α} {f : Task → α → Task} (h : (st.keep r f).bad = false) :
    ∃ a, r.1 = some a ∧ st.keep r f = { st with task := f st.task a, errs := st.errs ++ r.2 } := by
  unfold TaskState.keep at h ⊢
  cases ha : r.1 with
  | none => rw [ha] at h; cases h
  | some a => exact ⟨a, rfl, rfl⟩

/-- one more entry of a task: the other keys keep their values -/
syntax "keep_task " term:max term:max : tactic
macro_rules
  | `(tactic| keep_task $h $hk) => `(tactic|
      ((constructor <;> try dsimp only) <;>
        first
        | (rw [text_other (by rw [$hk:term]; decide)]; first | exact ($h).1 | exact ($h).2 | exact ($h).3 | exact ($h).4)
        | (rw [last_other (by rw [$hk:term]; decide)]; first | exact ($h).5 | exact ($h).6 | exact ($h).7 | exact ($h).8 | exact ($h).9)
        | (unfold flag; rw [last_other (by rw [$hk:term]; decide)]; first | exact ($h).10 | exact ($h).11)
        | (rw [text_same $hk]; done)
        | (rw [keyLine_other (by rw [$hk:term]; decide)]; exact ($h).12)
        | skip))

theorem taskField_fields (d : Decoders) {name : Str} {es : List (Node × Node)} {st : TaskState} (h : TaskFieldsAre d es st.task) {e : Node × Node}
    (hbad : (taskField d name st e).bad = false) : TaskFieldsAre d (es ++ [e]) (taskField d name st e).task := by
  obtain ⟨k, v⟩ := e
  unfold taskField at hbad ⊢
  cases hk : tKeyOf k.value with
  | desc =>
    have e : k.value = "desc".toList := by have := tKey_text hk (by decide); revert this; simp [tKeys]
    try dsimp only
    keep_task h e
  | nick =>
    have e : k.value = "alias".toList := by have := tKey_text hk (by decide); revert this; simp [tKeys]
    try dsimp only
    keep_task h e
  | cond =>
    have e : k.value = "when".toList := by have := tKey_text hk (by decide); revert this; simp [tKeys]
    try dsimp only
    keep_task h e
  | aliases =>
    have e : k.value = "aliases".toList := by have := tKey_text hk (by decide); revert this; simp [tKeys]
    simp only [hk] at hbad ⊢
    obtain ⟨a, ha, heq⟩ := tkeep_good hbad
    rw [heq]
    have := strs_some ha
    keep_task h e
    rw [last_same e]; simp [this]
  | deps =>
    have e : k.value = "deps".toList := by have := tKey_text hk (by decide); revert this; simp [tKeys]
    simp only [hk] at hbad ⊢
    obtain ⟨a, ha, heq⟩ := tkeep_good hbad
    rw [heq]
    have := strs_some ha
    keep_task h e
    · rw [last_same e]; simp [this]
    · rw [keyLine_same e]
  | vars =>
    have e : k.value = "vars".toList := by have := tKey_text hk (by decide); revert this; simp [tKeys]
    simp only [hk] at hbad ⊢
    obtain ⟨a, ha, heq⟩ := tkeep_good hbad
    rw [heq]
    have := strMap_some ha
    keep_task h e
    rw [last_same e]; exact ⟨a, rfl, this⟩
  | env =>
    have e : k.value = "env".toList := by have := tKey_text hk (by decide); revert this; simp [tKeys]
    simp only [hk] at hbad ⊢
    obtain ⟨a, ha, heq⟩ := tkeep_good hbad
    rw [heq]
    have := strMap_some ha
    keep_task h e
    rw [last_same e]; exact this
  | silent =>
    have e : k.value = "silent".toList := by have := tKey_text hk (by decide); revert this; simp [tKeys]
    simp only [hk] at hbad ⊢
    obtain ⟨a, ha, heq⟩ := tkeep_good hbad
    rw [heq]
    have := bool_some ha
    keep_task h e
    unfold flag; rw [last_same e]; exact this.symm
  | output =>
    have e : k.value = "output".toList := by have := tKey_text hk (by decide); revert this; simp [tKeys]
    simp only [hk] at hbad ⊢
    obtain ⟨a, ha, heq⟩ := tkeep_good hbad
    rw [heq]
    have := bool_some ha
    keep_task h e
    unfold flag; rw [last_same e]; exact this.symm
  | dir =>
    have e : k.value = "dir".toList := by have := tKey_text hk (by decide); revert this; simp [tKeys]
    simp only [hk] at hbad ⊢
    obtain ⟨a, ha, heq⟩ := tkeep_good hbad
    rw [heq]
    have := dir_some ha
    keep_task h e
    rw [text_same e, this]
  | run =>
    have e : k.value = "run".toList := by have := tKey_text hk (by decide); revert this; simp [tKeys]
    simp only [hk] at hbad ⊢
    obtain ⟨a, ha, heq⟩ := tkeep_good hbad
    rw [heq]
    obtain ⟨ln, ns, rfl, hall⟩ := runItems_some ha
    keep_task h e
    rw [last_same e]
    exact hall.imp (fun m i hmi => hmi.elim fun j hj => item_describes d _ _ j m i hj)
  | other =>
    simp only [hk] at hbad ⊢
    have hne : ∀ key ∈ ["desc".toList, "alias".toList, "aliases".toList, "vars".toList, "env".toList, "silent".toList, "output".toList,
        "dir".toList, "when".toList, "deps".toList, "run".toList], k.value ≠ key := by
      intro key hkey hkk
      rw [hkk] at hk
      have hall : ∀ x ∈ ["desc".toList, "alias".toList, "aliases".toList, "vars".toList, "env".toList, "silent".toList, "output".toList,
        "dir".toList, "when".toList, "deps".toList, "run".toList], tKeyOf x ≠ .other := by decide
      exact hall key hkey hk
    constructor
    · rw [text_other (hne _ (by decide))]; exact h.desc
    · rw [text_other (hne _ (by decide))]; exact h.nick
    · rw [text_other (hne _ (by decide))]; exact h.dir
    · rw [text_other (hne _ (by decide))]; exact h.cond
    · rw [last_other (hne _ (by decide))]; exact h.aliases
    · rw [last_other (hne _ (by decide))]; exact h.deps
    · rw [last_other (hne _ (by decide))]; exact h.vars
    · rw [last_other (hne _ (by decide))]; exact h.env
    · rw [last_other (hne _ (by decide))]; exact h.run
    · unfold flag; rw [last_other (hne _ (by decide))]; exact h.silent
    · unfold flag; rw [last_other (hne _ (by decide))]; exact h.output
    · rw [keyLine_other (hne _ (by decide))]; exact h.depsLine

theorem tkeep_bad {α : Type} {st : TaskState} {r : Res α} {f : Task → α → Task} (h : st.bad = true) : (st.keep r f).bad = true := by
  unfold TaskState.keep
  cases r.1 with
  | none => rfl
  | some a => exact h

theorem tkeep_name {α : Type} {st : TaskState} {r : Res α} {f : Task → α → Task} (hf : ∀ t a, (f t a).name = t.name) :
    (st.keep r f).task.name = st.task.name := by
  unfold TaskState.keep
  cases r.1 with
  | none => rfl
  | some a => exact hf _ _

theorem taskField_bad (d : Decoders) {name : Str} {st : TaskState} (h : st.bad = true) (e : Node × Node) : (taskField d name st e).bad = true := by
  unfold taskField
  cases tKeyOf e.1.value <;> first | exact h | exact tkeep_bad h

theorem taskField_name (d : Decoders) {name : Str} (st : TaskState) (e : Node × Node) : (taskField d name st e).task.name = st.task.name := by
  unfold taskField
  cases tKeyOf e.1.value <;> first | rfl | exact tkeep_name (fun _ _ => rfl)

theorem taskFields_are (d : Decoders) (name : Str) (es : List (Node × Node)) :
    (es.foldl (taskField d name) { task := { name := name } }).Told ∧ (es.foldl (taskField d name) { task := { name := name } }).task.name = name ∧
    ((es.foldl (taskField d name) { task := { name := name } }).bad = false →
      TaskFieldsAre d es (es.foldl (taskField d name) { task := { name := name } }).task) := by
  induction es using List.reverseRecOn with
  | nil =>
    refine ⟨by simp [TaskState.Told], rfl, ?_⟩
    intro _
    constructor <;> rfl
  | append_singleton es e ih =>
    rw [List.foldl_append, List.foldl_cons, List.foldl_nil]
    refine ⟨told_taskField d name ih.1 e, (taskField_name d _ e).trans ih.2.1, ?_⟩
    intro h
    have hb : (es.foldl (taskField d name) { task := { name := name } }).bad = false := by
      by_contra hc
      rw [Bool.not_eq_false] at hc
      rw [taskField_bad d hc e] at h; cases h
    exact taskField_fields d (ih.2.2 hb) h

theorem fair_task (d : Decoders) (name : Str) (n : Node) : Fair (parseTask d name n) := by
  cases n with
  | scalar _ _ _ => exact fair_err _
  | seq _ _ => exact fair_err _
  | ref _ _ _ => exact fair_err _
  | map ln es =>
    rw [parseTask]
    obtain ⟨h, _⟩ := taskFields_are d name es
    try dsimp only
    generalize es.foldl (taskField d name) { task := { name := name } } = st at h
    unfold Fair
    dsimp only
    cases hb : st.bad with
    | true => simp [h.mp hb]
    | false =>
      have : st.errs = [] := by
        by_contra hc
        rw [h.mpr hc] at hb; cases hb
      simp [this]

theorem task_some {d : Decoders} {name : Str} {n : Node} {t : Task} (h : (parseTask d name n).1 = some t) : TaskIs d n t ∧ t.name = name := by
  cases n with
  | scalar _ _ _ => cases h
  | seq _ _ => cases h
  | ref _ _ _ => cases h
  | map ln es =>
    rw [parseTask] at h
    obtain ⟨_, hn, hare⟩ := taskFields_are d name es
    dsimp only at h
    split at h
    · cases h
    · next hb =>
      obtain rfl := Option.some.inj h
      have ha := hare (by simpa using hb)
      exact ⟨⟨_, es, rfl, ha.desc, ha.nick, ha.aliases, ha.vars, ha.env, ha.silent, ha.output, ha.dir, ha.cond, ha.deps, ha.depsLine, ha.run⟩, hn⟩

/-! ## the whole file -/

theorem tasksField_errs (d : Decoders) (st : TasksState) (e : Node × Node) (h : (tasksField d st e).errs = []) :
    st.errs = [] ∧ st.seen.get? e.1.value = none ∧ (tasksField d st e).seen = st.seen.set e.1.value e.1.line ∧
      ∃ t, (parseTask d e.1.value e.2).1 = some t ∧ (tasksField d st e).tasks = st.tasks.set e.1.value { t with line := e.1.line } := by
  unfold tasksField at h ⊢
  dsimp only at h ⊢
  cases hs : st.seen.get? e.1.value with
  | some _ => rw [hs] at h; simp at h
  | none =>
    rw [hs] at h
    dsimp only at h ⊢
    have hf := fair_task d e.1.value e.2
    cases hp : parseTask d e.1.value e.2 with
    | mk o errs =>
      rw [hp] at h hf
      cases o with
      | none =>
        dsimp only at h
        rw [List.append_eq_nil_iff] at h
        exact absurd h.2 (hf.mp rfl)
      | some t =>
        dsimp only at h ⊢
        rw [List.append_eq_nil_iff] at h
        exact ⟨h.1, rfl, rfl, t, rfl, rfl⟩

theorem task_line {d : Decoders} {n : Node} {t : Task} {l : Nat} (h : TaskIs d n t) : TaskIs d n { t with line := l } := h

theorem tasks_fold (d : Decoders) (T0 : TaskMap) (es : List (Node × Node)) (h : (es.foldl (tasksField d) { tasks := T0 }).errs = []) :
    (es.map (fun e => e.1.value)).Nodup ∧
    (∀ x, (es.foldl (tasksField d) { tasks := T0 }).seen.get? x = none → x ∉ es.map (fun e => e.1.value)) ∧
    (∀ x, last x es = none → (es.foldl (tasksField d) { tasks := T0 }).tasks.get? x = T0.get? x) ∧
    (∀ x n, last x es = some n → ∃ t, (es.foldl (tasksField d) { tasks := T0 }).tasks.get? x = some t ∧ TaskIs d n t ∧ t.name = x ∧
      t.line = keyLine x es) ∧
    (T0.WF → (es.foldl (tasksField d) { tasks := T0 }).tasks.WF) := by
  induction es using List.reverseRecOn with
  | nil => exact ⟨List.nodup_nil, (fun _ _ h => by cases h), fun _ _ => rfl, (fun x n hn => by cases hn), fun h => h⟩
  | append_singleton es e ih =>
    rw [List.foldl_append, List.foldl_cons, List.foldl_nil] at h ⊢
    obtain ⟨h1, h2, h3, t, h4, h5⟩ := tasksField_errs d _ e h
    obtain ⟨i1, i2, i3, i4, i5⟩ := ih h1
    refine ⟨?_, ?_, ?_, ?_, ?_⟩
    · rw [List.map_append, List.nodup_append]
      refine ⟨i1, by simp, ?_⟩
      intro a ha b hb hab
      simp only [List.map_cons, List.map_nil, List.mem_singleton] at hb
      rw [hab, hb] at ha
      exact i2 _ h2 ha
    · intro x hx
      rw [h3] at hx
      by_cases hk : e.1.value = x
      · rw [← hk, GoMap.get?_set_self] at hx; cases hx
      · rw [GoMap.get?_set_ne _ _ hk] at hx
        have := i2 x hx
        simp only [List.map_append, List.map_cons, List.map_nil, List.mem_append, List.mem_singleton, not_or]
        exact ⟨this, fun h => hk h.symm⟩
    · intro x hx
      rw [last_snoc] at hx
      rw [h5]
      by_cases hk : e.1.value = x
      · rw [if_pos hk] at hx; cases hx
      · rw [if_neg hk] at hx
        rw [GoMap.get?_set_ne _ _ hk]; exact i3 x hx
    · intro x n hx
      rw [last_snoc] at hx
      rw [h5]
      by_cases hk : e.1.value = x
      · rw [if_pos hk] at hx
        obtain rfl := Option.some.inj hx
        subst hk
        refine ⟨_, GoMap.get?_set_self _ _ _, task_line (task_some h4).1, (task_some h4).2, ?_⟩
        rw [keyLine_same rfl]
      · rw [if_neg hk] at hx
        rw [GoMap.get?_set_ne _ _ hk, keyLine_other hk]; exact i4 x n hx
    · intro hwf
      rw [h5]
      exact GoMap.WF_set (i5 hwf) _ _

theorem includes_fold (d : Decoders) (I0 : GoMap Str) (es : List (Node × Node)) (h : (es.foldl (includeField d) (I0, [])).2 = []) :
    (∀ x, (es.foldl (includeField d) (I0, [])).1.get? x = match last x es with | none => I0.get? x | some n => d.inc n) ∧
    (∀ e ∈ es, d.inc e.2 ≠ none) ∧ (I0.WF → (es.foldl (includeField d) (I0, [])).1.WF) := by
  induction es using List.reverseRecOn with
  | nil => exact ⟨fun _ => rfl, (fun e he => by cases he), fun h => h⟩
  | append_singleton es e ih =>
    rw [List.foldl_append, List.foldl_cons, List.foldl_nil] at h ⊢
    generalize es.foldl (includeField d) (I0, []) = acc at ih h ⊢
    unfold includeField at h ⊢
    cases hi : d.inc e.2 with
    | none => rw [hi] at h; simp at h
    | some p =>
      rw [hi] at h
      dsimp only at h ⊢
      obtain ⟨i1, i2, i3⟩ := ih h
      refine ⟨?_, ?_, fun hwf => GoMap.WF_set (i3 hwf) _ _⟩
      · intro x
        rw [last_snoc]
        by_cases hk : e.1.value = x
        · rw [if_pos hk, ← hk, GoMap.get?_set_self]; exact hi.symm
        · rw [if_neg hk, GoMap.get?_set_ne _ _ hk]; exact i1 x
      · intro e' he'
        rcases List.mem_append.mp he' with he' | he'
        · exact i2 e' he'
        · rw [List.mem_singleton] at he'; rw [he', hi]; simp

theorem last_append (x : Str) (as bs : List (Node × Node)) : last x (as ++ bs) = match last x bs with | none => last x as | some n => some n := by
  unfold last
  rw [List.filter_append, List.getLast?_append]
  cases (bs.filter (fun e => e.1.value = x)).getLast? <;> rfl

theorem keyLine_append (x : Str) (as bs : List (Node × Node)) :
    keyLine x (as ++ bs) = match last x bs with | none => keyLine x as | some _ => keyLine x bs := by
  unfold keyLine last
  rw [List.filter_append, List.getLast?_append]
  cases (bs.filter (fun e => e.1.value = x)).getLast? <;> rfl

theorem entriesOf_snoc (key : Str) (es : List (Node × Node)) (e : Node × Node) :
    entriesOf key (es ++ [e]) = entriesOf key es ++ (if e.1.value = key then pairs e.2 else []) := by
  unfold entriesOf
  rw [List.flatMap_append]
  simp

theorem fkeep_errs {α : Type} {st : FileState} {r : Res α} (hr : Fair r) {f : Schema → α → Schema} (h : (st.keep r f).errs = []) :
    st.errs = [] ∧ ∃ a, r.1 = some a ∧ (st.keep r f).schema = f st.schema a := by
  unfold FileState.keep at h ⊢
  cases ha : r.1 with
  | none =>
    rw [ha] at h
    dsimp only at h
    rw [List.append_eq_nil_iff] at h
    exact absurd h.2 (hr.mp ha)
  | some a =>
    rw [ha] at h
    dsimp only at h
    rw [List.append_eq_nil_iff] at h
    exact ⟨h.1, a, rfl, rfl⟩

/-- one more entry of the document: the other keys keep their values -/
syntax "keep_file " term:max term:max : tactic
macro_rules
  | `(tactic| keep_file $h $hk) => `(tactic|
      ((constructor <;> try dsimp only) <;>
        first
        | (rw [last_other (by rw [$hk:term]; decide)]; first | exact ($h).vars | exact ($h).env)
        | (unfold flag; rw [last_other (by rw [$hk:term]; decide)]; first | exact ($h).silent | exact ($h).output)
        | (rw [text_other (by rw [$hk:term]; decide)]; exact ($h).dir)
        | (rw [entriesOf_snoc, if_neg (by rw [$hk:term]; decide), List.append_nil]; first | exact ($h).others | exact ($h).tasks | exact ($h).includes | exact ($h).readable)
        | exact ($h).wfTasks
        | exact ($h).wfIncludes
        | (intro e' he' hk'
           rcases List.mem_append.mp he' with he' | he'
           · exact ($h).distinct e' he' hk'
           · exact absurd hk' (by rw [List.mem_singleton.mp he', $hk:term]; decide))
        | skip))

theorem fileField_is (d : Decoders) {es : List (Node × Node)} {st : FileState} (ih : st.errs = [] → FileIs d es st.schema) {e : Node × Node}
    (herr : (fileField d st e).errs = []) : FileIs d (es ++ [e]) (fileField d st e).schema := by
  obtain ⟨k, v⟩ := e
  unfold fileField at herr ⊢
  cases hk : fKeyOf k.value with
  | vars =>
    have e : k.value = "vars".toList := by have := fKey_text hk (by decide); revert this; simp [fKeys]
    simp only [hk] at herr ⊢
    obtain ⟨h0, a, ha, heq⟩ := fkeep_errs (fair_strMap _ _) herr
    have h := ih h0
    rw [heq]
    have := strMap_some ha
    keep_file h e
    rw [last_same e]; exact ⟨a, rfl, this⟩
  | env =>
    have e : k.value = "env".toList := by have := fKey_text hk (by decide); revert this; simp [fKeys]
    simp only [hk] at herr ⊢
    obtain ⟨h0, a, ha, heq⟩ := fkeep_errs (fair_strMap _ _) herr
    have h := ih h0
    rw [heq]
    have := strMap_some ha
    keep_file h e
    rw [last_same e]; exact this
  | silent =>
    have e : k.value = "silent".toList := by have := fKey_text hk (by decide); revert this; simp [fKeys]
    simp only [hk] at herr ⊢
    obtain ⟨h0, a, ha, heq⟩ := fkeep_errs (fair_bool d _) herr
    have h := ih h0
    rw [heq]
    have := bool_some ha
    keep_file h e
    unfold flag; rw [last_same e]; exact this.symm
  | output =>
    have e : k.value = "output".toList := by have := fKey_text hk (by decide); revert this; simp [fKeys]
    simp only [hk] at herr ⊢
    obtain ⟨h0, a, ha, heq⟩ := fkeep_errs (fair_bool d _) herr
    have h := ih h0
    rw [heq]
    have := bool_some ha
    keep_file h e
    unfold flag; rw [last_same e]; exact this.symm
  | dir =>
    have e : k.value = "dir".toList := by have := fKey_text hk (by decide); revert this; simp [fKeys]
    simp only [hk] at herr ⊢
    obtain ⟨h0, a, ha, heq⟩ := fkeep_errs (fair_dir _ _) herr
    have h := ih h0
    rw [heq]
    have := dir_some ha
    keep_file h e
    rw [text_same e, this]
  | tasks =>
    have e : k.value = "tasks".toList := by have := fKey_text hk (by decide); revert this; simp [fKeys]
    simp only [hk] at herr ⊢
    rw [List.append_eq_nil_iff] at herr
    have h := ih herr.1
    cases v with
    | scalar _ _ _ => simp [parseTasks] at herr
    | seq _ _ => simp [parseTasks] at herr
    | ref _ _ _ => simp [parseTasks] at herr
    | map ln kvs =>
      rw [parseTasks] at herr ⊢
      obtain ⟨h1, _, h3, h4, h5⟩ := tasks_fold d st.schema.tasks kvs herr.2
      keep_file h e
      · intro e' he' hk'
        rcases List.mem_append.mp he' with he' | he'
        · exact h.distinct e' he' hk'
        · rw [List.mem_singleton.mp he']; exact ⟨ln, kvs, rfl, h1⟩
      · intro x hx
        rw [entriesOf_snoc, if_pos e, last_append] at hx
        dsimp only [pairs] at hx
        cases hl : last x kvs with
        | none =>
          rw [hl] at hx
          rw [h3 x hl]; exact h.others x hx
        | some n => rw [hl] at hx; cases hx
      · intro x n hx
        rw [entriesOf_snoc, if_pos e, last_append] at hx
        rw [entriesOf_snoc, if_pos e, keyLine_append]
        dsimp only [pairs] at hx ⊢
        cases hl : last x kvs with
        | none =>
          rw [hl] at hx
          rw [h3 x hl]; exact h.tasks x n hx
        | some m =>
          rw [hl] at hx
          obtain rfl := Option.some.inj hx
          exact h4 x m hl
      · exact h5 h.wfTasks
  | includes =>
    have e : k.value = "includes".toList := by have := fKey_text hk (by decide); revert this; simp [fKeys]
    simp only [hk] at herr ⊢
    rw [List.append_eq_nil_iff] at herr
    have h := ih herr.1
    cases v with
    | scalar _ _ _ => simp [parseIncludes] at herr
    | seq _ _ => simp [parseIncludes] at herr
    | ref _ _ _ => simp [parseIncludes] at herr
    | map ln kvs =>
      rw [parseIncludes] at herr ⊢
      obtain ⟨h1, h2, h3⟩ := includes_fold d st.schema.includes kvs herr.2
      keep_file h e
      · intro x
        rw [entriesOf_snoc, if_pos e, last_append, h1]
        dsimp only [pairs]
        cases hl : last x kvs with
        | none => exact h.includes x
        | some n => rfl
      · intro e' he'
        rw [entriesOf_snoc, if_pos e] at he'
        rcases List.mem_append.mp he' with he' | he'
        · exact h.readable e' he'
        · exact h2 e' he'
      · exact h3 h.wfIncludes
  | other =>
    simp only [hk] at herr ⊢
    have h := ih herr
    have hne : ∀ key ∈ ["vars".toList, "env".toList, "silent".toList, "output".toList, "dir".toList, "tasks".toList, "includes".toList],
        k.value ≠ key := by
      intro key hkey hkk
      rw [hkk] at hk
      have hall : ∀ x ∈ ["vars".toList, "env".toList, "silent".toList, "output".toList, "dir".toList, "tasks".toList, "includes".toList],
          fKeyOf x ≠ .other := by decide
      exact hall key hkey hk
    have ht : entriesOf "tasks".toList (es ++ [(k, v)]) = entriesOf "tasks".toList es := by
      rw [entriesOf_snoc, if_neg (hne _ (by decide)), List.append_nil]
    have hi : entriesOf "includes".toList (es ++ [(k, v)]) = entriesOf "includes".toList es := by
      rw [entriesOf_snoc, if_neg (hne _ (by decide)), List.append_nil]
    constructor
    · rw [last_other (hne _ (by decide))]; exact h.vars
    · rw [last_other (hne _ (by decide))]; exact h.env
    · unfold flag; rw [last_other (hne _ (by decide))]; exact h.silent
    · unfold flag; rw [last_other (hne _ (by decide))]; exact h.output
    · rw [text_other (hne _ (by decide))]; exact h.dir
    · intro e' he' hk'
      rcases List.mem_append.mp he' with he' | he'
      · exact h.distinct e' he' hk'
      · rw [List.mem_singleton.mp he'] at hk'
        exact absurd hk' (hne _ (by decide))
    · rw [ht]; exact h.others
    · rw [ht]; exact h.tasks
    · rw [hi]; exact h.includes
    · rw [hi]; exact h.readable
    · exact h.wfTasks
    · exact h.wfIncludes

theorem file_is (d : Decoders) (es : List (Node × Node)) (h : (es.foldl (fileField d) {}).errs = []) :
    FileIs d es (es.foldl (fileField d) {}).schema := by
  induction es using List.reverseRecOn with
  | nil =>
    constructor
    · rfl
    · rfl
    · rfl
    · rfl
    · rfl
    · intro e he; cases he
    · intro x _; rfl
    · intro x n hx; cases hx
    · intro x; rfl
    · intro e he; cases he
    · exact List.nodup_nil
    · exact List.nodup_nil
  | append_singleton es e ih =>
    rw [List.foldl_append, List.foldl_cons, List.foldl_nil] at h ⊢
    exact fileField_is d ih h

/-! ## prompts -/

theorem failIf_nil {b : Bool} {r : Report} : failIf b r = [] ↔ b = false := by
  unfold failIf; cases b <;> simp

theorem varName_chars {s : Str} (h : isVarName s = true) :
    ∃ c r, s = c :: r ∧ (c.isAlpha = true ∨ c = '_') ∧ ∀ x ∈ r, x.isAlphanum = true ∨ x = '_' := by
  have hl : ∀ c : Char, (decide (('a' ≤ c ∧ c ≤ 'z') ∨ ('A' ≤ c ∧ c ≤ 'Z') ∨ c = '_')) = true → c.isAlpha = true ∨ c = '_' := by
    intro c hc
    have hc := of_decide_eq_true hc
    simp only [Char.isAlpha, Char.isUpper, Char.isLower, Bool.or_eq_true, Bool.and_eq_true, decide_eq_true_eq]
    rcases hc with hc | hc | hc
    · exact Or.inl (Or.inr hc)
    · exact Or.inl (Or.inl hc)
    · exact Or.inr hc
  cases s with
  | nil => cases h
  | cons c r =>
    unfold isVarName at h
    simp only [Bool.and_eq_true, List.all_eq_true, Bool.or_eq_true] at h
    refine ⟨c, r, rfl, hl c h.1, ?_⟩
    intro x hx
    rcases h.2 x hx with h2 | h2
    · rcases hl x h2 with h3 | h3
      · left; simp [Char.isAlphanum, h3]
      · exact Or.inr h3
    · left
      have h2 := of_decide_eq_true h2
      simp only [Char.isAlphanum, Char.isDigit, Bool.or_eq_true, Bool.and_eq_true, decide_eq_true_eq]
      exact Or.inr h2

theorem prompt_askable {d : Decoders} {ln : Nat} {pt : Part} {pf : PromptFields} {ps : List Str} {c : Str} {i : RunItem} (h : (validatePromptRun d ln pt pf ps c).1 = some i) :
    ∃ p, i = .prompt p ∧ Askable d.compiles p ∧ (p.type = .number → p.default ≠ [] → atoi p.default ≠ none) := by
  unfold validatePromptRun at h
  dsimp only at h
  split at h
  · cases h
  · next hv =>
    obtain rfl := Option.some.inj h
    simp only [ne_eq, Decidable.not_not, List.append_eq_nil_iff] at hv
    obtain ⟨⟨⟨h1, h2⟩, h3⟩, h4⟩ := hv
    refine ⟨_, rfl, ?_⟩
    unfold validatePromptBasics at h1
    unfold validatePromptOptions at h2
    unfold validatePromptConstraints at h3
    unfold validatePromptTypeSpecific at h4
    dsimp only at h1 h2 h3 h4 ⊢
    simp only [List.append_eq_nil_iff, failIf_nil] at h1 h2 h3
    have hne : promptTypeOf pf.type ≠ .other := by
      intro ho
      have := h1.1.2
      split at this
      · cases this
      · rw [failIf_nil, ho] at this; simp at this
    rw [if_neg hne] at h4
    simp only [List.append_eq_nil_iff, failIf_nil] at h4
    obtain ⟨⟨⟨⟨g1, g2⟩, g3⟩, g4⟩, g5⟩ := h4
    obtain ⟨⟨o1, o2⟩, o3⟩ := h2
    refine ⟨⟨?_, ?_, hne, ?_, ?_, ?_, ?_, ?_, ?_⟩, ?_⟩
    · exact varName_chars (by simpa using h1.1.1)
    · simpa using h1.2
    · dsimp only
      constructor
      · intro ho
        simp only [ho, ne_eq, not_false_eq_true, decide_true, Bool.true_and, Bool.not_eq_false', requiresOptions, decide_eq_true_eq] at g1
        exact g1
      · intro ht ho
        have : requiresOptions (promptTypeOf pf.type) = true := by simpa [requiresOptions] using ht
        rw [this, ho] at o1
        simp at o1
    · dsimp only
      intro ht hd
      by_contra hm
      by_cases ho : pf.options = []
      · rw [ht, ho] at o1; simp [requiresOptions] at o1
      · rw [ht] at o2
        simp [hd, ho, hm] at o2
    · dsimp only
      intro hd
      have ht : promptTypeOf pf.type = .multiselect := by
        by_contra hc; simp [hd, hc] at g2
      refine ⟨ht, ?_⟩
      have ho : pf.options ≠ [] := by
        intro ho; rw [ht, ho] at o1; simp [requiresOptions] at o1
      rw [if_pos (by simp [ht, hd, ho])] at o3
      intro x hx
      rw [List.flatMap_eq_nil_iff] at o3
      have := o3 x hx
      rw [failIf_nil] at this
      simpa using this
    · dsimp only
      intro a b ha hb
      have := h3.1
      rw [ha, hb] at this
      dsimp only at this
      rw [failIf_nil] at this
      simpa using this
    · dsimp only
      intro hv
      refine ⟨?_, ?_⟩
      · by_contra hc; simp [hv, hc] at g3
      · have := h3.2
        by_contra hc; simp [hv, hc] at this
    · dsimp only
      intro hc
      by_contra hn; simp [hc, hn] at g4
    · intro ht hd ha
      simp [ht, hd, ha] at g5

theorem simple_askable {d : Decoders} {ln : Nat} {pt : Part} {es : List (Node × Node)} {p : PromptRun} (h : (simpleItem d ln pt es).1 = some (.prompt p)) :
    Askable d.compiles p ∧ (p.type = .number → p.default ≠ [] → atoi p.default ≠ none) := by
  unfold simpleItem at h
  dsimp only at h
  generalize parseRunFields d pt es = rf at h
  split at h
  · cases h
  split at h
  · cases h
  split at h
  · cases h
  split at h
  · cases h
  split at h
  · cases h
  split at h
  · unfold buildLogRun at h
    dsimp only at h
    generalize (if rf.level = [] then "info".toList else rf.level) = lv at h
    split at h
    · cases h
    · cases h
  split at h
  · obtain ⟨p', hp, hh⟩ := prompt_askable h
    cases hp
    exact hh
  · cases h

theorem item_askable {d : Decoders} {task : Str} {fuel index : Nat} {n : Node} {p : PromptRun} (h : (parseRunItem d task fuel index n).1 = some (.prompt p)) :
    Askable d.compiles p ∧ (p.type = .number → p.default ≠ [] → atoi p.default ≠ none) := by
  cases fuel with
  | zero => cases h
  | succ f =>
    cases n with
    | scalar _ _ _ => cases h
    | seq _ _ => cases h
    | ref _ _ _ => cases h
    | map ln es =>
      rw [parseRunItem] at h
      split at h
      · unfold parseParallelRun at h
        dsimp only at h
        revert h
        repeat' (first | (intro h; cases h) | split)
      · exact simple_askable h

end Bab.Yaml
