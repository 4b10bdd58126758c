import Verif.Model.Forms
import Verif.Props.Interpolate
import Verif.Props.Unmarshal
import Verif.Proof.SafeRun
import Verif.Proof.Sample
/-
C43: prompts without a terminal. C60: prompts on a terminal.
-/

namespace Bab.Forms
open Bab Bab.Yaml

namespace Spec

/-- the words that mean yes, in any case of their letters -/
def Yes (s : Str) : Prop :=
  s.map Char.toLower ∈ ["true".toList, "yes".toList, "y".toList, "1".toList]

/-- the answer that a declaration gives without asking (C43) -/
inductive Declared (p : PromptRun) : Str → Prop
  | yes (h : p.type = .confirm) (hd : p.default ≠ []) (hy : Yes p.default) : Declared p "true".toList
  | no (h : p.type = .confirm) (hd : p.default ≠ []) (hy : ¬ Yes p.default) : Declared p "false".toList
  | text (h : p.type = .input ∨ p.type = .select ∨ p.type = .number) (hd : p.default ≠ []) : Declared p p.default
  | choice (h : p.type = .multiselect) (hd : p.defaults ≠ []) : Declared p ([','].intercalate p.defaults)

/-- Assumptions about the library: a form ends with a value only if the value passes its check, and choices are made
among the options. -/
structure Lawful (L : Library) : Prop where
  input : ∀ t ph i v a, L.input t ph i v = .done a → v a = true
  password : ∀ t v a, L.password t v = .done a → v a = true
  select : ∀ t o i a, o ≠ [] → L.select t o i = .done a → a ∈ o
  multi : ∀ t o i v a, L.multi t o i v = .done a → a.Sublist o ∧ v a = true

/-- what an answer on a terminal satisfies (C60) -/
def Fits (L : Library) (p : PromptRun) (a : Str) : Prop :=
  match p.type with
  | .confirm => a = "true".toList ∨ a = "false".toList
  | .input => p.validate ≠ [] → L.pattern p.validate a = true
  | .select => a ∈ p.options
  | .multiselect => ∃ xs : List Str, xs.Sublist p.options ∧ a = [','].intercalate xs ∧
      (∀ m, p.min = some m → m ≤ xs.length) ∧ ∀ m, p.max = some m → (xs.length : Int) ≤ m
  | .password => True
  | .number => ∃ v, atoi a = some v ∧ (∀ m, p.min = some m → m ≤ v) ∧ ∀ m, p.max = some m → v ≤ m
  | .other => False

end Spec
open Spec

theorem lower_char (c : Char) : (if 'A' ≤ c ∧ c ≤ 'Z' then Char.ofNat (c.toNat + 32) else c) = c.toLower := by
  unfold Char.toLower
  by_cases h : 'A' ≤ c ∧ c ≤ 'Z'
  · have h' : c.val ≥ 'A'.val ∧ c.val ≤ 'Z'.val := h
    rw [if_pos h, dif_pos h']
    have hn : c.toNat ≤ 90 := h'.2
    have key : ∀ x : Char, x.toNat = c.toNat + 32 → Char.ofNat (c.toNat + 32) = x := by
      intro x hx; rw [← hx, Char.ofNat_toNat]
    apply key
    show (c.val + ('a'.val - 'A'.val)).toNat = c.toNat + 32
    rw [UInt32.toNat_add]
    have h1 : ('a'.val - 'A'.val).toNat = 32 := by decide
    have h2 : c.val.toNat = c.toNat := rfl
    rw [h1, h2]
    omega
  · have h' : ¬ (c.val ≥ 'A'.val ∧ c.val ≤ 'Z'.val) := h
    rw [if_neg h, dif_neg h']

theorem joinComma_eq (xs : List Str) : joinComma xs = [','].intercalate xs := by
  induction xs with
  | nil => rfl
  | cons x xs ih =>
    cases xs with
    | nil => simp [joinComma, List.intercalate]
    | cons y ys =>
      rw [joinComma, ih]
      simp [List.intercalate, List.intersperse]
      simp

/-- C43. Without a terminal a prompt gives exactly the answer that its declaration determines; where it determines none
it gives an error. -/
theorem C43_declared (p : PromptRun) (a : Str) : handleNonInteractive p = .ok a ↔ Declared p a := by
  have hy : ∀ s, (lowerAscii s ∈ ["true".toList, "yes".toList, "y".toList, "1".toList]) ↔ Yes s := by
    intro s
    unfold Yes lowerAscii
    rw [show (fun c => if 'A' ≤ c ∧ c ≤ 'Z' then Char.ofNat (c.toNat + 32) else c) = Char.toLower from funext lower_char]
  unfold handleNonInteractive
  constructor
  · intro h
    cases ht : p.type with
    | confirm =>
      rw [ht] at h
      dsimp only at h
      split at h
      · next hd =>
        unfold normalizeConfirmDefault at h
        split at h
        · next hm => cases h; exact .yes ht hd ((hy _).mp hm)
        · next hm => cases h; exact .no ht hd (fun hh => hm ((hy _).mpr hh))
      · cases h
    | input =>
      rw [ht] at h
      dsimp only at h
      split at h
      · next hd => cases h; exact .text (Or.inl ht) hd
      · cases h
    | select =>
      rw [ht] at h
      dsimp only at h
      split at h
      · next hd => cases h; exact .text (Or.inr (Or.inl ht)) hd
      · cases h
    | number =>
      rw [ht] at h
      dsimp only at h
      split at h
      · next hd => cases h; exact .text (Or.inr (Or.inr ht)) hd
      · cases h
    | multiselect =>
      rw [ht] at h
      dsimp only at h
      split at h
      · next hd => cases h; rw [joinComma_eq]; exact .choice ht hd
      · cases h
    | password => rw [ht] at h; cases h
    | other => rw [ht] at h; cases h
  · intro h
    cases h with
    | yes ht hd hh =>
      rw [ht]; dsimp only; rw [if_pos hd]; unfold normalizeConfirmDefault; rw [if_pos ((hy _).mpr hh)]
    | no ht hd hh =>
      rw [ht]; dsimp only; rw [if_pos hd]; unfold normalizeConfirmDefault; rw [if_neg (fun hm => hh ((hy _).mp hm))]
    | text ht hd =>
      rcases ht with ht | ht | ht <;> · rw [ht]; dsimp only; rw [if_pos hd]
    | choice ht hd => rw [ht]; dsimp only; rw [if_pos hd, joinComma_eq]

/-- C43. There is at most one answer. -/
theorem C43_unique {p : PromptRun} {a b : Str} (ha : Declared p a) (hb : Declared p b) : a = b := by
  have h1 := (C43_declared p a).mpr ha
  rw [(C43_declared p b).mpr hb] at h1
  cases h1; rfl

/-- C43. A password is never taken from the declaration. -/
theorem C43_password (p : PromptRun) (h : p.type = .password) : ∃ e, handleNonInteractive p = .error e := by
  unfold handleNonInteractive; rw [h]; exact ⟨_, rfl⟩

theorem interpolate_plain {s : Str} (ctx : Ctx) (h : ∀ c ∈ s, c ≠ '$' ∧ c ≠ '\x00') : interpolate s ctx = .ok s := by
  have he : escapeAll s = s := by
    induction s with
    | nil => rfl
    | cons c r ih =>
      rw [escapeAll_chr, ih (fun x hx => h x (List.mem_cons_of_mem _ hx))]
      rintro ⟨r', hr'⟩
      exact (h c (List.mem_cons_self ..)).1 (List.cons.inj hr').1
  have := C03_escape_roundtrip ctx s (fun hm => (h _ hm).2 rfl)
  rwa [he] at this

theorem interpolateList_mem {ctx : Ctx} {xs ys : List Str} (h : interpolateList ctx xs = .ok ys) :
    ∀ x ∈ xs, ∃ y ∈ ys, interpolate x ctx = .ok y := by
  induction xs generalizing ys with
  | nil => intro x hx; cases hx
  | cons x xs ih =>
    rw [interpolateList] at h
    cases ho : interpolate x ctx with
    | error e => rw [ho] at h; cases h
    | ok o =>
      rw [ho] at h
      dsimp only at h
      cases hos : interpolateList ctx xs with
      | error e => rw [hos] at h; cases h
      | ok os =>
        rw [hos] at h
        cases h
        intro z hz
        rcases List.mem_cons.mp hz with rfl | hz
        · exact ⟨o, List.mem_cons_self .., ho⟩
        · obtain ⟨y, hy, he⟩ := ih hos z hz
          exact ⟨y, List.mem_cons_of_mem _ hy, he⟩

theorem interpolateList_from {ctx : Ctx} {xs ys : List Str} (h : interpolateList ctx xs = .ok ys) :
    ∀ y ∈ ys, ∃ x ∈ xs, interpolate x ctx = .ok y := by
  induction xs generalizing ys with
  | nil => rw [interpolateList] at h; cases h; intro y hy; cases hy
  | cons x xs ih =>
    rw [interpolateList] at h
    cases ho : interpolate x ctx with
    | error e => rw [ho] at h; cases h
    | ok o =>
      rw [ho] at h
      dsimp only at h
      cases hos : interpolateList ctx xs with
      | error e => rw [hos] at h; cases h
      | ok os =>
        rw [hos] at h
        cases h
        intro z hz
        rcases List.mem_cons.mp hz with rfl | hz
        · exact ⟨x, List.mem_cons_self .., ho⟩
        · obtain ⟨y, hy, he⟩ := ih hos z hz
          exact ⟨y, List.mem_cons_of_mem _ hy, he⟩

/-- what `interpolatePrompt` does to the parts of a prompt -/
theorem interpolatePrompt_parts {p q : PromptRun} {ctx : Ctx} (h : interpolatePrompt p ctx = .ok q) :
    q.type = p.type ∧ q.min = p.min ∧ q.max = p.max ∧ q.validate = p.validate ∧ q.confirm = p.confirm ∧
    interpolateOpt ctx p.default = .ok q.default ∧ interpolateList ctx p.options = .ok q.options ∧
    interpolateList ctx p.defaults = .ok q.defaults := by
  unfold interpolatePrompt at h
  cases h1 : interpolate p.message ctx with
  | error e => rw [h1] at h; cases h
  | ok a =>
  cases h2 : interpolateOpt ctx p.default with
  | error e => rw [h1, h2] at h; cases h
  | ok b =>
  cases h3 : interpolateOpt ctx p.placeholder with
  | error e => rw [h1, h2, h3] at h; cases h
  | ok b' =>
  cases h4 : interpolateList ctx p.options with
  | error e => rw [h1, h2, h3, h4] at h; cases h
  | ok os =>
  cases h5 : interpolateList ctx p.defaults with
  | error e => rw [h1, h2, h3, h4, h5] at h; cases h
  | ok ds =>
    rw [h1, h2, h3, h4, h5] at h
    cases h
    exact ⟨rfl, rfl, rfl, rfl, rfl, rfl, rfl, rfl⟩

theorem atoi_plain {s : Str} {v : Int} (h : atoi s = some v) : ∀ c ∈ s, c ≠ '$' ∧ c ≠ '\x00' := by
  have hd : ∀ ds : Str, ds.all (fun c => decide ('0' ≤ c ∧ c ≤ '9')) = true → ∀ c ∈ ds, c ≠ '$' ∧ c ≠ '\x00' := by
    intro ds hds c hc
    rw [List.all_eq_true] at hds
    have := of_decide_eq_true (hds c hc)
    constructor <;> · rintro rfl; revert this; decide
  unfold atoi at h
  dsimp only at h
  split at h
  · next ds =>
    dsimp only at h
    split at h
    · cases h
    · next hn =>
      rw [not_or, Decidable.not_not] at hn
      intro c hc
      rcases List.mem_cons.mp hc with rfl | hc
      · decide
      · exact hd ds hn.2 c hc
  · next ds =>
    dsimp only at h
    split at h
    · cases h
    · next hn =>
      rw [not_or, Decidable.not_not] at hn
      intro c hc
      rcases List.mem_cons.mp hc with rfl | hc
      · decide
      · exact hd ds hn.2 c hc
  · dsimp only at h
    split at h
    · cases h
    · next hn =>
      rw [not_or, Decidable.not_not] at hn
      exact hd _ hn.2

/-- C43. The answer to a prompt of a Babfile that was read: for select one of its options, for multiselect some of its
options, for number a number. -/
theorem C43_among_options (d : Decoders) {task : Str} {index : Nat} {n : Node} {p q : PromptRun} {ctx : Ctx} {a : Str}
    (h : (parseRunItem d task (depth n) index n).1 = some (.prompt p)) (hq : interpolatePrompt p ctx = .ok q) (ha : handleNonInteractive q = .ok a) :
    (p.type = .select → a ∈ q.options) ∧
    (p.type = .multiselect → ∃ xs : List Str, xs ≠ [] ∧ (∀ x ∈ xs, x ∈ q.options) ∧ a = [','].intercalate xs) ∧
    (p.type = .number → ∃ v, atoi a = some v) ∧
    (p.type = .confirm → a = "true".toList ∨ a = "false".toList) := by
  obtain ⟨hk, hnum⟩ := C42_askable_partial d h
  obtain ⟨ht, _, _, _, _, hdef, hopt, hdefs⟩ := interpolatePrompt_parts hq
  have hdecl := (C43_declared q a).mp ha
  have hdne : q.default ≠ [] → p.default ≠ [] ∧ interpolate p.default ctx = .ok q.default := by
    intro hne
    unfold interpolateOpt at hdef
    split at hdef
    · exact absurd (Except.ok.inj hdef).symm hne
    · next hp => exact ⟨hp, hdef⟩
  refine ⟨?_, ?_, ?_, ?_⟩
  · intro hs
    rw [← ht] at hs
    cases hdecl with
    | yes h' => rw [hs] at h'; cases h'
    | no h' => rw [hs] at h'; cases h'
    | choice h' => rw [hs] at h'; cases h'
    | text h' hd =>
      obtain ⟨hp, hi⟩ := hdne hd
      obtain ⟨y, hy, hiy⟩ := interpolateList_mem hopt _ (hk.default (ht ▸ hs) hp)
      rw [hi] at hiy
      cases hiy; exact hy
  · intro hs
    rw [← ht] at hs
    cases hdecl with
    | yes h' => rw [hs] at h'; cases h'
    | no h' => rw [hs] at h'; cases h'
    | text h' => rw [hs] at h'; rcases h' with h' | h' | h' <;> cases h'
    | choice h' hd =>
      refine ⟨q.defaults, hd, ?_, rfl⟩
      intro x hx
      obtain ⟨x', hx', hix⟩ := interpolateList_from hdefs x hx
      have hpd : p.defaults ≠ [] := by rintro h0; rw [h0] at hx'; cases hx'
      obtain ⟨y, hy, hiy⟩ := interpolateList_mem hopt _ ((hk.defaults hpd).2 x' hx')
      rw [hix] at hiy
      cases hiy; exact hy
  · intro hs
    rw [← ht] at hs
    cases hdecl with
    | yes h' => rw [hs] at h'; cases h'
    | no h' => rw [hs] at h'; cases h'
    | choice h' => rw [hs] at h'; cases h'
    | text h' hd =>
      obtain ⟨hp, hi⟩ := hdne hd
      obtain ⟨v, hv⟩ := hnum (ht ▸ hs) hp
      rw [interpolate_plain ctx (atoi_plain hv)] at hi
      obtain hi := Except.ok.inj hi
      exact ⟨v, hi ▸ hv⟩
  · intro hs
    rw [← ht] at hs
    cases hdecl with
    | yes h' => exact Or.inl rfl
    | no h' => exact Or.inr rfl
    | text h' => rw [hs] at h'; rcases h' with h' | h' | h' <;> cases h'
    | choice h' => rw [hs] at h'; cases h'

/-- C43. In a run without a terminal every answer is the one that the declaration, with its variables expanded, gives. -/
theorem C43_run {c : Cfg} {tasks : TaskMap} {gvars : GoMap Str} {main : Str} {s : State} (h : Reach (start c tasks gvars main) s)
    (htty : c.stdinTTY = false) {loc : Loc} {x a : Str} (he : .answered loc x (.ok a) ∈ s.sh.trace) :
    ∃ p q m, itemAt tasks loc = some (.prompt p) ∧ x = p.prompt ∧ .sees loc m ∈ s.sh.trace ∧ interpolatePrompt p ⟨m, c.env⟩ = .ok q ∧ Declared q a := by
  obtain ⟨l, r, ht⟩ := List.append_of_mem he
  obtain ⟨-, p, q, m, h1, h2, h3, h4, h5⟩ := Safe.event_ok h ht
  refine ⟨p, q, m, h1, h4, ?_, h3, (C43_declared q a).mp (h5 htty).symm⟩
  rw [ht]
  exact List.mem_append_left _ h2

/-- Limits of the property: the bounds of a number prompt are not enforced on its default. -/
theorem C43_default_ignores_bounds : ∃ p, (parseRunItem Yaml.Sample.decoders "t".toList (depth Yaml.Sample.outOfRange) 0 Yaml.Sample.outOfRange).1 = some (.prompt p) ∧
    p.max = some 10 ∧ handleNonInteractive p = .ok "50".toList :=
  ⟨{ prompt := "n".toList, type := .number, message := "How many?".toList, default := "50".toList, max := some 10 }, by rfl, rfl, by rfl⟩

example : Declared { prompt := "x".toList, type := .confirm, message := [], default := "YES".toList } "true".toList :=
  .yes rfl (by decide) (by unfold Yes; decide)

example : Declared { prompt := "x".toList, type := .multiselect, message := [], defaults := ["a".toList, "b".toList] } "a,b".toList := by
  have := Declared.choice (p := { prompt := "x".toList, type := .multiselect, message := [], defaults := ["a".toList, "b".toList] }) rfl (by decide)
  exact this

/-- the hypotheses of C43_among_options: a select prompt that is read, and answered without a terminal -/
example : ∃ p q, (parseRunItem Yaml.Sample.decoders "t".toList (depth Yaml.Sample.chooseEnv) 0 Yaml.Sample.chooseEnv).1 = some (.prompt p) ∧ p.type = .select ∧
    interpolatePrompt p ⟨[], fun _ => none⟩ = .ok q ∧ handleNonInteractive q = .ok "dev".toList :=
  ⟨{ prompt := "e".toList, type := .select, message := "Where?".toList, default := "dev".toList, options := ["dev".toList, "prod".toList] }, _, by rfl, rfl,
    rfl, by decide +kernel⟩

/-- the hypotheses of C43_run: a prompt that is answered in a run without a terminal -/
example : .answered ⟨Sample.s "ask", 0, none⟩ (Sample.s "ok") (.ok (Sample.s "true")) ∈
    (Exec.drive [.auto 100] (start { stdinTTY := false } [(Sample.s "ask", { name := Sample.s "ask", run :=
      [.prompt { prompt := Sample.s "ok", type := .confirm, message := Sample.s "?", default := Sample.s "yes" }] })] [] (Sample.s "ask"))).sh.trace := by
  decide +kernel

/-! ## C60 -/

theorem finish_ok {α : Type} {f : α → Except FErr Str} {o : Out α} {a : Str} (h : finish f o = .ok a) : ∃ x, o = .done x ∧ f x = .ok a := by
  cases o with
  | done x => exact ⟨x, rfl, h⟩
  | aborted => cases h
  | failed => cases h

/-- C60. On a terminal every answer satisfies what the prompt asks for, except that a number prompt with a default
accepts the empty text (`C60_empty_number`). -/
theorem C60_answer_fits {L : Library} (hL : Lawful L) {p : PromptRun} {message a : Str} (hopt : p.type = .select → p.options ≠ [])
    (hn : p.type = .number → p.default = [] ∨ a ≠ []) (h : runPrompt L true p message = .ok a) : Fits L p a := by
  unfold runPrompt at h
  rw [if_neg (by decide)] at h
  unfold Fits
  cases ht : p.type with
  | confirm =>
    rw [ht] at h
    obtain ⟨b, _, hb⟩ := finish_ok h
    cases hb
    cases b <;> simp [formatBool]
  | input =>
    rw [ht] at h
    obtain ⟨b, hb, hh⟩ := finish_ok h
    cases hh
    intro hv
    have := hL.input _ _ _ _ _ hb
    rwa [if_pos hv] at this
  | select =>
    rw [ht] at h
    obtain ⟨b, hb, hh⟩ := finish_ok h
    cases hh
    exact hL.select _ _ _ _ (hopt ht) hb
  | multiselect =>
    rw [ht] at h
    obtain ⟨b, hb, hh⟩ := finish_ok h
    cases hh
    obtain ⟨h1, h2⟩ := hL.multi _ _ _ _ _ hb
    refine ⟨b, h1, joinComma_eq b, ?_, ?_⟩
    · intro m hm
      rw [if_pos (Or.inl (by rw [hm]; simp))] at h2
      unfold countOk at h2
      rw [hm] at h2
      rw [Bool.and_eq_true] at h2
      exact of_decide_eq_true h2.1
    · intro m hm
      rw [if_pos (Or.inr (by rw [hm]; simp))] at h2
      unfold countOk at h2
      rw [hm] at h2
      rw [Bool.and_eq_true] at h2
      exact of_decide_eq_true h2.2
  | password => trivial
  | number =>
    rw [ht] at h
    obtain ⟨b, hb, hh⟩ := finish_ok h
    cases hh
    have hv := hL.input _ _ _ _ _ hb
    unfold numberOk at hv
    by_cases ha : a = []
    · rw [if_pos ha] at hv
      rcases hn ht with h' | h'
      · exact absurd h' (of_decide_eq_true hv)
      · exact absurd ha h'
    · rw [if_neg ha] at hv
      cases hat : atoi a with
      | none => rw [hat] at hv; cases hv
      | some v =>
        rw [hat] at hv
        dsimp only at hv
        rw [Bool.and_eq_true] at hv
        refine ⟨v, rfl, ?_, ?_⟩
        · intro m hm; have := hv.1; rw [hm] at this; exact of_decide_eq_true this
        · intro m hm; have := hv.2; rw [hm] at this; exact of_decide_eq_true this
  | other => rw [ht] at h; cases h

/-- C60. A password that has to be confirmed was typed twice. -/
theorem C60_password_twice {L : Library} (hL : Lawful L) {p : PromptRun} {message a : Str} (ht : p.type = .password) (hc : p.confirm = some true)
    (h : runPrompt L true p message = .ok a) :
    L.password message (fun _ => true) = .done a ∧ L.password ("Confirm ".toList ++ L.lower message) (fun s => s = a) = .done a := by
  unfold runPrompt at h
  rw [if_neg (by decide), ht] at h
  obtain ⟨b, hb, hh⟩ := finish_ok h
  rw [if_pos hc] at hh
  obtain ⟨b', hb', hh'⟩ := finish_ok hh
  cases hh'
  have := of_decide_eq_true (hL.password _ _ _ hb')
  rw [this] at hb'
  exact ⟨hb, hb'⟩

/-- C60. If a form is aborted or fails, there is no answer. -/
theorem C60_abort {L : Library} {p : PromptRun} {message : Str} (ht : p.type = .input) (h : L.input message p.placeholder p.default
      (fun s => if p.validate ≠ [] then L.pattern p.validate s else true) = .aborted) : runPrompt L true p message = .error .cancelled := by
  unfold runPrompt
  rw [if_neg (by decide), ht]
  dsimp only
  unfold runInput
  rw [h]; rfl

/-- C60. On a terminal a default is only where the form starts: the answer is the one of the form. Without a terminal no
form is shown. -/
theorem C60_no_form_without_terminal (L L' : Library) (p : PromptRun) (message : Str) :
    runPrompt L false p message = runPrompt L' false p message := by
  unfold runPrompt; rfl

/-- a library in which every form ends with what it starts with, or with an empty text -/
def Sample.enter : Library where
  confirm := fun _ b => .done b
  input := fun _ _ _ v => if v [] then .done [] else .failed
  password := fun _ v => if v [] then .done [] else .failed
  select := fun _ o _ => match o with | [] => .failed | x :: _ => .done x
  multi := fun _ _ _ v => if v [] then .done [] else .failed
  pattern := fun _ _ => true
  lower := id

theorem Sample.enter_lawful : Lawful Sample.enter := by
  constructor
  · intro t ph i v a h
    dsimp only [Sample.enter] at h
    split at h
    · next hv => cases h; exact hv
    · cases h
  · intro t v a h
    dsimp only [Sample.enter] at h
    split at h
    · next hv => cases h; exact hv
    · cases h
  · intro t o i a ho h
    dsimp only [Sample.enter] at h
    split at h
    · exact absurd rfl ho
    · cases h; exact List.mem_cons_self ..
  · intro t o i v a h
    dsimp only [Sample.enter] at h
    split at h
    · next hv => cases h; exact ⟨List.nil_sublist _, hv⟩
    · cases h

/-- Limits of the property: a number prompt with a default accepts the empty text, and the answer is not the default but
the empty text, which is no number. -/
theorem C60_empty_number : ∃ L p, Lawful L ∧ p.type = .number ∧ p.default = "5".toList ∧ runPrompt L true p "How many?".toList = .ok [] ∧
    atoi [] = none :=
  ⟨Sample.enter, { prompt := "n".toList, type := .number, message := "How many?".toList, default := "5".toList }, Sample.enter_lawful, rfl, rfl,
    by rfl, by rfl⟩

example : runPrompt Sample.enter true { prompt := "e".toList, type := .select, message := [], options := ["a".toList, "b".toList] } [] = .ok "a".toList := by
  rfl

/-- a password that has to be typed twice; here it is empty both times -/
example : runPrompt Sample.enter true { prompt := "p".toList, type := .password, message := "Key".toList, confirm := some true } "Key".toList = .ok [] := by
  rfl

/-- a form that is left with Ctrl-C -/
example : runPrompt { Sample.enter with input := fun _ _ _ _ => .aborted } true { prompt := "p".toList, type := .input, message := [] } [] = .error .cancelled := by
  exact C60_abort rfl rfl

end Bab.Forms
