import Verif.Spec.Inline
import Verif.Props.ResolveVars
import Verif.Props.Condition
import Verif.Model.Runner
/-
C124: a reference to a variable can be replaced by its value.
-/

namespace Bab
open Spec Spec.Inline

/-- a text without `$` is read character by character -/
theorem Inline.plain {v r : Str} {ts : List Tok} (hv : '$' ∉ v) (h : Reads r ts) : Reads (v ++ r) (v.map .chr ++ ts) := by
  induction v with
  | nil => exact h
  | cons c v ih =>
    simp only [List.mem_cons, not_or] at hv
    exact reads_plain (fun e => hv.1 e.symm) (ih hv.2)

theorem Inline.render_plain {val : Str → Option Str} (v : Str) (ts : List Tok) : render val (v.map .chr ++ ts) = (render val ts).map (v ++ ·) := by
  induction v with
  | nil => simp
  | cons c v ih => simp [render, ih, Option.map_map, Function.comp_def]

theorem Inline.refs_plain (v : Str) (ts : List Tok) : refs (v.map .chr ++ ts) = refs ts := by
  induction v with
  | nil => rfl
  | cons c v ih => simpa [refs] using ih

/-- a `$` that is followed by something that cannot belong to a reference or an escape -/
theorem Inline.lone {r : Str} {ts : List Tok} (h1 : ∀ d, r.head? = some d → d ≠ '$' ∧ (d = '{' → ∀ e, r.tail.head? = some e → e ≠ '{')) (h : Reads r ts) :
    Reads ('$' :: r) (.chr '$' :: ts) := by
  refine .chr ?_ ?_ h
  · rintro ⟨r', he⟩
    have : r = '$' :: '{' :: '{' :: r' := by simpa [escape] using he
    subst this
    exact (h1 '$' rfl).1 rfl
  · rintro ⟨t, n, r', ⟨w1, w2, rfl, -, -, -⟩, he⟩
    have : r = '{' :: '{' :: (w1 ++ (n ++ (w2 ++ ('}' :: '}' :: r')))) := by simpa using he
    subst this
    exact (h1 '{' rfl).2 rfl '{' rfl rfl

/-- what a replacement must do: read on its own, render as `v`, and refer to nothing without a value -/
def Inline.Fits (val : Str → Option Str) (v u : Str) : Prop :=
  ∃ us : List Tok, (∀ r ts, Reads r ts → Reads (u ++ r) (us ++ ts)) ∧ (∀ ts, render val (us ++ ts) = (render val ts).map (v ++ ·)) ∧
    ∀ ts, (refs (us ++ ts)).find? (fun n => (val n).isNone) = (refs ts).find? fun n => (val n).isNone

theorem Inline.fits_value {val : Str → Option Str} {v : Str} (hv : '$' ∉ v) : Inline.Fits val v v :=
  ⟨v.map .chr, fun _ _ h => Inline.plain hv h, fun ts => Inline.render_plain v ts, fun ts => by rw [Inline.refs_plain]⟩

theorem Inline.fits_ref {val : Str → Option Str} {v y u : Str} (hy : val y = some v) (hu : IsRef u y) : Inline.Fits val v u := by
  refine ⟨[.ref y], fun _ _ h => .ref hu h, fun ts => ?_, fun ts => ?_⟩
  · simp only [List.cons_append, List.nil_append, render, hy]
    cases render val ts <;> rfl
  · simp [refs, hy]

/-- how the two texts are read -/
theorem Inline.readings {x v s s' : Str} {by' : Str → Prop} {val : Str → Option Str} (hx : val x = some v) (hu : ∀ u, by' u → Inline.Fits val v u)
    (h : Replaced x by' s s') : ∃ ts ts', Reads s ts ∧ Reads s' ts' ∧ render val ts' = render val ts ∧
      (refs ts').find? (fun n => (val n).isNone) = (refs ts).find? fun n => (val n).isNone := by
  induction h with
  | nil => exact ⟨[], [], .nil, .nil, rfl, rfl⟩
  | @chr c r r' hc _ ih =>
    obtain ⟨ts, ts', h1, h2, k1, k2⟩ := ih
    exact ⟨.chr c :: ts, .chr c :: ts', reads_plain hc h1, reads_plain hc h2, by simp [render, k1], k2⟩
  | last => exact ⟨_, _, Inline.lone (by simp) .nil, Inline.lone (by simp) .nil, rfl, rfl⟩
  | @dollar d r r' hd hb _ ih =>
    obtain ⟨ts, ts', h1, h2, k1, k2⟩ := ih
    have hl : ∀ {r : Str} {ts : List Tok}, Reads r ts → Reads ('$' :: d :: r) (.chr '$' :: .chr d :: ts) := fun h =>
      Inline.lone (by rintro e ⟨⟩; exact ⟨hd, fun e => absurd e hb⟩) (reads_plain hd h)
    exact ⟨_, _, hl h1, hl h2, by simp [render, k1], k2⟩
  | @brace d r r' hd hb _ ih =>
    obtain ⟨ts, ts', h1, h2, k1, k2⟩ := ih
    have hl : ∀ {r : Str} {ts : List Tok}, Reads r ts → Reads ('$' :: '{' :: d :: r) (.chr '$' :: .chr '{' :: .chr d :: ts) := fun h =>
      Inline.lone (by rintro e ⟨⟩; exact ⟨by decide, fun _ e he => by cases he; exact hb⟩) (reads_plain (by decide) (reads_plain hd h))
    exact ⟨_, _, hl h1, hl h2, by simp [render, k1], k2⟩
  | esc _ ih =>
    obtain ⟨ts, ts', h1, h2, k1, k2⟩ := ih
    exact ⟨.esc :: ts, .esc :: ts', .esc h1, .esc h2, by simp [render, k1], k2⟩
  | @keep t n r r' ht _ ih =>
    obtain ⟨ts, ts', h1, h2, k1, k2⟩ := ih
    exact ⟨.ref n :: ts, .ref n :: ts', .ref ht h1, .ref ht h2, by simp [render, k1], by simp only [refs, List.find?_cons, k2]⟩
  | @put t u r r' ht hb _ ih =>
    obtain ⟨ts, ts', h1, h2, k1, k2⟩ := ih
    obtain ⟨us, f1, f2, f3⟩ := hu u hb
    refine ⟨.ref x :: ts, us ++ ts', .ref ht h1, f1 _ _ h2, ?_, ?_⟩
    · rw [f2, k1]
      simp only [render, hx]
      cases render val ts <;> rfl
    · rw [f3, k2]
      simp [refs, hx]

theorem Inline.noNul {x s s' : Str} {by' : Str → Prop} (hv : ∀ u, by' u → NoNul u) (h : Replaced x by' s s') (hs : NoNul s) : NoNul s' := by
  unfold NoNul at *
  induction h with
  | nil => exact hs
  | last => exact hs
  | chr _ _ ih =>
    simp only [List.mem_cons, not_or] at hs ⊢
    exact ⟨hs.1, ih hs.2⟩
  | dollar _ _ _ ih =>
    simp only [List.mem_cons, not_or] at hs ⊢
    exact ⟨hs.1, hs.2.1, ih hs.2.2⟩
  | brace _ _ _ ih =>
    simp only [List.mem_cons, not_or] at hs ⊢
    exact ⟨hs.1, hs.2.1, hs.2.2.1, ih hs.2.2.2⟩
  | esc _ ih =>
    simp only [List.mem_append, not_or] at hs ⊢
    exact ⟨hs.1, ih hs.2⟩
  | keep _ _ ih =>
    simp only [List.mem_append, not_or] at hs ⊢
    exact ⟨hs.1, ih hs.2⟩
  | put _ hb _ ih =>
    simp only [List.mem_append, not_or] at hs ⊢
    exact ⟨hv _ hb, ih hs.2⟩

theorem Inline.ref_noNul {u y : Str} (h : IsRef u y) : NoNul u := by
  obtain ⟨w1, w2, rfl, ⟨c, r, rfl, h1, h2⟩, h3, h4⟩ := h
  have letter : ¬ Letter '\x00' := by unfold Letter; decide
  have name : ¬ NameChar '\x00' := by unfold NameChar Letter; decide
  have blank : ¬ Blank '\x00' := by unfold Blank; decide
  unfold NoNul
  simp only [List.mem_append, List.mem_cons, not_or]
  refine ⟨⟨⟨⟨by decide, fun h => blank (h3 _ h)⟩, ?_, fun h => name (h2 _ h)⟩, fun h => blank (h4 _ h)⟩, by decide⟩
  rintro rfl
  exact letter h1

theorem Inline.first_iff {val : Str → Option Str} {ts : List Tok} {n : Str} :
    FirstUndefined val ts n ↔ (refs ts).find? (fun n => (val n).isNone) = some n := by
  rw [List.find?_eq_some_iff_append]
  constructor
  · rintro ⟨a, b, h1, h2, h3⟩
    refine ⟨by simp [h2], a, b, h1, fun m hm => ?_⟩
    have := h3 m hm
    cases hv : val m <;> simp_all
  · rintro ⟨h1, a, b, h2, h3⟩
    refine ⟨a, b, h2, by simpa using h1, fun m hm => ?_⟩
    have := h3 m hm
    intro hv
    simp [hv] at this

variable {ctx : Ctx} {x v s s' : Str}

theorem Inline.same {by' : Str → Prop} (hx : value ctx.vars.get? ctx.env x = some v) (hu : ∀ u, by' u → Inline.Fits (value ctx.vars.get? ctx.env) v u)
    (hb : ∀ u, by' u → NoNul u) (hs : NoNul s) (hn : ∀ n w, value ctx.vars.get? ctx.env n = some w → NoNul w) (h : Replaced x by' s s') :
    interpolate s' ctx = interpolate s ctx := by
  obtain ⟨ts, ts', h1, h2, k1, k2⟩ := Inline.readings hx hu h
  cases hi : interpolate s ctx with
  | ok o =>
    refine (C01_interpolate_single_pass ctx s' ts' h2 (Inline.noNul hb h hs) (fun n w _ hw => hn n w hw) o).mpr ?_
    rw [k1]
    exact (C01_interpolate_single_pass ctx s ts h1 hs (fun n w _ hw => hn n w hw) o).mp hi
  | error e =>
    refine (C02_interpolate_error_iff ctx s' ts' h2 e).mpr ?_
    obtain ⟨n, rfl, hf⟩ := (C02_interpolate_error_iff ctx s ts h1 _).mp hi
    exact ⟨n, rfl, Inline.first_iff.mpr (k2.trans (Inline.first_iff.mp hf))⟩

theorem Inline.nonempty {by' : Str → Prop} (h : Replaced x by' s s') (hne : s' ≠ []) : s ≠ [] := by
  rintro rfl
  generalize he : ([] : Str) = e at h
  cases h with
  | nil => exact hne rfl
  | chr => cases he
  | last => cases he
  | dollar => cases he
  | brace => cases he
  | esc => cases he
  | keep ht | put ht =>
    obtain ⟨q, rfl⟩ := isRef_ne_nil ht
    cases he

/-- **C124** References to a name can be replaced by its value: the text expands to the same, or fails with the same error. -/
theorem C124_text (hx : value ctx.vars.get? ctx.env x = some v) (hv : '$' ∉ v) (hs : NoNul s)
    (hn : ∀ n w, value ctx.vars.get? ctx.env n = some w → NoNul w) (h : Inlined x v s s') : interpolate s' ctx = interpolate s ctx :=
  Inline.same hx (by rintro u rfl; exact Inline.fits_value hv) (by rintro u rfl; exact hn x u hx) hs hn h

/-- **C124** A condition comes out the same, unless nothing is left of it. -/
theorem C124_condition (hx : value ctx.vars.get? ctx.env x = some v) (hv : '$' ∉ v) (hs : NoNul s)
    (hn : ∀ n w, value ctx.vars.get? ctx.env n = some w → NoNul w) (h : Inlined x v s s') (hne : s' ≠ []) :
    evaluate s' ctx = evaluate s ctx := by
  have hne' : s ≠ [] := Inline.nonempty h hne
  unfold evaluate
  rw [if_neg hne, if_neg hne', C124_text hx hv hs hn h]

/-- **C124** What is computed for a command is the same: its text, its environment and its directory. (The message of an error about the
directory quotes the command as written.) -/
theorem C124_command {c : Cfg} {T : Task} {w : CommandRun} {tenv m : GoMap Str} {cmd' : Str} {p : Str × GoMap Str × Str}
    (hx : value m.get? c.env x = some v)
    (hv : '$' ∉ v) (hs : NoNul w.cmd) (hn : ∀ n u, value m.get? c.env n = some u → NoNul u) (h : Inlined x v w.cmd cmd') :
    prepareCommand c T { w with cmd := cmd' } tenv m = .ok p ↔ prepareCommand c T w tenv m = .ok p := by
  unfold prepareCommand
  simp only
  rw [C124_text (ctx := ⟨m, c.env⟩) hx hv hs hn h]
  cases interpolate w.cmd ⟨m, c.env⟩ with
  | error e => rfl
  | ok text =>
    simp only
    cases interpolateEnv ⟨m, c.env⟩ (mergeEnvMaps [tenv, w.env]) with
    | error e => rfl
    | ok env =>
      simp only
      cases resolveDir c T w.dir ⟨m, c.env⟩ with
      | error e => simp
      | ok d => rfl

/-- **C124** All references can be replaced, so that the name is not used any more. -/
theorem C124_all {ts : List Tok} (hv : '$' ∉ v) (hr : Reads s ts) (hd : .chr '$' ∉ ts) : ∃ s', Inlined x v s s' ∧ ¬ Uses s' x := by
  have main : ∃ s' ts', Inlined x v s s' ∧ Reads s' ts' ∧ x ∉ refs ts' := by
    induction hr with
    | nil => exact ⟨[], [], .nil, .nil, by simp [refs]⟩
    | esc _ ih =>
      obtain ⟨s', ts', h1, h2, h3⟩ := ih (fun h => hd (List.mem_cons_of_mem _ h))
      exact ⟨_, _, .esc h1, .esc h2, h3⟩
    | @ref t n r ts ht _ ih =>
      obtain ⟨s', ts', h1, h2, h3⟩ := ih (fun h => hd (List.mem_cons_of_mem _ h))
      by_cases hn : n = x
      · subst hn
        exact ⟨_, _, .put ht rfl h1, Inline.plain hv h2, by rwa [Inline.refs_plain]⟩
      · exact ⟨_, _, .keep ht h1, .ref ht h2, by simp [refs, h3, Ne.symm hn]⟩
    | @chr c r ts _ _ _ ih =>
      obtain ⟨s', ts', h1, h2, h3⟩ := ih (fun h => hd (List.mem_cons_of_mem _ h))
      have hc : c ≠ '$' := by rintro rfl; exact hd List.mem_cons_self
      exact ⟨_, _, .chr hc h1, reads_plain hc h2, h3⟩
  obtain ⟨s', ts', h1, h2, h3⟩ := main
  exact ⟨s', h1, fun ⟨ts2, k1, k2⟩ => h3 (reads_unique h2 k1 ▸ k2)⟩

/-- **C124** That a `$` in the text does not begin something like a reference is needed: what stands around a reference and its value can be a reference together. -/
theorem C124_around : interpolate "${{ ${{ x }} }}".toList ⟨[("x".toList, "y".toList), ("y".toList, "z".toList)], fun _ => none⟩
      = .ok "${{ y }}".toList ∧
    interpolate "${{ y }}".toList ⟨[("x".toList, "y".toList), ("y".toList, "z".toList)], fun _ => none⟩ = .ok "z".toList := by decide

/-- **C124** And that there is none in the value: it can make an escape of the reference that comes next. -/
theorem C124_value : interpolate "${{ x }}${{ y }}".toList ⟨[("x".toList, "$".toList), ("y".toList, "5".toList)], fun _ => none⟩
      = .ok "$5".toList ∧
    interpolate "$${{ y }}".toList ⟨[("x".toList, "$".toList), ("y".toList, "5".toList)], fun _ => none⟩ = .ok "${{ y }}".toList := by decide

/-- **C124** And that something is left of a condition: a reference to an empty value is false, no condition is true. -/
theorem C124_empty : evaluate "${{ x }}".toList ⟨[("x".toList, [])], fun _ => none⟩ = .ok false ∧
    evaluate [] ⟨[("x".toList, [])], fun _ => none⟩ = .ok true ∧ Inlined "x".toList [] "${{ x }}".toList [] := by
  refine ⟨by decide, by decide, ?_⟩
  have : IsRef "${{ x }}".toList "x".toList := ⟨[' '], [' '], rfl, ⟨'x', [], rfl, by unfold Letter; decide, by simp⟩,
    by unfold Blank; decide, by unfold Blank; decide⟩
  have h := Replaced.put (by' := (· = ([] : Str))) (r := []) this rfl .nil
  simpa [Inlined] using h

/-- one of two references is replaced, beside variables of the shell -/
example : ∃ s', Inlined "x".toList "main".toList "go $A ${B} ${{ x }} ${{ y }}".toList s' ∧ s' = "go $A ${B} main ${{ y }}".toList ∧
    value (GoMap.get? [("x".toList, "main".toList)]) (fun _ => none) "x".toList = some "main".toList ∧
    interpolate s' ⟨[("x".toList, "main".toList)], fun _ => none⟩ = .error (.varNotFound "y".toList) := by
  have h1 : IsRef "${{ x }}".toList "x".toList := ⟨[' '], [' '], rfl, ⟨'x', [], rfl, by unfold Letter; decide, by simp⟩,
    by unfold Blank; decide, by unfold Blank; decide⟩
  have h2 : IsRef "${{ y }}".toList "y".toList := ⟨[' '], [' '], rfl, ⟨'y', [], rfl, by unfold Letter; decide, by simp⟩,
    by unfold Blank; decide, by unfold Blank; decide⟩
  refine ⟨_, ?_, rfl, by decide, by decide⟩
  have := Replaced.chr (x := "x".toList) (by' := (· = "main".toList)) (c := 'g') (by decide) (.chr (c := 'o') (by decide) (.chr (c := ' ') (by decide)
    (.dollar (d := 'A') (by decide) (by decide) (.chr (c := ' ') (by decide) (.brace (d := 'B') (by decide) (by decide) (.chr (c := '}') (by decide)
    (.chr (c := ' ') (by decide) (.put h1 rfl (.chr (c := ' ') (by decide) (.keep h2 .nil))))))))))
  simpa [Inlined] using this

end Bab
