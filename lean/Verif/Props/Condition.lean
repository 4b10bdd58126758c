import Verif.Proof.Condition
import Verif.Props.Interpolate
/-
Properties C08-C10: `when` conditions.
-/

namespace Bab
open Spec

theorem evaluateOp_holds (ne : Bool) (z lit : Str) :
    evaluateOp z (modelOp ne) lit = true ↔ Holds ne z lit := by
  cases ne <;> simp [evaluateOp, modelOp, Holds]

/-- C08. The condition `${{ v }} op 'lit'` (either quote, any white space around the operator, any
spelling of the reference) holds exactly when the value of `v`, without surrounding white space
and quote characters, satisfies the comparison. The value may contain quotes, operators and
anything else, except that it must not be blank and must be one line. -/
theorem C08_comparison (ctx : Ctx) (t v x : Str) (ht : IsRef t v)
    (hx : value ctx.vars.get? ctx.env v = some x) (hnx : NoNul x) (hnl : '\n' ∉ x)
    (ne : Bool) (q : Char) (w1 w2 lit : Str) (hok : TailOk q w1 w2 lit) (hd : '$' ∉ lit)
    (hn : NoNul lit) (y z : Str) (hy : Trimmed WhiteSpace x y) (hne : y ≠ [])
    (hz : Trimmed Quote y z) :
    ∃ b, evaluate (t ++ compTail ne q w1 w2 lit) ctx = .ok b ∧ (b = true ↔ Holds ne z lit) := by
  have hi := interpolate_ref_plain (rest := compTail ne q w1 w2 lit) ht hx
    (compTail_free (by decide) (by decide) (by decide) (by decide) (by decide) hok hd)
    (compTail_free (by decide) (by decide) (by decide) (by decide) (by decide) hok hn) hnx
  refine ⟨evaluateOp z (modelOp ne) lit, ?_, evaluateOp_holds ne z lit⟩
  unfold evaluate
  rw [if_neg (by simp [compTail])]
  rw [hi]
  simp only
  rw [evaluateText_comparison ne hok hy hne hnl hz]

/-- C08, the two operators are each other's negation on such values. -/
theorem C08_ne_is_negation (ctx : Ctx) (t v x : Str) (ht : IsRef t v)
    (hx : value ctx.vars.get? ctx.env v = some x) (hnx : NoNul x) (hnl : '\n' ∉ x)
    (q : Char) (w1 w2 lit : Str) (hok : TailOk q w1 w2 lit) (hd : '$' ∉ lit)
    (hn : NoNul lit) (hblank : ∃ c ∈ x, ¬ WhiteSpace c) :
    ∃ b, evaluate (t ++ compTail false q w1 w2 lit) ctx = .ok b ∧
      evaluate (t ++ compTail true q w1 w2 lit) ctx = .ok (!b) := by
  obtain ⟨y, hy⟩ : ∃ y, Trimmed WhiteSpace x y := ⟨_, trimmed_exists isGoSpace WhiteSpace isGoSpace_iff x⟩
  obtain ⟨z, hz⟩ : ∃ z, Trimmed Quote y z :=
    ⟨_, trimmed_exists (fun c => c = '\'' || c = '"') Quote (by intro c; simp [Quote]) y⟩
  have hne : y ≠ [] := by
    rintro rfl
    obtain ⟨a, b, rfl, ha, hb, _⟩ := hy
    obtain ⟨c, hc, hw⟩ := hblank
    simp at hc
    rcases hc with h | h
    · exact hw (ha c h)
    · exact hw (hb c h)
  obtain ⟨b, hb1, hb2⟩ := C08_comparison ctx t v x ht hx hnx hnl false q w1 w2 lit hok hd hn y z hy hne hz
  obtain ⟨b', hb1', hb2'⟩ := C08_comparison ctx t v x ht hx hnx hnl true q w1 w2 lit hok hd hn y z hy hne hz
  refine ⟨b, hb1, ?_⟩
  rw [hb1']
  simp [Holds] at hb2 hb2'
  congr 1
  by_cases h : z = lit
  · rw [hb2.mpr h]
    simpa using fun h' => hb2' |>.mp h' h
  · have : b = false := by simpa using fun h' => h (hb2.mp h')
    rw [this, hb2'.mpr h]; rfl

/-- the hypotheses hold for a value that imitates a comparison -/
example : evaluate "${{ v }} == 'a == b'".toList ⟨[("v".toList, " \"a == b\" ".toList)], fun _ => none⟩
    = .ok true := by decide

example : IsRef "${{ v }}".toList "v".toList ∧ TailOk '\'' [' '] [' '] "a == b".toList ∧
    Trimmed WhiteSpace " \"a == b\" ".toList "\"a == b\"".toList ∧
    Trimmed Quote "\"a == b\"".toList "a == b".toList := by
  refine ⟨⟨[' '], [' '], rfl, ⟨'v', [], rfl, by unfold Letter; decide, by simp⟩, ?_, ?_⟩,
    ⟨Or.inl rfl, ?_, ?_, by decide⟩, ⟨[' '], [' '], rfl, ?_, ?_, ?_, ?_⟩, ⟨['"'], ['"'], rfl, ?_, ?_, ?_, ?_⟩⟩ <;>
    simp [Blank, WhiteSpace, Quote]

/-- C08, finding: for a blank value the comparison is not recognised; `== 'lit'` then holds for
every literal, and so does `!= 'lit'`, including `!= ''`. -/
theorem C08_blank_value_always_true (ctx : Ctx) (t v x : Str) (ht : IsRef t v)
    (hx : value ctx.vars.get? ctx.env v = some x) (hw : ∀ c ∈ x, WhiteSpace c)
    (ne : Bool) (q : Char) (w1 w2 lit : Str) (hok : TailOk q w1 w2 lit) (hd : '$' ∉ lit)
    (hn : NoNul lit) : evaluate (t ++ compTail ne q w1 w2 lit) ctx = .ok true := by
  have hnx : NoNul x := by
    intro h
    have := hw _ h
    revert this; unfold WhiteSpace; decide
  have hi := interpolate_ref_plain (rest := compTail ne q w1 w2 lit) ht hx
    (compTail_free (by decide) (by decide) (by decide) (by decide) (by decide) hok hd)
    (compTail_free (by decide) (by decide) (by decide) (by decide) (by decide) hok hn) hnx
  unfold evaluate
  rw [if_neg (by simp [compTail])]
  rw [hi]
  simp only
  rw [evaluateText_blank ne hok hw]

example : evaluate "${{ env.TARGET }} == 'production'".toList ⟨[], fun _ => none⟩ = .ok true := by decide
example : evaluate "${{ env.TARGET }} != ''".toList ⟨[], fun _ => none⟩ = .ok true := by decide

/-- C08, finding: a value of two lines satisfies `== 'c'` although it is not `c`. -/
theorem C08_newline_witness :
    evaluate "${{ v }} == 'c'".toList ⟨[("v".toList, "a\nb".toList)], fun _ => none⟩ = .ok true := by
  decide

/-- C08, finding: quotes around a value are ignored, so `'x'` with quotes equals `x`. -/
theorem C08_quoted_value_witness :
    evaluate "${{ v }} == 'x'".toList ⟨[("v".toList, "\"x\"".toList)], fun _ => none⟩ = .ok true := by
  decide

/-- C09. A condition whose expanded, trimmed text is not a comparison is false exactly when that
text is empty or a case variant of `false`. -/
theorem C09_truthiness (ctx : Ctx) (cond s y : Str) (hne : cond ≠ [])
    (hi : interpolate cond ctx = .ok s) (hy : Trimmed WhiteSpace s y) (hc : ¬ IsComparison y) :
    ∃ b, evaluate cond ctx = .ok b ∧ (b = false ↔ y = [] ∨ IsFalseWord y) := by
  refine ⟨evaluateTruthy y, ?_, ?_⟩
  · unfold evaluate
    rw [if_neg hne, hi]
    simp only
    unfold evaluateText
    simp only [trimSpace_eq hy]
    cases he : evaluateComparison y with
    | none => rfl
    | some b => exact absurd (evaluateComparison_some he) hc
  · have htt : trimSpace y = y := by
      apply trimSpace_eq
      obtain ⟨a, b, _, _, _, h1, h2⟩ := hy
      exact ⟨[], [], by simp, by simp, by simp, h1, h2⟩
    unfold evaluateTruthy
    simp only [htt]
    by_cases h1 : y = []
    · simp [h1]
    · rw [if_neg h1]
      by_cases h2 : equalFoldFalse y = true
      · simp [h2, (equalFoldFalse_iff y).mp h2]
      · rw [if_neg h2]
        rw [equalFoldFalse_iff] at h2
        simp [h1, h2]

example : evaluate "${{ v }}".toList ⟨[("v".toList, " FalSe\n".toList)], fun _ => none⟩ = .ok false ∧
    evaluate "${{ v }}".toList ⟨[("v".toList, "0".toList)], fun _ => none⟩ = .ok true := by decide

/-- the hypotheses hold: `FalSe` is what remains after trimming and is not a comparison -/
example : Trimmed WhiteSpace " FalSe\n".toList "FalSe".toList ∧ ¬ IsComparison "FalSe".toList := by
  refine ⟨⟨[' '], ['\n'], rfl, ?_, ?_, ?_, ?_⟩, ?_⟩
  · simp [WhiteSpace]
  · simp [WhiteSpace]
  · simp [WhiteSpace]
  · simp [WhiteSpace]
  · rintro ⟨ne, q, l, w1, w2, lit, hok, he, -, -⟩
    have := congrArg List.getLast? he
    rw [compTail_last, ← List.append_assoc, List.getLast?_concat] at this
    simp at this
    rcases hok.1 with h | h <;> rw [h] at this <;> cases this

/-- C10. A condition with an undefined reference gives an error naming the first such variable,
not a truth value; every error has this cause; an empty condition holds. -/
theorem C10_condition_error (ctx : Ctx) (cond : Str) (ts : List Tok) (hr : Reads cond ts) :
    (∀ e, evaluate cond ctx = .error e ↔ ∃ n, e = .wrap .condition (.varNotFound n) ∧
      FirstUndefined (value ctx.vars.get? ctx.env) ts n) ∧
    ((∃ b, evaluate cond ctx = .ok b) ↔ ∀ n ∈ refs ts, value ctx.vars.get? ctx.env n ≠ none) := by
  have h1 : ∀ e, evaluate cond ctx = .error e ↔
      ∃ n, e = .wrap .condition (.varNotFound n) ∧
      FirstUndefined (value ctx.vars.get? ctx.env) ts n := by
    intro e
    have h2 := C02_interpolate_error_iff ctx cond ts hr
    unfold evaluate
    by_cases hc : cond = []
    · rw [if_pos hc]
      subst hc
      have : ts = [] := reads_unique hr .nil
      subst this
      simp [FirstUndefined, refs]
    · rw [if_neg hc]
      cases hi : interpolate cond ctx with
      | ok s =>
        simp only [reduceCtorEq, false_iff]
        rintro ⟨n, -, hn⟩
        have := (h2 _).mpr ⟨n, rfl, hn⟩
        rw [hi] at this; cases this
      | error e' =>
        obtain ⟨n, rfl, hn⟩ := (h2 _).mp hi
        simp only [Except.error.injEq]
        constructor
        · intro h; exact ⟨n, h.symm, hn⟩
        · rintro ⟨m, rfl, hm⟩
          have := (h2 _).mpr ⟨m, rfl, hm⟩
          rw [hi] at this
          cases this; rfl
  refine ⟨h1, ?_⟩
  constructor
  · rintro ⟨b, hb⟩ n hn hnone
    obtain ⟨m, hm⟩ := firstUndefined_exists hn hnone
    have := (h1 _).mpr ⟨m, rfl, hm⟩
    rw [hb] at this; cases this
  · intro h
    cases he : evaluate cond ctx with
    | ok b => exact ⟨b, rfl⟩
    | error e =>
      obtain ⟨n, -, a, b, hab, hn, -⟩ := (h1 e).mp he
      exact absurd hn (h n (by rw [hab]; simp))

/-- C10, an empty condition holds in every context -/
theorem C10_empty_condition (ctx : Ctx) : evaluate [] ctx = .ok true := rfl

example : evaluate "${{ nope }} != 'x'".toList ⟨[], fun _ => none⟩
    = .error (.wrap .condition (.varNotFound "nope".toList)) := by decide

end Bab
