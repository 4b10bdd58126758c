import Verif.Proof.Interpolate
/-
Properties C01-C03: expansion of `${{ name }}` references.
-/

namespace Bab
open Spec

/-- The reading of a text used in the statements below exists and is unique. -/
theorem reads_exists_unique (s : Str) : ∃ ts, Reads s ts ∧ ∀ ts', Reads s ts' → ts' = ts := by
  obtain ⟨ts, h⟩ := reads_exists s
  exact ⟨ts, h, fun ts' h' => reads_unique h' h⟩

/-- C01. For every text and every variables and environment without NUL, expansion succeeds with
result `o` exactly when the one-pass reading of the text renders to `o`. -/
theorem C01_interpolate_single_pass (ctx : Ctx) (s : Str) (ts : List Tok) (hr : Reads s ts)
    (hs : NoNul s)
    (hv : ∀ n v, n ∈ refs ts → value ctx.vars.get? ctx.env n = some v → NoNul v) (o : Str) :
    interpolate s ctx = .ok o ↔ render (value ctx.vars.get? ctx.env) ts = some o := by
  unfold interpolate interpolateFull
  have he : (substRefs (resolveVar ctx) 0 (replaceEscapes s)).2
      = ((refs ts).filter (fun n => (value ctx.vars.get? ctx.env n).isNone)).map .varNotFound := by
    rw [substRefs_errs hr, tokErrs_resolve]
  by_cases hall : ∀ n ∈ refs ts, ∃ v, value ctx.vars.get? ctx.env n = some v
  · have hnil : (refs ts).filter (fun n => (value ctx.vars.get? ctx.env n).isNone) = [] := by
      rw [List.filter_eq_nil_iff]
      intro n hn
      obtain ⟨v, hv⟩ := hall n hn
      simp [hv]
    rw [hnil] at he
    have ht : (substRefs (resolveVar ctx) 0 (replaceEscapes s)).1
        = midText (value ctx.vars.get? ctx.env) ts := by
      apply substRefs_text hr
      intro n hn
      obtain ⟨v, hv⟩ := hall n hn
      exact ⟨v, by rw [resolveVar_value, hv], hv⟩
    rw [render_of_mid (new := "${{".toList) rfl
      (fun t ht c hc => by
        intro h0
        have := reads_chr_mem hr t ht c hc
        rw [h0] at this
        exact hs this)
      (fun n hn => by
        obtain ⟨v, hv'⟩ := hall n hn
        exact ⟨v, hv', hv n v hn hv'⟩)]
    simp only [he, ht]
    simp
  · have hne : ∃ n ∈ refs ts, value ctx.vars.get? ctx.env n = none := by
      apply Classical.byContradiction
      intro hcon
      apply hall
      intro n hn
      cases hv : value ctx.vars.get? ctx.env n with
      | some v => exact ⟨v, rfl⟩
      | none => exact absurd ⟨n, hn, hv⟩ hcon
    obtain ⟨n, hn, hnv⟩ := hne
    have hrn : render (value ctx.vars.get? ctx.env) ts = none := by
      clear he hall hs hv hr
      induction ts with
      | nil => simp [refs] at hn
      | cons t ts ih =>
        cases t with
        | chr c => simp only [render]; rw [ih hn]; rfl
        | esc => simp only [render]; rw [ih hn]; rfl
        | ref m =>
          simp only [refs, List.mem_cons] at hn
          rcases hn with h | h
          · subst h; simp [render, hnv]
          · simp [render, ih h]
    rw [hrn]
    have : ∃ e es, (substRefs (resolveVar ctx) 0 (replaceEscapes s)).2 = e :: es := by
      rw [he]
      cases hf : (refs ts).filter (fun n => (value ctx.vars.get? ctx.env n).isNone) with
      | nil =>
        rw [List.filter_eq_nil_iff] at hf
        exact absurd (by simp [hnv]) (hf n hn)
      | cons a b => exact ⟨_, _, rfl⟩
    obtain ⟨e, es, hes⟩ := this
    simp only [hes]
    simp

/-- The hypotheses of C01 hold for a text with a reference, an escape and a value that itself
looks like a reference; the value is not expanded again. -/
example : interpolate "a ${{ x }} $${{ x }}".toList ⟨[("x".toList, "${{ x }}".toList)], fun _ => none⟩
    = .ok "a ${{ x }} ${{ x }}".toList := by decide

example : ∃ ts, Reads "a ${{ x }} $${{ x }}".toList ts ∧ NoNul "a ${{ x }} $${{ x }}".toList ∧
    render (value (GoMap.get? [("x".toList, "v".toList)]) (fun _ => none)) ts
      = some "a v ${{ x }}".toList := by
  obtain ⟨ts, h⟩ := reads_exists "a ${{ x }} $${{ x }}".toList
  refine ⟨ts, h, by unfold NoNul; decide, ?_⟩
  refine (C01_interpolate_single_pass ⟨[("x".toList, "v".toList)], fun _ => none⟩ _ ts h
    (by unfold NoNul; decide) ?_ _).mp (by decide)
  intro n v _ hv
  simp only [value] at hv
  split at hv
  · simp at hv; rw [hv]; simp [NoNul]
  · simp only [GoMap.get?] at hv
    split at hv
    · simp at hv; rw [← hv]; unfold NoNul; decide
    · simp at hv

/-- C01, the NUL hypothesis is needed: with the placeholder text in a variable the result is not
the one-pass rendering (the value is changed). -/
theorem C01_nul_witness :
    interpolate "${{ x }}".toList ⟨[("x".toList, escapePlaceholder)], fun _ => none⟩
      = .ok "${{".toList := by decide

/-- C02. Expansion fails exactly when some unescaped reference has no value, and the error names
the first one. No hypothesis on NUL is needed. -/
theorem C02_interpolate_error_iff (ctx : Ctx) (s : Str) (ts : List Tok) (hr : Reads s ts)
    (e : Err) :
    interpolate s ctx = .error e ↔
      ∃ n, e = .varNotFound n ∧ FirstUndefined (value ctx.vars.get? ctx.env) ts n := by
  unfold interpolate interpolateFull
  have he : (substRefs (resolveVar ctx) 0 (replaceEscapes s)).2
      = ((refs ts).filter (fun n => (value ctx.vars.get? ctx.env n).isNone)).map .varNotFound := by
    rw [substRefs_errs hr, tokErrs_resolve]
  simp only [he]
  have key : ∀ ns : List Str, ∀ x : Err,
      ((ns.filter (fun n => (value ctx.vars.get? ctx.env n).isNone)).map Err.varNotFound).head? = some x
      ↔ ∃ n, x = .varNotFound n ∧ ∃ a b, ns = a ++ n :: b ∧ value ctx.vars.get? ctx.env n = none ∧
          ∀ m ∈ a, value ctx.vars.get? ctx.env m ≠ none := by
    intro ns x
    induction ns with
    | nil => simp
    | cons m ns ih =>
      cases hm : value ctx.vars.get? ctx.env m with
      | none =>
        simp only [List.filter_cons, hm, Option.isNone_none, if_true, List.map_cons,
          List.head?_cons, Option.some.injEq]
        constructor
        · intro h; exact ⟨m, h.symm, [], ns, rfl, hm, by simp⟩
        · rintro ⟨n, rfl, a, b, hab, hn, ha⟩
          cases a with
          | nil => simp at hab; rw [hab.1]
          | cons y a =>
            simp at hab
            exact absurd hm (by rw [hab.1]; exact ha y (by simp))
      | some v =>
        simp only [List.filter_cons, hm, Option.isNone_some]
        rw [if_neg (by simp), ih]
        constructor
        · rintro ⟨n, hx, a, b, hab, hn, ha⟩
          refine ⟨n, hx, m :: a, b, by rw [hab]; rfl, hn, ?_⟩
          intro y hy
          rcases List.mem_cons.mp hy with h | h
          · subst h; simp [hm]
          · exact ha y h
        · rintro ⟨n, hx, a, b, hab, hn, ha⟩
          cases a with
          | nil => simp at hab; rw [← hab.1, hm] at hn; cases hn
          | cons y a =>
            simp at hab
            exact ⟨n, hx, a, b, hab.2, hn, fun z hz => ha z (by simp [hz])⟩
  unfold FirstUndefined
  rw [← key]
  cases hh : ((refs ts).filter (fun n => (value ctx.vars.get? ctx.env n).isNone)).map Err.varNotFound |>.head? with
  | none => simp
  | some x => simp

/-- C02, environment references never fail: a text all of whose references are `env.` names
expands. -/
theorem C02_env_never_fails (ctx : Ctx) (s : Str) (ts : List Tok) (hr : Reads s ts)
    (h : ∀ n ∈ refs ts, ∃ x, n = "env.".toList ++ x) : ∃ o, interpolate s ctx = .ok o := by
  cases hi : interpolate s ctx with
  | ok o => exact ⟨o, rfl⟩
  | error e =>
    obtain ⟨n, _, a, b, hab, hn, _⟩ := (C02_interpolate_error_iff ctx s ts hr e).mp hi
    obtain ⟨x, rfl⟩ := h n (by rw [hab]; simp)
    simp [value] at hn

/-- the second of two undefined references is not the one reported; an escaped one is none -/
example : interpolate "$${{ a }} ${{ env.HOME }} ${{ b }} ${{ c }}".toList ⟨[], fun _ => none⟩
    = .error (.varNotFound "b".toList) := by decide

/-- an unset environment variable expands to nothing -/
example : interpolate "<${{ env.UNSET }}>".toList ⟨[], fun _ => none⟩ = .ok "<>".toList := by decide

/-- a text whose references are all `env.` names (hypothesis of C02_env_never_fails) -/
example : ∃ ts, Reads "${{env.A}}".toList ts ∧ (∀ n ∈ refs ts, ∃ x, n = "env.".toList ++ x) ∧
    refs ts ≠ [] :=
  ⟨[.ref "env.A".toList], by
    have : IsRef "${{env.A}}".toList "env.A".toList :=
      ⟨[], [], rfl, ⟨'e', "nv.A".toList, rfl, by unfold Letter; decide, by unfold NameChar Letter; decide⟩, by simp, by simp⟩
    simpa using Reads.ref this Reads.nil, by simp [refs], by simp [refs]⟩

/-- Writing every `${{` as `$${{`. -/
def Spec.escapeAll : Str → Str
  | '$' :: '{' :: '{' :: r => "$${{".toList ++ escapeAll r
  | c :: r => c :: escapeAll r
  | [] => []

theorem escapeAll_braces (r : Str) : escapeAll ('$' :: '{' :: '{' :: r) = escape ++ escapeAll r := by
  rw [escapeAll]; rfl

theorem escapeAll_chr {c : Char} {r : Str} (h : ¬ ∃ r', c :: r = '$' :: '{' :: '{' :: r') :
    escapeAll (c :: r) = c :: escapeAll r := by
  rw [escapeAll.eq_def]
  split
  · rename_i r' he; exact absurd ⟨r', he⟩ h
  · rename_i he; simp at he; rw [he.1, he.2]
  · rename_i he; simp at he

theorem reads_escapeAll (s : Str) :
    ∃ ts, Reads (escapeAll s) ts ∧ (∀ val, render val ts = some s) ∧ refs ts = [] := by
  generalize hl : s.length = l
  induction l using Nat.strongRecOn generalizing s with
  | _ l ih =>
    subst hl
    cases s with
    | nil => exact ⟨[], .nil, fun _ => rfl, rfl⟩
    | cons c r =>
      by_cases h : ∃ r', c :: r = '$' :: '{' :: '{' :: r'
      · obtain ⟨r', he⟩ := h
        obtain ⟨ts, h1, h2, h3⟩ := ih r'.length (by rw [he]; simp; omega) r' rfl
        rw [he, escapeAll_braces]
        refine ⟨.esc :: ts, .esc h1, ?_, h3⟩
        intro val
        simp only [render]
        rw [h2 val]; rfl
      · obtain ⟨ts, h1, h2, h3⟩ := ih r.length (by simp) r rfl
        rw [escapeAll_chr h]
        -- the escaped rest starts with `{` only if the rest does
        have hb : ∀ r'', escapeAll r = '{' :: r'' → ∃ q, r = '{' :: q ∧ r'' = escapeAll q := by
          intro r'' hr
          cases r with
          | nil => simp [escapeAll] at hr
          | cons d q =>
            by_cases hq : ∃ q', d :: q = '$' :: '{' :: '{' :: q'
            · obtain ⟨q', hq⟩ := hq
              rw [hq, escapeAll_braces] at hr
              simp [escape] at hr
            · rw [escapeAll_chr hq] at hr
              simp at hr
              exact ⟨q, by rw [hr.1], hr.2.symm⟩
        have hno : ∀ q, ¬ (c = '$' ∧ escapeAll r = '{' :: '{' :: q) := by
          rintro q ⟨rfl, hq⟩
          obtain ⟨q1, hr1, hq1⟩ := hb _ hq
          cases q1 with
          | nil => simp [escapeAll] at hq1
          | cons d q2 =>
            have : d = '{' := by
              by_cases hd : ∃ q', d :: q2 = '$' :: '{' :: '{' :: q'
              · obtain ⟨q', hd⟩ := hd
                rw [hd, escapeAll_braces] at hq1
                simp [escape] at hq1
              · rw [escapeAll_chr hd] at hq1
                simp at hq1
                exact hq1.1.symm
            subst this
            exact h ⟨q2, by rw [hr1]⟩
        by_cases hesc : ∃ r', c :: escapeAll r = escape ++ r'
        · -- `$` followed by an escaped `${{`: reads as an escape preceded by nothing
          obtain ⟨r', he⟩ := hesc
          have he' : c = '$' ∧ escapeAll r = '$' :: '{' :: '{' :: r' := by
            have : escape ++ r' = '$' :: '$' :: '{' :: '{' :: r' := rfl
            rw [this] at he
            simpa using he
          exfalso
          -- escapeAll never produces `$` followed by `{{` without a second `$`
          obtain ⟨-, h5⟩ := he'
          cases r with
          | nil => simp [escapeAll] at h5
          | cons d q =>
            by_cases hq : ∃ q', d :: q = '$' :: '{' :: '{' :: q'
            · obtain ⟨q', hq⟩ := hq
              rw [hq, escapeAll_braces] at h5
              simp [escape] at h5
            · rw [escapeAll_chr hq] at h5
              simp at h5
              obtain ⟨rfl, h6⟩ := h5
              -- q starts with {{ by the same argument
              have hb' : ∀ (q r'' : Str), escapeAll q = '{' :: r'' →
                  ∃ q1, q = '{' :: q1 ∧ r'' = escapeAll q1 := by
                intro q r'' hr
                cases q with
                | nil => simp [escapeAll] at hr
                | cons d q =>
                  by_cases hq : ∃ q', d :: q = '$' :: '{' :: '{' :: q'
                  · obtain ⟨q', hq⟩ := hq
                    rw [hq, escapeAll_braces] at hr
                    simp [escape] at hr
                  · rw [escapeAll_chr hq] at hr
                    simp at hr
                    exact ⟨q, by rw [hr.1], hr.2.symm⟩
              obtain ⟨q1, hq1, h7⟩ := hb' q _ h6
              obtain ⟨q2, hq2, h8⟩ := hb' q1 _ h7.symm
              exact hq ⟨q2, by rw [hq1, hq2]⟩
        · refine ⟨.chr c :: ts, .chr hesc ?_ h1, ?_, h3⟩
          · rintro ⟨t, n, r', ht, he⟩
            obtain ⟨q, rfl⟩ := isRef_ne_nil ht
            simp at he
            exact hno _ he
          · intro val
            simp only [render]
            rw [h2 val]; rfl

theorem escapeAll_noNul {s : Str} (h : NoNul s) : NoNul (escapeAll s) := by
  unfold NoNul at *
  fun_induction escapeAll s with
  | case1 r ih =>
    simp only [List.mem_append, not_or]
    refine ⟨by decide, ih (fun hm => h (by simp [hm]))⟩
  | case2 c r _ ih =>
    simp only [List.mem_cons, not_or] at h ⊢
    exact ⟨h.1, ih h.2⟩
  | case3 => simp

/-- C03. Escaping every `${{` of a text and expanding gives the text back. -/
theorem C03_escape_roundtrip (ctx : Ctx) (s : Str) (hs : NoNul s) :
    interpolate (escapeAll s) ctx = .ok s := by
  obtain ⟨ts, h1, h2, h3⟩ := reads_escapeAll s
  refine (C01_interpolate_single_pass ctx _ ts h1 (escapeAll_noNul hs) ?_ s).mpr (h2 _)
  intro n v hn
  rw [h3] at hn
  simp at hn

example : NoNul "$${{ a }} ${{ b }}".toList ∧
    escapeAll "$${{ a }} ${{ b }}".toList = "$$${{ a }} $${{ b }}".toList := by
  unfold NoNul; decide

end Bab
