import Verif.Proof.ResolveVars
import Verif.Props.Interpolate
/-
Properties C04-C07: resolution of `vars` blocks.
-/

namespace Bab
open Spec

theorem render_congr {val val' : Str → Option Str} {ts : List Tok}
    (h : ∀ n ∈ refs ts, val n = val' n) : render val ts = render val' ts := by
  induction ts with
  | nil => rfl
  | cons t ts ih =>
    cases t with
    | chr c => simp only [render]; rw [ih h]
    | esc => simp only [render]; rw [ih h]
    | ref n =>
      simp only [render]
      rw [ih (fun m hm => h m (by simp [refs, hm])), h n (by simp [refs])]

theorem render_noNul {val : Str → Option Str} {ts : List Tok} {o : Str}
    (hc : ∀ t ∈ ts, ∀ c, t = .chr c → c ≠ '\x00')
    (hv : ∀ n v, n ∈ refs ts → val n = some v → NoNul v) (h : render val ts = some o) :
    NoNul o := by
  unfold NoNul at *
  induction ts generalizing o with
  | nil => simp [render] at h; subst h; simp
  | cons t ts ih =>
    have hc' : ∀ t ∈ ts, ∀ c, t = .chr c → c ≠ '\x00' := fun t ht => hc t (by simp [ht])
    cases t with
    | chr c =>
      simp only [render, Option.map_eq_some_iff] at h
      obtain ⟨o', h1, rfl⟩ := h
      simp only [List.mem_cons, not_or]
      exact ⟨(hc (.chr c) (by simp) c rfl).symm, ih hc' hv h1⟩
    | esc =>
      simp only [render, Option.map_eq_some_iff] at h
      obtain ⟨o', h1, rfl⟩ := h
      simp only [List.mem_append, not_or]
      exact ⟨by decide, ih hc' hv h1⟩
    | ref n =>
      simp only [render] at h
      split at h
      · rename_i v o' h1 h2
        cases h
        simp only [List.mem_append, not_or]
        exact ⟨hv n v (by simp [refs]) h1,
          ih hc' (fun m w hm hw => hv m w (by simp [refs, hm]) hw) h2⟩
      · cases h

/-- values of a resolved map contain no NUL if definitions, parent and environment do not -/
theorem resolved_noNul {vars parent m : GoMap Str} {env : Str → Option Str}
    (hraw : ∀ k raw, vars.get? k = some raw → NoNul raw)
    (hpar : ∀ k v, parent.get? k = some v → NoNul v) (henv : ∀ k v, env k = some v → NoNul v)
    (h1 : ∀ k raw, vars.get? k = some raw →
      ∃ v, interpolate raw ⟨m, env⟩ = .ok v ∧ m.get? k = some v)
    (h2 : ∀ k, vars.get? k = none → m.get? k = parent.get? k)
    {l : List Str} (ht : Topo (DependsOn vars.get?) l) :
    ∀ k ∈ l, ∀ v, m.get? k = some v → NoNul v := by
  induction l with
  | nil => simp
  | cons a l ih =>
    intro k hk v hv
    rcases List.mem_cons.mp hk with h | h
    · subst h
      cases hr : vars.get? k with
      | none => exact hpar k v (by rw [← h2 k hr]; exact hv)
      | some raw =>
        obtain ⟨w, hw1, hw2⟩ := h1 k raw hr
        rw [hv] at hw2; cases hw2
        obtain ⟨ts, hts⟩ := reads_exists raw
        have hvals : ∀ n v, n ∈ refs ts → value m.get? env n = some v → NoNul v := by
          intro n w hn hw
          by_cases he : IsEnv n
          · obtain ⟨x, rfl⟩ := he
            rw [value_env] at hw
            cases hx : env x with
            | none => rw [hx] at hw; simp at hw; rw [hw]; simp [NoNul]
            | some y => rw [hx] at hw; simp at hw; rw [← hw]; exact henv x y hx
          · rw [value_var _ _ he] at hw
            cases hvn : vars.get? n with
            | none => exact hpar n w (by rw [← h2 n hvn]; exact hw)
            | some raw' =>
              exact ih ht.2 n (ht.1 n ⟨raw, hr, reads_refs_mentions hts n hn, he,
                by rw [hvn]; simp⟩) w hw
        have := (C01_interpolate_single_pass ⟨m, env⟩ raw ts hts (hraw k raw hr) hvals v).mp hw1
        refine render_noNul ?_ hvals this
        intro t ht' c hc h0
        have := reads_chr_mem hts t ht' c hc
        rw [h0] at this
        exact hraw k raw hr this
    · exact ih ht.2 k h v hv

/-- C04. A successfully resolved `vars` block is a solution of its own equations, and the only
one. -/
theorem C04_resolveVars_unique_solution (vars parent m : GoMap Str) (env : Str → Option Str)
    (hraw : ∀ k raw, vars.get? k = some raw → NoNul raw)
    (hpar : ∀ k v, parent.get? k = some v → NoNul v) (henv : ∀ k v, env k = some v → NoNul v)
    (h : resolveVars (some vars) parent env = .ok m) :
    Solution vars.get? parent.get? env m.get? ∧
    ∀ m', Solution vars.get? parent.get? env m' → ∀ k, m' k = m.get? k := by
  have hs := resolveVars_spec vars parent env
  rw [h] at hs
  obtain ⟨h1, h2, l, ht, hl⟩ := hs
  have hnn := resolved_noNul hraw hpar henv h1 h2 ht
  have hvals : ∀ n v, value m.get? env n = some v → NoNul v := by
    intro n w hw
    by_cases he : IsEnv n
    · obtain ⟨x, rfl⟩ := he
      rw [value_env] at hw
      cases hx : env x with
      | none => rw [hx] at hw; simp at hw; rw [hw]; simp [NoNul]
      | some y => rw [hx] at hw; simp at hw; rw [← hw]; exact henv x y hx
    · rw [value_var _ _ he] at hw
      cases hvn : vars.get? n with
      | none => exact hpar n w (by rw [← h2 n hvn]; exact hw)
      | some raw' => exact hnn n (hl n (by rw [hvn]; simp)) w hw
  have hrender : ∀ k raw, vars.get? k = some raw → ∀ ts, Reads raw ts →
      ∃ v, render (value m.get? env) ts = some v ∧ m.get? k = some v := by
    intro k raw hr ts hts
    obtain ⟨v, hv1, hv2⟩ := h1 k raw hr
    exact ⟨v, (C01_interpolate_single_pass ⟨m, env⟩ raw ts hts (hraw k raw hr)
      (fun n v _ hv => hvals n v hv) v).mp hv1, hv2⟩
  refine ⟨⟨?_, h2⟩, ?_⟩
  · intro k raw hr
    obtain ⟨ts, hts⟩ := reads_exists raw
    obtain ⟨v, hv1, hv2⟩ := hrender k raw hr ts hts
    exact ⟨ts, v, hts, hv1, hv2⟩
  · rintro m' ⟨g1, g2⟩
    have key : ∀ l, Topo (DependsOn vars.get?) l → ∀ k ∈ l, m' k = m.get? k := by
      intro l ht
      induction l with
      | nil => simp
      | cons a l ih =>
        intro k hk
        rcases List.mem_cons.mp hk with hka | hkl
        · subst hka
          cases hr : vars.get? k with
          | none => rw [g2 k hr, h2 k hr]
          | some raw =>
            obtain ⟨ts, v, hts, hv1, hv2⟩ := g1 k raw hr
            obtain ⟨w, hw1, hw2⟩ := hrender k raw hr ts hts
            have : render (value m' env) ts = render (value m.get? env) ts := by
              apply render_congr
              intro n hn
              by_cases he : IsEnv n
              · obtain ⟨x, rfl⟩ := he; rw [value_env, value_env]
              · rw [value_var _ _ he, value_var _ _ he]
                cases hvn : vars.get? n with
                | none => rw [g2 n hvn, h2 n hvn]
                | some raw' =>
                  exact ih ht.2 n (ht.1 n ⟨raw, hr, reads_refs_mentions hts n hn, he,
                    by rw [hvn]; simp⟩)
            rw [this, hw1] at hv1
            rw [hv2, hw2, hv1]
        · exact ih ht.2 k hkl
    intro k
    cases hr : vars.get? k with
    | none => rw [g2 k hr, h2 k hr]
    | some raw => exact key l ht k (hl k (by rw [hr]; simp))

/-- a two-level block, listed in the wrong order, resolves; the hypotheses of C04 hold for it -/
example : resolveVars (some [("b".toList, "${{ a }}/${{ p }}".toList), ("a".toList, "x".toList)])
    [("p".toList, "q".toList), ("a".toList, "old".toList)] (fun _ => none)
    = .ok [("p".toList, "q".toList), ("a".toList, "x".toList), ("b".toList, "x/q".toList)] := by
  decide

/-- C05. Resolution fails exactly on a reference cycle or on a reference to an undefined name. -/
theorem C05_resolveVars_error_iff (vars parent : GoMap Str) (env : Str → Option Str) :
    (∃ e, resolveVars (some vars) parent env = .error e) ↔
      HasCycle (DependsOn vars.get?) ∨ ∃ n, Undefined vars.get? parent.get? n := by
  have hs := resolveVars_spec vars parent env
  constructor
  · rintro ⟨e, he⟩
    rw [he] at hs
    rcases hs with ⟨n, c, _, hl⟩ | ⟨n, _, hu⟩
    · exact Or.inl hl.hasCycle
    · exact Or.inr ⟨n, hu⟩
  · intro h
    cases hr : resolveVars (some vars) parent env with
    | error e => exact ⟨e, rfl⟩
    | ok m =>
      exfalso
      rw [hr] at hs
      obtain ⟨h1, h2, l, ht, hl⟩ := hs
      rcases h with ⟨a, p, hp⟩ | ⟨n, ⟨k, raw, hk, ts, hts, hn⟩, hne, hv, hpn⟩
      · have ha : a ∈ l := by
          generalize hq : p ++ [a] = q at hp
          cases hp with
          | one => simp at hq
          | cons e _ =>
            obtain ⟨raw, hraw, _⟩ := e
            exact hl a (by rw [hraw]; simp)
        exact ht.no_cycle ha hp
      · obtain ⟨v, hv1, _⟩ := h1 k raw hk
        have hnone : value m.get? env n = none := by
          rw [value_var _ _ hne, h2 n hv, hpn]
        have : ∃ e, interpolate raw ⟨m, env⟩ = .error e := by
          have hex : ∀ ns : List Str, n ∈ ns →
              ∃ x a b, ns = a ++ x :: b ∧ value m.get? env x = none ∧
                ∀ y ∈ a, value m.get? env y ≠ none := by
            intro ns
            induction ns with
            | nil => simp
            | cons z ns ih =>
              intro hm
              cases hz : value m.get? env z with
              | none => exact ⟨z, [], ns, rfl, hz, by simp⟩
              | some w =>
                rcases List.mem_cons.mp hm with h | h
                · rw [← h, hnone] at hz; cases hz
                · obtain ⟨x, a, b, e1, e2, e3⟩ := ih h
                  refine ⟨x, z :: a, b, by rw [e1]; rfl, e2, ?_⟩
                  intro y hy
                  rcases List.mem_cons.mp hy with h' | h'
                  · subst h'; rw [hz]; simp
                  · exact e3 y h'
          obtain ⟨x, a, b, e1, e2, e3⟩ := hex (refs ts) hn
          exact ⟨_, (C02_interpolate_error_iff ⟨m, env⟩ raw ts hts (.varNotFound x)).mpr
            ⟨x, rfl, a, b, e1, e2, e3⟩⟩
        obtain ⟨e, he⟩ := this
        rw [hv1] at he; cases he

/-- C05, what is reported: a cycle error carries a real path that returns to one of its nodes; a
not-found error names an undefined variable that some definition uses. In particular resolution
never runs out of fuel, i.e. it terminates. -/
theorem C05_resolveVars_error_kind (vars parent : GoMap Str) (env : Str → Option Str) (e : Err)
    (h : resolveVars (some vars) parent env = .error e) :
    (∃ n c, e = .varCycle n c ∧ Path (DependsOn vars.get?) c ∧ ∃ l a, c = l ++ [a] ∧ a ∈ l) ∨
    (∃ n, e = .varNotFound n ∧ Undefined vars.get? parent.get? n) := by
  have hs := resolveVars_spec vars parent env
  rw [h] at hs
  exact hs

example : resolveVars (some [("x".toList, "${{ a }}".toList), ("a".toList, "${{b}}".toList),
      ("b".toList, "-${{ a }}-".toList)]) [] (fun _ => none)
    = .error (.varCycle "a".toList ["x".toList, "a".toList, "b".toList, "a".toList]) := by decide

example : resolveVars (some [("x".toList, "${{ nope }}".toList)]) [("y".toList, [])] (fun _ => none)
    = .error (.varNotFound "nope".toList) := by decide

/-- solutions in terms of `interpolate` agree on a topologically sorted list -/
theorem interp_solution_unique {vars vars' parent m m' : GoMap Str} {env : Str → Option Str}
    (hvv : ∀ k, vars.get? k = vars'.get? k)
    (h1 : ∀ k raw, vars.get? k = some raw →
      ∃ v, interpolate raw ⟨m, env⟩ = .ok v ∧ m.get? k = some v)
    (h2 : ∀ k, vars.get? k = none → m.get? k = parent.get? k)
    (g1 : ∀ k raw, vars'.get? k = some raw →
      ∃ v, interpolate raw ⟨m', env⟩ = .ok v ∧ m'.get? k = some v)
    (g2 : ∀ k, vars'.get? k = none → m'.get? k = parent.get? k)
    {l : List Str} (ht : Topo (DependsOn vars.get?) l) : ∀ k ∈ l, m'.get? k = m.get? k := by
  induction l with
  | nil => simp
  | cons a l ih =>
    intro k hk
    rcases List.mem_cons.mp hk with hka | hkl
    · subst hka
      cases hr : vars.get? k with
      | none => rw [h2 k hr, g2 k (by rw [← hvv]; exact hr)]
      | some raw =>
        obtain ⟨v, hv1, hv2⟩ := h1 k raw hr
        obtain ⟨w, hw1, hw2⟩ := g1 k raw (by rw [← hvv]; exact hr)
        have : interpolate raw ⟨m', env⟩ = interpolate raw ⟨m, env⟩ := by
          apply interpolate_congr
          intro n hmn he
          cases hvn : vars.get? n with
          | none => rw [h2 n hvn, g2 n (by rw [← hvv]; exact hvn)]
          | some raw' => exact ih ht.2 n (ht.1 n ⟨raw, hr, hmn, he, by rw [hvn]; simp⟩)
        rw [this, hv1] at hw1
        cases hw1
        rw [hv2, hw2]
    · exact ih ht.2 k hkl

/-- C06. Success and all resolved values are the same for every iteration order of the
definitions. -/
theorem C06_resolveVars_order_independent (vars vars' parent : GoMap Str)
    (env : Str → Option Str) (hwf : vars.WF) (hp : vars.Perm vars') :
    (∃ m m', resolveVars (some vars) parent env = .ok m ∧
      resolveVars (some vars') parent env = .ok m' ∧ ∀ k, m.get? k = m'.get? k) ∨
    (∃ e e', resolveVars (some vars) parent env = .error e ∧
      resolveVars (some vars') parent env = .error e') := by
  have hvv : ∀ k, vars.get? k = vars'.get? k := GoMap.get?_perm hwf hp
  have hfun : vars.get? = vars'.get? := funext hvv
  have e1 := C05_resolveVars_error_iff vars parent env
  have e2 := C05_resolveVars_error_iff vars' parent env
  rw [← hfun, ← e1] at e2
  have hs := resolveVars_spec vars parent env
  have hs' := resolveVars_spec vars' parent env
  cases hr : resolveVars (some vars) parent env with
  | error e =>
    obtain ⟨e', he'⟩ := e2.mpr ⟨e, hr⟩
    exact Or.inr ⟨e, e', rfl, he'⟩
  | ok m =>
    cases hr' : resolveVars (some vars') parent env with
    | error e' =>
      obtain ⟨e, he⟩ := e2.mp ⟨e', hr'⟩
      rw [hr] at he; cases he
    | ok m' =>
      left
      rw [hr] at hs
      rw [hr'] at hs'
      obtain ⟨h1, h2, l, ht, hl⟩ := hs
      obtain ⟨g1, g2, _⟩ := hs'
      refine ⟨m, m', rfl, rfl, ?_⟩
      intro k
      cases hk : vars.get? k with
      | none => rw [h2 k hk, g2 k (by rw [← hvv]; exact hk)]
      | some raw =>
        exact (interp_solution_unique hvv h1 h2 g1 g2 ht k (hl k (by rw [hk]; simp))).symm

example : ∃ vars vars' : GoMap Str, vars.WF ∧ vars.Perm vars' ∧ vars ≠ vars' :=
  ⟨[("b".toList, "${{ a }}".toList), ("a".toList, "x".toList)],
   [("a".toList, "x".toList), ("b".toList, "${{ a }}".toList)],
   by unfold GoMap.WF GoMap.keys; decide, List.Perm.swap _ _ _, by decide⟩

/-- the reference graph that a reader of the documentation expects: escaped references do not
count -/
def Spec.ReallyDependsOn (vars : Str → Option Str) (a b : Str) : Prop :=
  ∃ raw, vars a = some raw ∧ Uses raw b ∧ ¬ IsEnv b ∧ vars b ≠ none

theorem reads_plain {c : Char} {r : Str} {ts : List Tok} (hc : c ≠ '$') (h : Reads r ts) :
    Reads (c :: r) (.chr c :: ts) :=
  .chr (not_escape_of_ne hc)
    (by rintro ⟨t, n, r', ht, he⟩
        obtain ⟨q, rfl⟩ := isRef_ne_nil ht
        simp at he
        exact hc he.1) h

/-- C07 fails in the code: a variable that only contains its own name inside an escape is rejected
as a cycle, although no variable really depends on anything and nothing is undefined. -/
theorem C07_escaped_reference_fails :
    ∃ vars : GoMap Str, (¬ HasCycle (ReallyDependsOn vars.get?)) ∧
      (¬ ∃ n, Undefined vars.get? (GoMap.get? []) n) ∧
      ∃ n c, resolveVars (some vars) [] (fun _ => none) = .error (.varCycle n c) := by
  have hreads : Reads "$${{a}}".toList [.esc, .chr 'a', .chr '}', .chr '}'] := by
    have e : "$${{a}}".toList = escape ++ ['a', '}', '}'] := by decide
    rw [e]
    exact .esc (reads_plain (by decide) (reads_plain (by decide) (reads_plain (by decide) .nil)))
  have hnouse : ∀ k raw n, GoMap.get? [("a".toList, "$${{a}}".toList)] k = some raw → ¬ Uses raw n := by
    rintro k raw n hk ⟨ts, hts, hn⟩
    simp only [GoMap.get?] at hk
    split at hk
    · cases hk
      rw [reads_unique hts hreads] at hn
      simp [refs] at hn
    · cases hk
  refine ⟨[("a".toList, "$${{a}}".toList)], ?_, ?_, "a".toList, ["a".toList, "a".toList], by decide⟩
  · rintro ⟨a, l, hp⟩
    generalize hq : l ++ [a] = q at hp
    cases hp with
    | one => simp at hq
    | cons e _ =>
      obtain ⟨raw, hraw, hu, _⟩ := e
      exact hnouse _ raw _ hraw hu
  · rintro ⟨n, ⟨k, raw, hk, hu⟩, _⟩
    exact hnouse k raw n hk hu

/-- C07, partial: if no definition mentions a variable inside an escape (every mention is a use),
a failure is due to a real cycle or a really undefined name. What is missing for the full claim:
definitions with references inside escapes, for which the code is wrong (witness above). -/
theorem C07_no_spurious_cycle_partial (vars parent : GoMap Str) (env : Str → Option Str)
    (hesc : ∀ k raw n, vars.get? k = some raw → Mentions raw n → Uses raw n) :
    (∃ e, resolveVars (some vars) parent env = .error e) ↔
      HasCycle (ReallyDependsOn vars.get?) ∨ ∃ n, Undefined vars.get? parent.get? n := by
  rw [C05_resolveVars_error_iff]
  have : DependsOn vars.get? = ReallyDependsOn vars.get? := by
    funext a b
    apply propext
    constructor
    · rintro ⟨raw, h1, h2, h3, h4⟩; exact ⟨raw, h1, hesc a raw b h1 h2, h3, h4⟩
    · rintro ⟨raw, h1, ⟨ts, hts, hn⟩, h3, h4⟩
      exact ⟨raw, h1, reads_refs_mentions hts b hn, h3, h4⟩
  rw [this]

/-- the hypothesis holds for a block with a reference and a plain definition -/
example : ∀ k raw n, GoMap.get? [("b".toList, "${{a}}".toList), ("a".toList, [])] k = some raw →
    Mentions raw n → Uses raw n := by
  intro k raw n hk hm
  have href : IsRef "${{a}}".toList "a".toList :=
    ⟨[], [], rfl, ⟨'a', [], rfl, by unfold Letter; decide, by simp⟩, by simp, by simp⟩
  rw [← mem_extract_iff] at hm
  simp only [GoMap.get?] at hk
  split at hk
  · cases hk
    have : extractVarRefs 0 "${{a}}".toList = ["a".toList] := by decide
    rw [this] at hm
    simp at hm
    subst hm
    exact ⟨_, by simpa using Reads.ref href .nil, by simp [refs]⟩
  · split at hk
    · cases hk; simp [extractVarRefs] at hm
    · cases hk

end Bab
