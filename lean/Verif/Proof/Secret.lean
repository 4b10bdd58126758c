import Verif.Spec.Secret
import Verif.Proof.ResolveVars
import Verif.Props.Interpolate
import Verif.Proof.RenRun
/-
Two executions that differ in the answers to some questions go on in step.
-/

namespace Bab
open Spec Spec.Secret

namespace Secret

/-- the same variables, with the same values apart from those in the set -/
def Alike (S : Str → Prop) (m m' : GoMap Str) : Prop :=
  ∀ x, (m.get? x).isSome = (m'.get? x).isSome ∧ (¬ S x → m.get? x = m'.get? x)

variable {S : Str → Prop}

theorem Alike.refl (m : GoMap Str) : Alike S m m := fun _ => ⟨rfl, fun _ => rfl⟩

theorem Alike.set {m m' : GoMap Str} (h : Alike S m m') {k v v' : Str} (hv : ¬ S k → v = v') :
    Alike S (m.set k v) (m'.set k v') := by
  intro x
  simp only [GoMap.get?_set]
  by_cases e : k = x
  · subst e
    simp only [if_true]
    exact ⟨rfl, fun hs => by rw [hv hs]⟩
  · simp only [if_neg e]
    exact h x

/-! ### texts -/

theorem interpolate_uses {raw : Str} {m m' : GoMap Str} {env : Str → Option Str}
    (h : ∀ n, Uses raw n → ¬ IsEnv n → m.get? n = m'.get? n) :
    interpolate raw ⟨m, env⟩ = interpolate raw ⟨m', env⟩ := by
  obtain ⟨ts, hts⟩ := reads_exists raw
  have : substRefs (resolveVar ⟨m, env⟩) 0 (replaceEscapes raw)
      = substRefs (resolveVar ⟨m', env⟩) 0 (replaceEscapes raw) := by
    apply substRefs_congr
    intro n hn
    rw [extract_replaceEscapes hts] at hn
    rw [resolveVar_value, resolveVar_value]
    by_cases he : IsEnv n
    · obtain ⟨x, rfl⟩ := he
      rw [value_env, value_env]
    · rw [value_var _ _ he, value_var _ _ he]
      simp only
      rw [h n ⟨ts, hts, hn⟩ he]
  unfold interpolate interpolateFull
  simp only [this]

theorem clear_interpolate {m m' : GoMap Str} (h : Alike S m m') {t : Str} (ht : Clear S t) (env : Str → Option Str) :
    interpolate t ⟨m, env⟩ = interpolate t ⟨m', env⟩ :=
  interpolate_uses fun n hn he => (h n).2 (ht n hn he)

theorem value_none {m m' : GoMap Str} (h : Alike S m m') (env : Str → Option Str) (n : Str) :
    value m.get? env n = none ↔ value m'.get? env n = none := by
  by_cases he : IsEnv n
  · obtain ⟨x, rfl⟩ := he
    rw [value_env, value_env]
  · rw [value_var _ _ he, value_var _ _ he]
    have := (h n).1
    cases h1 : m.get? n <;> cases h2 : m'.get? n <;> simp_all

theorem interpolate_error {m m' : GoMap Str} (h : Alike S m m') (env : Str → Option Str) (t : Str) (e : Err) :
    interpolate t ⟨m, env⟩ = .error e ↔ interpolate t ⟨m', env⟩ = .error e := by
  obtain ⟨ts, hr⟩ := reads_exists t
  rw [C02_interpolate_error_iff _ t ts hr, C02_interpolate_error_iff _ t ts hr]
  unfold FirstUndefined
  simp only [ne_eq, value_none h env]

/-- both fail in the same way, or both succeed with related results -/
inductive Both {α : Type} (R : α → α → Prop) : Except Err α → Except Err α → Prop
  | error (e) : Both R (.error e) (.error e)
  | ok {x y} (h : R x y) : Both R (.ok x) (.ok y)

theorem interpolate_both {m m' : GoMap Str} (h : Alike S m m') (env : Str → Option Str) (t : Str) :
    Both (fun _ _ => True) (interpolate t ⟨m, env⟩) (interpolate t ⟨m', env⟩) := by
  cases h1 : interpolate t ⟨m, env⟩ with
  | error e => rw [(interpolate_error h env t e).mp h1]; exact .error e
  | ok x =>
    cases h2 : interpolate t ⟨m', env⟩ with
    | error e => rw [(interpolate_error h env t e).mpr h2] at h1; cases h1
    | ok y => exact .ok trivial

theorem clear_env {m m' : GoMap Str} (h : Alike S m m') (env : Str → Option Str) {l : GoMap Str} (hl : ∀ p ∈ l, Clear S p.2) :
    interpolateEnv ⟨m, env⟩ l = interpolateEnv ⟨m', env⟩ l := by
  induction l with
  | nil => rfl
  | cons q l ih =>
    obtain ⟨k, v⟩ := q
    simp only [interpolateEnv]
    rw [clear_interpolate h (hl _ List.mem_cons_self), ih fun p hp => hl p (List.mem_cons_of_mem _ hp)]

theorem env_both {m m' : GoMap Str} (h : Alike S m m') (env : Str → Option Str) (l : GoMap Str) :
    Both (fun a b : GoMap Str => a.keys = b.keys) (interpolateEnv ⟨m, env⟩ l) (interpolateEnv ⟨m', env⟩ l) := by
  induction l with
  | nil => exact .ok rfl
  | cons q l ih =>
    obtain ⟨k, v⟩ := q
    simp only [interpolateEnv]
    have hb := interpolate_both h env v
    revert hb
    generalize interpolate v ⟨m, env⟩ = a
    generalize interpolate v ⟨m', env⟩ = b
    rintro (e | -)
    · exact .error e
    · revert ih
      generalize interpolateEnv ⟨m, env⟩ l = a
      generalize interpolateEnv ⟨m', env⟩ l = b
      rintro (e | hk)
      · exact .error e
      · exact .ok (by simp only [GoMap.keys, List.map_cons] at hk ⊢; rw [hk])

theorem clear_list {m m' : GoMap Str} (h : Alike S m m') (env : Str → Option Str) {l : List Str} (hl : ∀ t ∈ l, Clear S t) :
    interpolateList ⟨m, env⟩ l = interpolateList ⟨m', env⟩ l := by
  induction l with
  | nil => rfl
  | cons s l ih =>
    simp only [interpolateList]
    rw [clear_interpolate h (hl _ List.mem_cons_self), ih fun p hp => hl p (List.mem_cons_of_mem _ hp)]

theorem clear_opt {m m' : GoMap Str} (h : Alike S m m') (env : Str → Option Str) {t : Str} (ht : Clear S t) :
    interpolateOpt ⟨m, env⟩ t = interpolateOpt ⟨m', env⟩ t := by
  unfold interpolateOpt
  rw [clear_interpolate h ht]

theorem clear_prompt {m m' : GoMap Str} (h : Alike S m m') (env : Str → Option Str) {p : PromptRun} (hp : ClearItem S (.prompt p)) :
    interpolatePrompt p ⟨m, env⟩ = interpolatePrompt p ⟨m', env⟩ := by
  obtain ⟨-, h1, h2, h3, h4, h5⟩ := hp
  unfold interpolatePrompt
  rw [clear_interpolate h h1, clear_opt h env h2, clear_opt h env h3, clear_list h env h4, clear_list h env h5]

theorem prompt_name {p q : PromptRun} {x : Ctx} (h : interpolatePrompt p x = .ok q) : q.prompt = p.prompt := by
  unfold interpolatePrompt at h
  simp only [Bind.bind, Except.bind, Pure.pure, Except.pure] at h
  repeat' split at h
  all_goals first | cases h; done | (cases h; rfl)

theorem clear_evaluate {m m' : GoMap Str} (h : Alike S m m') (env : Str → Option Str) {t : Str} (ht : Clear S t) :
    evaluate t ⟨m, env⟩ = evaluate t ⟨m', env⟩ := by
  unfold evaluate
  rw [clear_interpolate h ht]

theorem clear_dir {c : Cfg} {T : Task} {d : Str} (h1 : Clear S d) (h2 : Clear S T.dir) (h3 : Clear S c.globalDir)
    {m m' : GoMap Str} (h : Alike S m m') (env : Str → Option Str) :
    resolveDir c T d ⟨m, env⟩ = resolveDir c T d ⟨m', env⟩ := by
  unfold resolveDir
  dsimp only
  have hx : Clear S (if (if d = [] then T.dir else d) = [] then c.globalDir else if d = [] then T.dir else d) := by
    have h4 : Clear S (if d = [] then T.dir else d) := by
      split
      · exact h2
      · exact h1
    generalize (if d = [] then T.dir else d) = e at h4
    split
    · exact h3
    · exact h4
  rw [clear_interpolate h hx]

/-! ### the variables of a task -/

/-- the two resolutions are at the same point -/
structure RAlike (S : Str → Prop) (s s' : RState) : Prop where
  resolved : Alike S s.resolved s'.resolved
  set : s.resolvedSet = s'.resolvedSet
  resolving : s.resolving = s'.resolving
  stack : s.stack = s'.stack

abbrev OneRel (S : Str → Prop) (n : Str) : Except Err (Str × RState) → Except Err (Str × RState) → Prop :=
  Both fun a b => (¬ S n → a.1 = b.1) ∧ RAlike S a.2 b.2

theorem refs_both {vars : GoMap Str} {one one' : Str → RState → Except Err (Str × RState)}
    (ho : ∀ n s s', RAlike S s s' → OneRel S n (one n s) (one' n s')) (l : List Str) {s s' : RState} (h : RAlike S s s') :
    Both (RAlike S) (resolveRefs vars one l s) (resolveRefs vars one' l s') := by
  induction l generalizing s s' with
  | nil => exact .ok h
  | cons r l ih =>
    unfold resolveRefs
    split
    · exact ih h
    · split
      · have := ho r s s' h
        revert this
        generalize one r s = a
        generalize one' r s' = b
        rintro (e | hk)
        · exact .error e
        · rename_i x y
          obtain ⟨v, t⟩ := x
          obtain ⟨v', t'⟩ := y
          exact ih ⟨hk.2.resolved.set hk.1, by rw [show t.resolvedSet = t'.resolvedSet from hk.2.set], hk.2.resolving, hk.2.stack⟩
      · exact ih h

theorem one_both {vars parent parent' : GoMap Str} {env : Str → Option Str} (hp : Alike S parent parent')
    (hv : ∀ k raw, vars.get? k = some raw → ¬ S k → Clear S raw) (fuel : Nat) (n : Str) (s s' : RState) (h : RAlike S s s') :
    OneRel S n (resolveOne vars parent env fuel n s) (resolveOne vars parent' env fuel n s') := by
  induction fuel generalizing n s s' with
  | zero => exact .error _
  | succ fuel ih =>
    unfold resolveOne
    rw [h.set, h.resolving, h.stack]
    split
    · exact .ok ⟨fun hs => by simp only [(h.resolved n).2 hs], h⟩
    · split
      · exact .error _
      · cases hg : vars.get? n with
        | none =>
          dsimp only
          have h1 := (hp n).1
          have h2 := (hp n).2
          cases h3 : parent.get? n <;> cases h4 : parent'.get? n <;> simp_all
          · exact .error _
          · exact .ok ⟨fun hs => h2 hs, h⟩
        | some raw =>
          dsimp only
          have hr := refs_both (vars := vars) ih (extractVarRefs 0 raw) (s := { s with resolving := n :: s'.resolving, stack := s'.stack ++ [n] })
            (s' := { s' with resolving := n :: s'.resolving, stack := s'.stack ++ [n] }) ⟨h.resolved, h.set, rfl, rfl⟩
          rw [h.set] at hr
          revert hr
          generalize resolveRefs vars (resolveOne vars parent env fuel) (extractVarRefs 0 raw) _ = a
          generalize resolveRefs vars (resolveOne vars parent' env fuel) (extractVarRefs 0 raw) _ = b
          rintro (e | hk)
          · exact .error e
          · rename_i x y
            dsimp only
            have hi := interpolate_both hk.resolved env raw
            have hc : ¬ S n → interpolate raw ⟨x.resolved, env⟩ = interpolate raw ⟨y.resolved, env⟩ :=
              fun hs => clear_interpolate hk.resolved (hv n raw hg hs) env
            revert hi hc
            generalize interpolate raw ⟨x.resolved, env⟩ = a
            generalize interpolate raw ⟨y.resolved, env⟩ = b
            rintro (e | -) hc
            · exact .error e
            · have hc : ¬ S n → _ = _ := fun hs => Except.ok.inj (hc hs)
              refine .ok ⟨hc, hk.resolved.set hc, ?_, ?_, ?_⟩
              · simp only [hk.set]
              · simp only [hk.resolving]
              · simp only [hk.stack]

theorem vars_both {vars : Option (GoMap Str)} {parent parent' : GoMap Str} {env : Str → Option Str} (hp : Alike S parent parent')
    (hv : ∀ k raw, (vars.getD []).get? k = some raw → ¬ S k → Clear S raw) :
    Both (Alike S) (resolveVars vars parent env) (resolveVars vars parent' env) := by
  unfold resolveVars
  cases vars with
  | none => exact .ok hp
  | some vars =>
    dsimp only
    have key : ∀ (l : List Str) (s s' : RState), RAlike S s s' →
        Both (RAlike S) (resolveAll (resolveOne vars parent env (vars.length + 1)) l s)
          (resolveAll (resolveOne vars parent' env (vars.length + 1)) l s') := by
      intro l
      induction l with
      | nil => exact fun s s' h => .ok h
      | cons n l ih =>
        intro s s' h
        unfold resolveAll
        have := one_both (vars := vars) (env := env) hp hv (vars.length + 1) n s s' h
        revert this
        generalize resolveOne vars parent env (vars.length + 1) n s = a
        generalize resolveOne vars parent' env (vars.length + 1) n s' = b
        rintro (e | hk)
        · exact .error e
        · exact ih _ _ hk.2
    have := key vars.keys ⟨parent, [], [], []⟩ ⟨parent', [], [], []⟩ ⟨hp, rfl, rfl, rfl⟩
    revert this
    generalize resolveAll (resolveOne vars parent env (vars.length + 1)) vars.keys _ = a
    generalize resolveAll (resolveOne vars parent' env (vars.length + 1)) vars.keys _ = b
    rintro (e | hk)
    · exact .error e
    · exact .ok hk.resolved

end Secret
end Bab
