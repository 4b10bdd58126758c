import Verif.Proof.RenRun
import Verif.Proof.Command
import Verif.Proof.Cli
import Verif.Props.ResolveVars
/-
Resolving the variables of a file first and then those of a task gives the same as resolving them together, if no
variable of the file is defined by means of a variable of the task. The tasks of an included file as seen by the runner.
-/

namespace Bab
open Spec

/-- the values satisfy the definitions -/
structure Solves (vars parent : GoMap Str) (env : Str → Option Str) (m : GoMap Str) : Prop where
  val : ∀ k raw, vars.get? k = some raw → ∃ v, interpolate raw ⟨m, env⟩ = .ok v ∧ m.get? k = some v
  rest : ∀ k, vars.get? k = none → m.get? k = parent.get? k

theorem solves_unique {vars parent m m' : GoMap Str} {env : Str → Option Str} (h : Solves vars parent env m)
    (h' : Solves vars parent env m') {l : List Str} (ht : Topo (DependsOn vars.get?) l) (hl : ∀ k, vars.get? k ≠ none → k ∈ l) :
    MapEq m m' := by
  have key : ∀ k ∈ l, vars.get? k ≠ none → m.get? k = m'.get? k := by
    clear hl
    induction l with
    | nil => intro k hk; cases hk
    | cons a l ih =>
      intro k hk hv
      rcases List.mem_cons.mp hk with rfl | hk
      · obtain ⟨raw, hraw⟩ := Option.ne_none_iff_exists'.mp hv
        obtain ⟨v, h1, h2⟩ := h.val k raw hraw
        obtain ⟨v', h1', h2'⟩ := h'.val k raw hraw
        have : interpolate raw ⟨m, env⟩ = interpolate raw ⟨m', env⟩ := by
          apply interpolate_congr
          intro n hn hne
          by_cases hnv : vars.get? n = none
          · rw [h.rest n hnv, h'.rest n hnv]
          · exact ih ht.2 n (ht.1 n ⟨raw, hraw, hn, hne, hnv⟩) hnv
        rw [h1, h1'] at this
        cases this
        rw [h2, h2']
      · exact ih ht.2 k hk hv
  intro k
  by_cases hv : vars.get? k = none
  · rw [h.rest k hv, h'.rest k hv]
  · exact key k (hl k hv) hv

theorem resolve_solves {vars parent m : GoMap Str} {env : Str → Option Str} (h : resolveVars (some vars) parent env = .ok m) :
    Solves vars parent env m ∧ ∃ l, Topo (DependsOn vars.get?) l ∧ ∀ k, vars.get? k ≠ none → k ∈ l := by
  have hs := resolveVars_spec vars parent env
  rw [h] at hs
  exact ⟨⟨hs.1, hs.2.1⟩, hs.2.2⟩

theorem resolve_error {vars parent : GoMap Str} {env : Str → Option Str} {e : Err} (h : resolveVars (some vars) parent env = .error e) :
    VarErr e := by
  rcases C05_resolveVars_error_kind _ _ _ _ h with ⟨n, c, he, -⟩ | ⟨n, he, -⟩
  · exact Or.inl ⟨n, c, he⟩
  · exact Or.inr ⟨n, he⟩

/-- resolution succeeds exactly if nothing is wrong -/
theorem resolve_ok_iff (vars parent : GoMap Str) (env : Str → Option Str) :
    (∃ m, resolveVars (some vars) parent env = .ok m) ↔
      ¬ HasCycle (DependsOn vars.get?) ∧ ¬ ∃ n, Undefined vars.get? parent.get? n := by
  rw [← not_or, ← C05_resolveVars_error_iff vars parent env]
  cases resolveVars (some vars) parent env <;> simp

theorem path_mono {α : Type} {E F : α → α → Prop} (h : ∀ a b, E a b → F a b) {l : List α} (hp : Path E l) : Path F l := by
  induction hp with
  | one a => exact .one a
  | cons e _ ih => exact .cons (h _ _ e) ih

/-- a path that starts in a closed set stays there -/
theorem path_in {α : Type} {E F : α → α → Prop} {S : α → Prop} (h : ∀ a b, S a → E a b → S b ∧ F a b) {l : List α} (hp : Path E l) :
    ∀ a r, l = a :: r → S a → Path F l ∧ ∀ x ∈ l, S x := by
  induction hp with
  | one a =>
    intro a' r he ha
    cases he
    exact ⟨.one a, by simpa using ha⟩
  | @cons a b l e _ ih =>
    intro a' r he ha
    cases he
    obtain ⟨hb, hf⟩ := h _ _ ha e
    obtain ⟨h1, h2⟩ := ih _ _ rfl hb
    refine ⟨.cons hf h1, ?_⟩
    intro x hx
    rcases List.mem_cons.mp hx with rfl | hx
    · exact ha
    · exact h2 x hx

/-- if the last node is not in a closed set then no node is -/
theorem path_out {α : Type} {E F : α → α → Prop} {S : α → Prop} (h : ∀ a b, S a → E a b → S b) (hF : ∀ a b, ¬ S b → E a b → F a b)
    {l : List α} (hp : Path E l) : ∀ r a, l = r ++ [a] → ¬ S a → Path F l ∧ ∀ x ∈ l, ¬ S x := by
  induction hp with
  | one a =>
    intro r a' he ha
    cases r with
    | nil => simp only [List.nil_append, List.cons.injEq, and_true] at he; subst he; exact ⟨.one _, by simpa using ha⟩
    | cons x r => simp at he
  | @cons a b l e _ ih =>
    intro r a' he ha
    cases r with
    | nil => simp at he
    | cons x r =>
      simp only [List.cons_append, List.cons.injEq] at he
      obtain ⟨h1, h2⟩ := ih r a' he.2 ha
      have hb : ¬ S b := h2 b (by simp)
      refine ⟨.cons (hF _ _ hb e) h1, ?_⟩
      intro y hy
      rcases List.mem_cons.mp hy with rfl | hy
      · exact fun hs => hb (h _ _ hs e)
      · exact h2 y hy

section
variable {F V G : GoMap Str} {env : Str → Option Str} {M : GoMap Str}
  (hM : ∀ k, M.get? k = (V.get? k).or (F.get? k))
  (hF : resolveVars (some F) [] env = .ok G)
  (hfree : ∀ k raw x, F.get? k = some raw → V.get? k = none → Mentions raw x → ¬ IsEnv x → V.get? x = none)
include hM hF hfree

omit hF in
theorem layer_dep {a b : Str} (h : DependsOn M.get? a b) :
    (V.get? a = none → V.get? b = none ∧ DependsOn F.get? a b) ∧ (V.get? b ≠ none → DependsOn V.get? a b) := by
  obtain ⟨raw, h1, h2, h3, h4⟩ := h
  rw [hM] at h1 h4
  have key : V.get? a = none → V.get? b = none ∧ DependsOn F.get? a b := by
    intro ha
    rw [ha, Option.none_or] at h1
    have hb := hfree a raw b h1 ha h2 h3
    refine ⟨hb, raw, h1, h2, h3, ?_⟩
    rw [hb, Option.none_or] at h4
    exact h4
  refine ⟨key, fun hb => ?_⟩
  have ha : V.get? a ≠ none := fun ha => hb (key ha).1
  obtain ⟨x, hx⟩ := Option.ne_none_iff_exists'.mp ha
  rw [hx, Option.some_or] at h1
  cases h1
  exact ⟨_, hx, h2, h3, hb⟩

/-- the two layers can be resolved exactly if everything together can be -/
theorem layer_ok : (∃ m, resolveVars (some V) G env = .ok m) ↔ ∃ m, resolveVars (some M) [] env = .ok m := by
  obtain ⟨hs, -⟩ := resolve_solves hF
  have hFok := (resolve_ok_iff F [] env).mp ⟨G, hF⟩
  have hG : ∀ n, G.get? n = none ↔ F.get? n = none := by
    intro n
    constructor
    · intro h
      by_contra hn
      obtain ⟨raw, hraw⟩ := Option.ne_none_iff_exists'.mp hn
      obtain ⟨v, -, hv⟩ := hs.val n raw hraw
      rw [h] at hv; cases hv
    · intro h; rw [hs.rest n h]; rfl
  rw [resolve_ok_iff, resolve_ok_iff]
  apply and_congr
  · rw [not_iff_not]
    constructor
    · rintro ⟨a, l, hp⟩
      refine ⟨a, l, path_mono ?_ hp⟩
      rintro x y ⟨raw, h1, h2, h3, h4⟩
      refine ⟨raw, by rw [hM, h1]; rfl, h2, h3, ?_⟩
      rw [hM]
      obtain ⟨v, hv⟩ := Option.ne_none_iff_exists'.mp h4
      rw [hv]; simp
    · rintro ⟨a, l, hp⟩
      by_cases ha : V.get? a = none
      · exfalso
        apply hFok.1
        exact ⟨a, l, (path_in (S := fun x => V.get? x = none) (fun x y hx e => (layer_dep hM hfree e).1 hx) hp _ _ rfl ha).1⟩
      · refine ⟨a, l, (path_out (S := fun x => V.get? x = none) (fun x y hx e => ((layer_dep hM hfree e).1 hx).1)
          (fun x y hy e => (layer_dep hM hfree e).2 hy) hp (a :: l) a rfl ha).1⟩
  · rw [not_iff_not]
    constructor
    · rintro ⟨n, ⟨k, raw, h1, h2⟩, h3, h4, h5⟩
      refine ⟨n, ⟨k, raw, by rw [hM, h1]; rfl, h2⟩, h3, ?_, rfl⟩
      rw [hM, h4, (hG n).mp h5]; rfl
    · rintro ⟨n, ⟨k, raw, h1, h2⟩, h3, h4, -⟩
      rw [hM] at h1 h4
      have hv : V.get? n = none := by
        by_contra h
        obtain ⟨v, hv⟩ := Option.ne_none_iff_exists'.mp h
        rw [hv] at h4; simp at h4
      rw [hv, Option.none_or] at h4
      cases hk : V.get? k with
      | some v =>
        rw [hk, Option.some_or] at h1
        cases h1
        exact ⟨n, ⟨k, _, hk, h2⟩, h3, hv, (hG n).mpr h4⟩
      | none =>
        rw [hk, Option.none_or] at h1
        exact absurd ⟨n, ⟨k, raw, h1, h2⟩, h3, h4, rfl⟩ hFok.2

/-- and then gives the same -/
theorem layer_eq {m m' : GoMap Str} (h : resolveVars (some V) G env = .ok m) (h' : resolveVars (some M) [] env = .ok m') : MapEq m m' := by
  obtain ⟨hs, -⟩ := resolve_solves hF
  obtain ⟨h1, -⟩ := resolve_solves h
  obtain ⟨h2, l, ht, hl⟩ := resolve_solves h'
  refine solves_unique ⟨?_, ?_⟩ h2 ht hl
  · intro k raw hk
    rw [hM] at hk
    cases hv : V.get? k with
    | some x =>
      rw [hv, Option.some_or] at hk
      cases hk
      exact h1.val k _ hv
    | none =>
      rw [hv, Option.none_or] at hk
      obtain ⟨v, g1, g2⟩ := hs.val k raw hk
      refine ⟨v, ?_, by rw [h1.rest k hv]; exact g2⟩
      rw [← g1]
      apply interpolate_congr
      intro n hn hne
      exact h1.rest n (hfree k raw n hk hv hn hne)
  · intro k hk
    rw [hM] at hk
    have hv : V.get? k = none := by
      by_contra h
      obtain ⟨v, hv⟩ := Option.ne_none_iff_exists'.mp h
      rw [hv] at hk; simp at hk
    rw [hv, Option.none_or] at hk
    rw [h1.rest k hv, hs.rest k hk]

end

/-- resolving nothing -/
theorem resolve_empty (parent : GoMap Str) (env : Str → Option Str) : resolveVars (some []) parent env = .ok parent := rfl

theorem resolve_getD {v : Option (GoMap Str)} {env : Str → Option Str} {G : GoMap Str} (h : resolveVars v [] env = .ok G) :
    resolveVars (some (v.getD [])) [] env = .ok G := by
  cases v with
  | none => exact h
  | some v => exact h

theorem foldl_set_fresh (l acc : GoMap Str) (h : (GoMap.keys (acc ++ l)).Nodup) :
    l.foldl (fun a p => GoMap.set a p.1 p.2) acc = acc ++ l := by
  induction l generalizing acc with
  | nil => simp
  | cons q l ih =>
    have hset : ∀ a : GoMap Str, q.1 ∉ GoMap.keys a → GoMap.set a q.1 q.2 = a ++ [q] := by
      intro a ha
      induction a with
      | nil => rfl
      | cons x a iha =>
        obtain ⟨x1, x2⟩ := x
        simp only [GoMap.keys, List.map_cons, List.mem_cons, not_or] at ha
        rw [GoMap.set, if_neg (fun e => ha.1 e.symm), iha ha.2]
        rfl
    rw [List.foldl_cons, hset]
    · rw [ih]
      · simp
      · simpa using h
    · intro hm
      unfold GoMap.keys at h hm
      rw [List.map_append, List.nodup_append] at h
      exact h.2.2 _ hm q.1 (by simp) rfl

theorem merge_empty {m : GoMap Str} (h : m.WF) : mergeEnvMaps [[], m] = m := by
  unfold mergeEnvMaps
  simp only [List.foldl_cons, List.foldl_nil]
  rw [foldl_set_fresh]
  · rfl
  · exact h

/-- the included task means the same as the task where it comes from -/
theorem included_rel {b : Schema} {c c' : Cfg} {G : GoMap Str} {T : Task} {ns n : Str} (hb : GoMap.WF (b.vars.getD []))
    (hT : GoMap.WF (T.vars.getD [])) (hn : T.name = n) (hp : Portable b T)
    (hG : resolveVars b.vars [] c.env = .ok G)
    (g1 : c.globalEnv = b.env) (g2 : c.globalSilent = b.silent) (g3 : c.globalOutput = b.output) (g4 : c.globalDir = b.dir)
    (e1 : c'.globalEnv = []) (e2 : c'.globalSilent = none) (e3 : c'.globalOutput = none) (e4 : c'.globalDir = []) :
    Ren.TRel (nsName ns) c c' G [] T (includedTask ns (settings b) n T) where
  name := by rw [hn]; rfl
  source := rfl
  dir := by
    rw [e4, g4]
    show (if (if T.dir = [] then b.dir else T.dir) = [] then [] else if T.dir = [] then b.dir else T.dir) = _
    generalize (if T.dir = [] then b.dir else T.dir) = d
    split
    · rename_i h; exact h.symm
    · rfl
  silent := by
    rw [e2, g2]
    show firstNonNil [(if T.silent = none then b.silent else T.silent), none] = _
    cases T.silent <;> cases b.silent <;> rfl
  output := by
    rw [e3, g3]
    show firstNonNil [(if T.output = none then b.output else T.output), none] = _
    cases T.output <;> cases b.output <;> rfl
  line := rfl
  cond := rfl
  holds := by
    intro _
    have : interpolate T.cond ⟨[], c.env⟩ = interpolate T.cond ⟨G, c.env⟩ := by
      apply interpolate_congr
      intro x hx he
      rw [(resolve_solves (resolve_getD hG)).1.rest x (hp.cond x hx he)]
    unfold evaluate
    rw [this]
  deps := rfl
  run := by
    show prefixTaskRuns ns T.run = _
    rw [prefixTaskRuns_eq, hp.blocks]
  env := by
    rw [e1, g1]
    show mergeEnvMaps [[], mergeEnvMaps [b.env, T.env]] = _
    rw [merge_empty (WF_mergeEnvMaps _)]
  own := by simp [includedTask]
  vars := by
    have hM : ∀ k, GoMap.get? (mergeEnvMaps [b.vars.getD [], T.vars.getD []]) k = ((T.vars.getD []).get? k).or ((b.vars.getD []).get? k) :=
      fun k => get?_mergeEnvMaps_two hb hT k
    have hV : ∃ r, resolveVars T.vars G c.env = r ∧ resolveVars (some (T.vars.getD [])) G c.env = r := by
      cases T.vars with
      | none => exact ⟨_, rfl, resolve_empty _ _⟩
      | some v => exact ⟨_, rfl, rfl⟩
    obtain ⟨r, h1, h2⟩ := hV
    have hok := layer_ok hM (resolve_getD hG) hp.free
    show (∃ m m', resolveVars T.vars G c.env = .ok m ∧
      resolveVars (some (mergeEnvMaps [b.vars.getD [], T.vars.getD []])) [] c.env = .ok m' ∧ MapEq m m') ∨ ∃ e e',
        resolveVars T.vars G c.env = .error e ∧ resolveVars (some (mergeEnvMaps [b.vars.getD [], T.vars.getD []])) [] c.env = .error e' ∧ _
    cases hr : resolveVars (some (mergeEnvMaps [b.vars.getD [], T.vars.getD []])) [] c.env with
    | ok m' =>
      obtain ⟨m, hm⟩ := hok.mpr ⟨m', hr⟩
      left
      exact ⟨m, m', by rw [h1, ← h2, hm], rfl, layer_eq hM (resolve_getD hG) hp.free hm hr⟩
    | error e' =>
      right
      cases hd : resolveVars (some (T.vars.getD [])) G c.env with
      | ok m =>
        obtain ⟨m', hm'⟩ := hok.mp ⟨m, hd⟩
        rw [hr] at hm'; cases hm'
      | error e => exact ⟨e, e', by rw [h1, ← h2, hd], rfl, .defs (resolve_error hd) (resolve_error hr)⟩
  asks := hp.asks

end Bab
