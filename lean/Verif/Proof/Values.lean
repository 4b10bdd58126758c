import Verif.Spec.Values
import Verif.Proof.ResolveVars
import Verif.Proof.SecretRun
import Verif.Props.ResolveVars
import Verif.Props.Deps
/-
Lemmas for C116.
-/

namespace Bab
open Spec Spec.Values

namespace Values

section
variable {c : Cfg} {m m' : GoMap Str}

theorem on_symm {t : Str} (h : On m m' t) : On m' m t := fun x h1 h2 => (h x h1 h2).symm

theorem on_interpolate {t : Str} {env : Str → Option Str} (h : On m m' t) : interpolate t ⟨m, env⟩ = interpolate t ⟨m', env⟩ := interpolate_congr h

theorem on_evaluate {t : Str} {env : Str → Option Str} (h : On m m' t) : evaluate t ⟨m, env⟩ = evaluate t ⟨m', env⟩ := by
  unfold evaluate
  rw [on_interpolate h]

theorem on_env {l : GoMap Str} {env : Str → Option Str} (h : ∀ p ∈ l, On m m' p.2) : interpolateEnv ⟨m, env⟩ l = interpolateEnv ⟨m', env⟩ l := by
  induction l with
  | nil => rfl
  | cons q l ih =>
    obtain ⟨k, v⟩ := q
    simp only [interpolateEnv]
    rw [on_interpolate (h (k, v) (by simp)), ih fun p hp => h p (by simp [hp])]

theorem on_dir {T : Task} {d : Str} {env : Str → Option Str} (h1 : On m m' d) (h2 : On m m' T.dir) (h3 : On m m' c.globalDir) :
    resolveDir c T d ⟨m, env⟩ = resolveDir c T d ⟨m', env⟩ := by
  unfold resolveDir
  dsimp only
  have hx : On m m' (if (if d = [] then T.dir else d) = [] then c.globalDir else if d = [] then T.dir else d) := by
    split_ifs
    · exact h3
    · exact h2
    · exact h1
  rw [on_interpolate hx]

theorem mem_two {a b : GoMap Str} {q : Str × Str} (h : q ∈ mergeEnvMaps [a, b]) : q ∈ a ∨ q ∈ b := by
  obtain ⟨l, hl, hq⟩ := Secret.mem_merge h
  simp only [List.mem_cons, List.not_mem_nil, or_false] at hl
  rcases hl with rfl | rfl
  · exact .inl hq
  · exact .inr hq

theorem on_merge {T : Task} {v : CommandRun} {tenv : GoMap Str} (hT : OnTask c T m m') (hv : OnCommand m m' v)
    (ht : interpolateEnv ⟨m, c.env⟩ (mergeEnvMaps [c.globalEnv, T.env]) = .ok tenv) : ∀ p ∈ mergeEnvMaps [tenv, v.env], On m m' p.2 := by
  intro p hp
  obtain ⟨l, hl, hp'⟩ := Secret.mem_merge hp
  simp only [List.mem_cons, List.not_mem_nil, or_false] at hl
  rcases hl with rfl | rfl
  · exact hT.again _ ht p hp'
  · exact hv.2.2 p hp'

theorem on_ready {T : Task} {v : CommandRun} {tenv : GoMap Str} {text : Str} (hT : OnTask c T m m') (hv : OnCommand m m' v)
    (ht : interpolateEnv ⟨m, c.env⟩ (mergeEnvMaps [c.globalEnv, T.env]) = .ok tenv) : CmdReady c T v tenv m text ↔ CmdReady c T v tenv m' text := by
  unfold CmdReady
  rw [on_interpolate hv.1, on_env (on_merge hT hv ht), on_dir hv.2.1 hT.dir hT.globalDir]

theorem on_prepare {T : Task} {v : CommandRun} {tenv : GoMap Str} (hT : OnTask c T m m') (hv : OnCommand m m' v)
    (ht : interpolateEnv ⟨m, c.env⟩ (mergeEnvMaps [c.globalEnv, T.env]) = .ok tenv) : prepareCommand c T v tenv m = prepareCommand c T v tenv m' := by
  unfold prepareCommand
  rw [on_interpolate hv.1, on_env (on_merge hT hv ht), on_dir hv.2.1 hT.dir hT.globalDir]

end

section
variable {c : Cfg} {tasks tasks' : TaskMap} {g g' : GoMap Str} {main : Str}

/-- what the values agree on at the place of an item -/
def OnPlace (m m' : GoMap Str) (l : Loc) (it : RunItem) : Prop :=
  (l.sub = none → OnItem m m' it) ∧ (∀ v, it = .command v → OnCommand m m' v) ∧ ∀ l, it = .log l → On m m' l.log

theorem onPlace_of {l : Loc} {it : RunItem} {m m' : GoMap Str} (h : OnItem m m' it) : OnPlace m m' l it := by
  refine ⟨fun _ => h, ?_, ?_⟩
  · rintro v rfl; exact h.2
  · rintro l rfl; exact h.2

theorem due_of (hf : Follows c g g' tasks tasks') {th : Thing} (h : Spec.Due c tasks g main th) :
    match th with
    | .task k => Spec.Due c tasks' g' main (.task k)
    | .item l it m => ∃ m' U, Spec.Due c tasks' g' main (.item l it m') ∧ tasks.get? l.task = some U ∧ OnTask c U m m' ∧ OnPlace m m' l it := by
  induction h with
  | main => exact .main
  | dep _ h2 h3 h4 ih =>
    obtain ⟨vs, k1, k2, -⟩ := hf _ _ h2
    exact .dep ih k1 (show evaluate _ _ = _ by rw [← on_evaluate k2]; exact h3) h4
  | item _ h2 h3 h4 h5 h6 h7 ih =>
    obtain ⟨vs, k1, k2, k3⟩ := hf _ _ h2
    obtain ⟨m', r1, r2⟩ := k3 _ h4
    have hi := r2.run _ (List.mem_of_getElem? h5)
    exact ⟨m', _, .item ih k1 (show evaluate _ _ = _ by rw [← on_evaluate k2]; exact h3) r1 h5 h6
      (show evaluate _ _ = _ by rw [← on_evaluate hi.1]; exact h7), h2, r2, onPlace_of hi⟩
  | sub _ h2 ih =>
    obtain ⟨m', U, r1, r2, r3, r4⟩ := ih
    refine ⟨m', U, .sub r1 h2, r2, r3, nofun, ?_, ?_⟩
    · rintro v rfl
      exact (r4.1 rfl).2.1 v (List.mem_of_getElem? h2)
    · rintro l rfl
      exact (r4.1 rfl).2.2 l (List.mem_of_getElem? h2)
  | call _ ih =>
    obtain ⟨m', U, r1, -⟩ := ih
    exact .call r1
  | ahead _ h2 h3 ih =>
    obtain ⟨m', U, r1, -⟩ := ih
    obtain ⟨vs, k1, -⟩ := hf _ _ h2
    exact .ahead r1 k1 h3

theorem entry_of (hf : Follows c g g' tasks tasks') {e : PlanEntry} (h : DueEntry c tasks g main e) : DueEntry c tasks' g' main e := by
  cases h with
  | cmd h1 h2 =>
    obtain ⟨m', U, r1, -, -, r4⟩ := due_of hf h1
    exact .cmd r1 (by rw [← on_interpolate (r4.2.1 _ rfl).1]; exact h2)
  | log h1 h2 =>
    obtain ⟨m', U, r1, -, -, r4⟩ := due_of hf h1
    exact .log r1 (by rw [← on_interpolate (r4.2.2 _ rfl)]; exact h2)

theorem unasked (hs : Same c g g' tasks tasks') (hask : Unasked c tasks g main) : Unasked c tasks' g' main := by
  intro k U p hd hU hp
  obtain ⟨vs, k1, -⟩ := hs.2 _ _ hU
  exact hask k _ p (due_of hs.2 hd) k1 hp

/-- the environment of a task comes out the same -/
theorem tenv_eq {T : Task} {m m' : GoMap Str} (hT : OnTask c T m m') :
    interpolateEnv ⟨m, c.env⟩ (mergeEnvMaps [c.globalEnv, T.env]) = interpolateEnv ⟨m', c.env⟩ (mergeEnvMaps [c.globalEnv, T.env]) := on_env hT.env

theorem taskWorks_of (hf : Follows c g g' tasks tasks') {k : Str} (h : Works c tasks g (.task k)) : Works c tasks' g' (.task k) := by
  obtain ⟨U, hU, hw⟩ := h
  obtain ⟨vs, k1, k2, k3⟩ := hf _ _ hU
  refine ⟨_, k1, ?_, fun hc hne => ?_⟩
  · rintro ⟨e, he⟩
    exact hw.cond ⟨e, by rw [on_evaluate k2]; exact he⟩
  · obtain ⟨m, tenv, h1, h2, h3, h4⟩ := hw.body (show evaluate _ _ = _ by rw [on_evaluate k2]; exact hc) hne
    obtain ⟨m', r1, r2⟩ := k3 m h1
    refine ⟨m', tenv, r1, by rw [← tenv_eq r2]; exact h2, h3, fun it hit hp => ?_⟩
    rintro ⟨e, he⟩
    exact h4 it hit hp ⟨e, by rw [on_evaluate (r2.run it hit).1]; exact he⟩

theorem works_of (hf : Follows c g g' tasks tasks') (hf' : Follows c g' g tasks' tasks)
    (hall : ∀ y, Spec.Due c tasks g main y → Works c tasks g y) (y : Thing) (hy : Spec.Due c tasks' g' main y) : Works c tasks' g' y := by
  cases y with
  | task k => exact taskWorks_of hf (hall _ (due_of hf' hy))
  | item l it m' =>
    obtain ⟨m, U', r1, r2, r3, r4⟩ := due_of hf' hy
    have hw := hall _ r1
    cases it with
    | command v =>
      obtain ⟨U, tenv, text, h1, h2, h3⟩ := hw
      obtain ⟨vs, k1, -⟩ := hf' _ _ r2
      rw [h1] at k1; cases k1
      have ht : interpolateEnv ⟨m', c.env⟩ (mergeEnvMaps [c.globalEnv, U'.env]) = .ok tenv := by rw [tenv_eq r3]; exact h2
      refine ⟨U', tenv, text, r2, ht, ?_⟩
      rw [on_ready r3 (r4.2.1 v rfl) ht]
      exact h3
    | log lg =>
      obtain ⟨text, h⟩ := hw
      exact ⟨text, by rw [on_interpolate (r4.2.2 lg rfl)]; exact h⟩
    | _ => exact hw

theorem refers_of (hf : Follows c g g' tasks tasks') {a b : Str} (h : Refers tasks a b) : Refers tasks' a b := by
  obtain ⟨U, hU, h⟩ := h
  obtain ⟨vs, k1, -⟩ := hf _ _ hU
  exact ⟨_, k1, h⟩

end

section
variable {V V' g g' : GoMap Str} {env : Str → Option Str} {x raw v : Str}

/-- the path does not lead through `x`, from which nothing goes on -/
theorem path_avoids {E E' : Str → Str → Prop} (hx : ∀ b, ¬ E' x b) (hE : ∀ a b, E' a b → a ≠ x → b ≠ x → E a b) {l : List Str} (h : Path E' l)
    {a : Str} (hl : l.getLast? = some a) (ha : a ≠ x) : Path E l := by
  induction h with
  | one b => exact .one b
  | @cons b d l e hp ih =>
    have hl' : (d :: l).getLast? = some a := by simpa using hl
    have hd : d ≠ x := by
      rintro rfl
      cases hp with
      | one => simp at hl'; exact ha hl'.symm
      | cons e _ => exact hx _ e
    have hb : b ≠ x := by rintro rfl; exact hx _ e
    exact .cons (hE _ _ e hb hd) (ih hl')

theorem cycle_avoids {E E' : Str → Str → Prop} (hx : ∀ b, ¬ E' x b) (hE : ∀ a b, E' a b → a ≠ x → b ≠ x → E a b) (h : HasCycle E') : HasCycle E := by
  obtain ⟨a, l, h⟩ := h
  have ha : a ≠ x := by
    rintro rfl
    cases l with
    | nil => cases h with | cons e _ => exact hx _ e
    | cons b l => cases h with | cons e _ => exact hx _ e
  exact ⟨a, l, path_avoids hx hE h (show ((a :: l) ++ [a]).getLast? = some a from List.getLast?_concat ..) ha⟩

theorem cycle_mono {E E' : Str → Str → Prop} (hE : ∀ a b, E a b → E' a b) (h : HasCycle E) : HasCycle E' := by
  obtain ⟨a, l, h⟩ := h
  refine ⟨a, l, ?_⟩
  generalize a :: (l ++ [a]) = q at h
  induction h with
  | one b => exact .one b
  | cons e _ ih => exact .cons (hE _ _ e) ih

theorem not_error {r : Except Err (GoMap Str)} (h : ¬ ∃ e, r = .error e) : ∃ m, r = .ok m := by
  cases r with
  | ok m => exact ⟨m, rfl⟩
  | error e => exact (h ⟨e, rfl⟩).elim

theorem resolves_iff : (∃ m, resolveVars (some V) g env = .ok m) ↔ ¬ HasCycle (DependsOn V.get?) ∧ ¬ ∃ n, Undefined V.get? g.get? n := by
  rw [← not_or, ← C05_resolveVars_error_iff V g env]
  constructor
  · rintro ⟨m, h⟩ ⟨e, he⟩
    rw [h] at he; cases he
  · exact not_error

/-- a text that comes out uses only what is defined -/
theorem uses_defined {m : GoMap Str} (h : interpolate raw ⟨m, env⟩ = .ok v) {n : Str} (hn : Uses raw n) (he : ¬ IsEnv n) : m.get? n ≠ none := by
  intro hno
  obtain ⟨ts, hr, hmem⟩ := hn
  have hnone : value m.get? env n = none := by rw [value_var _ _ he]; exact hno
  have : ∃ n', FirstUndefined (value m.get? env) ts n' := by
    clear hr
    have key : ∀ l : List Str, n ∈ l → ∃ a n' b, l = a ++ n' :: b ∧ value m.get? env n' = none ∧ ∀ k ∈ a, value m.get? env k ≠ none := by
      intro l
      induction l with
      | nil => intro h; cases h
      | cons k l ih =>
        intro hk
        by_cases hv : value m.get? env k = none
        · exact ⟨[], k, l, rfl, hv, by simp⟩
        · rcases List.mem_cons.mp hk with rfl | hk
          · exact absurd hnone hv
          · obtain ⟨a, n', b, rfl, h1, h2⟩ := ih hk
            refine ⟨k :: a, n', b, rfl, h1, fun y hy => ?_⟩
            rcases List.mem_cons.mp hy with rfl | hy
            · exact hv
            · exact h2 y hy
    obtain ⟨a, n', b, h1, h2, h3⟩ := key _ hmem
    exact ⟨n', a, b, h1, h2, h3⟩
  obtain ⟨n', hn'⟩ := this
  have := (C02_interpolate_error_iff ⟨m, env⟩ raw ts hr (.varNotFound n')).mpr ⟨n', rfl, hn'⟩
  rw [h] at this; cases this

/-- Definitions that are worked out with `g` and with `g'`, which agree on what they mention. -/
theorem other_parent (h : ∀ k r y, V.get? k = some r → Mentions r y → ¬ IsEnv y → V.get? y = none → g.get? y = g'.get? y) {m : GoMap Str}
    (hm : resolveVars (some V) g env = .ok m) :
    ∃ m', resolveVars (some V) g' env = .ok m' ∧ ∀ k, V.get? k ≠ none ∨ g.get? k = g'.get? k → m.get? k = m'.get? k := by
  obtain ⟨h1, h2⟩ := resolves_iff.mp ⟨m, hm⟩
  have hok : ∃ m', resolveVars (some V) g' env = .ok m' := by
    refine resolves_iff.mpr ⟨h1, ?_⟩
    rintro ⟨n, ⟨k, r, hk, hu⟩, he, hn, hp⟩
    obtain ⟨ts, hr, hmem⟩ := hu
    have := h k r n hk (reads_refs_mentions hr n hmem) he hn
    exact h2 ⟨n, ⟨k, r, hk, ts, hr, hmem⟩, he, hn, this.trans hp⟩
  obtain ⟨m', hm'⟩ := hok
  refine ⟨m', hm', ?_⟩
  have s1 := resolveVars_spec V g env
  have s2 := resolveVars_spec V g' env
  rw [hm] at s1
  rw [hm'] at s2
  obtain ⟨a1, a2, l, ht, hl⟩ := s1
  obtain ⟨b1, b2, -⟩ := s2
  have key : ∀ l, Topo (DependsOn V.get?) l → ∀ k ∈ l, V.get? k ≠ none → m.get? k = m'.get? k := by
    intro l ht
    induction l with
    | nil => simp
    | cons a l ih =>
      intro k hk hv
      rcases List.mem_cons.mp hk with rfl | hk
      · obtain ⟨r, hr⟩ := Option.ne_none_iff_exists'.mp hv
        obtain ⟨w, w1, w2⟩ := a1 k r hr
        obtain ⟨w', w1', w2'⟩ := b1 k r hr
        rw [interpolate_congr (m' := m'), w1'] at w1
        · cases w1; rw [w2, w2']
        · intro n hn he
          by_cases hvn : V.get? n = none
          · rw [a2 n hvn, b2 n hvn]; exact h k r n hr hn he hvn
          · exact ih ht.2 n (ht.1 n ⟨r, hr, hn, he, hvn⟩) hvn
      · exact ih ht.2 k hk hv
  intro k hk
  by_cases hv : V.get? k = none
  · rw [a2 k hv, b2 k hv]
    exact hk.resolve_left (fun h => h hv)
  · exact key l ht k (hl k hv) hv

/-- The definition of `x` is taken over from the parents. -/
structure Taken (V g g' : GoMap Str) (env : Str → Option Str) (x raw v : Str) : Prop where
  free : V.get? x = none
  mentions : ∀ y, Mentions raw y → ¬ IsEnv y → V.get? y = none ∧ y ≠ x
  text : interpolate raw ⟨g, env⟩ = .ok v
  before : g.get? x = some v
  others : ∀ k, k ≠ x → g'.get? k = g.get? k

theorem set_get (k : Str) : (V.set x raw).get? k = if k = x then some raw else V.get? k := by
  rw [GoMap.get?_set]
  split_ifs with h1 h2 h2 <;> simp_all

theorem taken_edges (h : Taken V g g' env x raw v) :
    (∀ b, ¬ DependsOn (V.set x raw).get? x b) ∧ (∀ a b, DependsOn (V.set x raw).get? a b → a ≠ x → b ≠ x → DependsOn V.get? a b) ∧
    ∀ a b, DependsOn V.get? a b → DependsOn (V.set x raw).get? a b := by
  refine ⟨?_, ?_, ?_⟩
  · rintro b ⟨r, h1, h2, h3, h4⟩
    rw [set_get, if_pos rfl] at h1; cases h1
    obtain ⟨k1, k2⟩ := h.mentions b h2 h3
    rw [set_get, if_neg k2] at h4
    exact h4 k1
  · rintro a b ⟨r, h1, h2, h3, h4⟩ ha hb
    rw [set_get, if_neg ha] at h1
    rw [set_get, if_neg hb] at h4
    exact ⟨r, h1, h2, h3, h4⟩
  · rintro a b ⟨r, h1, h2, h3, h4⟩
    have ha : a ≠ x := by rintro rfl; rw [h.free] at h1; cases h1
    have hb : b ≠ x := by rintro rfl; exact h4 h.free
    exact ⟨r, by rw [set_get, if_neg ha]; exact h1, h2, h3, by rw [set_get, if_neg hb]; exact h4⟩

/-- the one can be worked out exactly if the other can -/
theorem taken_ok (h : Taken V g g' env x raw v) :
    (∃ m, resolveVars (some V) g env = .ok m) ↔ ∃ m', resolveVars (some (V.set x raw)) g' env = .ok m' := by
  obtain ⟨e1, e2, e3⟩ := taken_edges h
  rw [resolves_iff, resolves_iff]
  refine and_congr (not_congr ⟨cycle_mono e3, cycle_avoids e1 e2⟩) (not_congr ⟨?_, ?_⟩)
  · rintro ⟨n, ⟨k, r, hk, hu⟩, he, hn, hp⟩
    have hnx : n ≠ x := by rintro rfl; rw [h.before] at hp; cases hp
    have hkx : k ≠ x := by rintro rfl; rw [h.free] at hk; cases hk
    exact ⟨n, ⟨k, r, by rw [set_get, if_neg hkx]; exact hk, hu⟩, he, by rw [set_get, if_neg hnx]; exact hn, by rw [h.others n hnx]; exact hp⟩
  · rintro ⟨n, ⟨k, r, hk, hu⟩, he, hn, hp⟩
    have hnx : n ≠ x := by rintro rfl; rw [set_get, if_pos rfl] at hn; cases hn
    rw [set_get, if_neg hnx] at hn
    rw [h.others n hnx] at hp
    by_cases hkx : k = x
    · rw [set_get, if_pos hkx] at hk; cases hk
      exact (uses_defined h.text hu he hp).elim
    · rw [set_get, if_neg hkx] at hk
      exact ⟨n, ⟨k, r, hk, hu⟩, he, hn, hp⟩

/-- and the values are the same -/
theorem taken_same (h : Taken V g g' env x raw v) {m m' : GoMap Str} (hm : resolveVars (some V) g env = .ok m)
    (hm' : resolveVars (some (V.set x raw)) g' env = .ok m') (k : Str) : m.get? k = m'.get? k := by
  have s1 := resolveVars_spec V g env
  have s2 := resolveVars_spec (V.set x raw) g' env
  rw [hm] at s1
  rw [hm'] at s2
  obtain ⟨a1, a2, -⟩ := s1
  obtain ⟨b1, b2, l, ht, hl⟩ := s2
  have out : ∀ k, (V.set x raw).get? k = none → m.get? k = m'.get? k := by
    intro k hk
    rw [b2 k hk]
    rw [set_get] at hk
    split_ifs at hk with e
    rw [a2 k hk, h.others k e]
  have key : ∀ l, Topo (DependsOn (V.set x raw).get?) l → ∀ k ∈ l, m.get? k = m'.get? k := by
    intro l ht
    induction l with
    | nil => simp
    | cons a l ih =>
      intro k hk
      rcases List.mem_cons.mp hk with rfl | hk
      · by_cases hv : (V.set x raw).get? k = none
        · exact out k hv
        · obtain ⟨r, hr⟩ := Option.ne_none_iff_exists'.mp hv
          obtain ⟨w', w1', w2'⟩ := b1 k r hr
          by_cases e : k = x
          · subst e
            rw [set_get, if_pos rfl] at hr; cases hr
            rw [interpolate_congr (m' := g), h.text] at w1'
            · cases w1'; rw [w2', a2 _ h.free, h.before]
            · intro n hn he
              obtain ⟨k1, k2⟩ := h.mentions n hn he
              rw [b2 n (by rw [set_get, if_neg k2]; exact k1), h.others n k2]
          · have hr0 : V.get? k = some r := by rw [set_get, if_neg e] at hr; exact hr
            obtain ⟨w, w1, w2⟩ := a1 k r hr0
            rw [interpolate_congr (m' := m'), w1'] at w1
            · cases w1; rw [w2, w2']
            · intro n hn he
              by_cases hvn : (V.set x raw).get? n = none
              · exact out n hvn
              · exact ih ht.2 n (ht.1 n ⟨r, hr, hn, he, hvn⟩)
      · exact ih ht.2 k hk
  by_cases hv : (V.set x raw).get? k = none
  · exact out k hv
  · exact key l ht k (hl k hv)

end
end Values
end Bab
