import Verif.Props.Values
/-
C126: a variable that is not used can be removed.
-/

namespace Bab
open Spec Spec.Values

namespace Unused

section
variable {V W g : GoMap Str} {env : Str → Option Str} {x raw : Str}

/-- nodes that are reached are not `x` -/
theorem reached {E : Str → Str → Prop} (hx : ∀ a, ¬ E a x) {q : List Str} (h : Path E q) : ∀ y ∈ q.tail, y ≠ x := by
  induction h with
  | one => simp
  | @cons a b l e _ ih =>
    intro y hy
    rcases List.mem_cons.mp hy with rfl | hy
    · rintro rfl; exact hx _ e
    · exact ih y hy

theorem path_to {E E' : Str → Str → Prop} (hx : ∀ a, ¬ E' a x) (hE : ∀ a b, E' a b → a ≠ x → E a b) {q : List Str} (h : Path E' q) :
    (∀ y ∈ q.head?, y ≠ x) → Path E q := by
  induction h with
  | one b => exact fun _ => .one b
  | @cons a b l e _ ih =>
    intro ha
    refine .cons (hE _ _ e (ha a rfl)) (ih ?_)
    rintro y ⟨⟩ rfl
    exact hx _ e

theorem cycle_to {E E' : Str → Str → Prop} (hx : ∀ a, ¬ E' a x) (hE : ∀ a b, E' a b → a ≠ x → E a b) (h : HasCycle E') : HasCycle E := by
  obtain ⟨a, l, h⟩ := h
  have ha : a ≠ x := reached hx h a (by simp)
  exact ⟨a, l, path_to hx hE h (by rintro y ⟨⟩; exact ha)⟩

/-- `W` defines `x` besides, which makes sense, and no other definition says anything of it -/
structure Idle (V W g : GoMap Str) (x raw : Str) : Prop where
  more : ∀ k, W.get? k = if k = x then some raw else V.get? k
  free : V.get? x = none
  others : ∀ k r, V.get? k = some r → ¬ Mentions r x
  self : ¬ Mentions raw x
  known : ∀ y, Uses raw y → ¬ IsEnv y → V.get? y ≠ none ∨ g.get? y ≠ none

theorem idle_ok (h : Idle V W g x raw) : (∃ m, resolveVars (some V) g env = .ok m) ↔ ∃ m', resolveVars (some W) g env = .ok m' := by
  have into : ∀ a, ¬ DependsOn W.get? a x := by
    rintro a ⟨r, h1, h2, -, -⟩
    rw [h.more] at h1
    split_ifs at h1 with e
    · cases h1; exact h.self h2
    · exact h.others a r h1 h2
  have back : ∀ a b, DependsOn W.get? a b → a ≠ x → DependsOn V.get? a b := by
    intro a b hab ha
    have hb : b ≠ x := by rintro rfl; exact into a hab
    obtain ⟨r, h1, h2, h3, h4⟩ := hab
    rw [h.more, if_neg ha] at h1
    rw [h.more, if_neg hb] at h4
    exact ⟨r, h1, h2, h3, h4⟩
  have forth : ∀ a b, DependsOn V.get? a b → DependsOn W.get? a b := by
    rintro a b ⟨r, h1, h2, h3, h4⟩
    have ha : a ≠ x := by rintro rfl; rw [h.free] at h1; cases h1
    have hb : b ≠ x := by rintro rfl; exact h4 h.free
    exact ⟨r, by rw [h.more, if_neg ha]; exact h1, h2, h3, by rw [h.more, if_neg hb]; exact h4⟩
  rw [Values.resolves_iff, Values.resolves_iff]
  refine and_congr (not_congr ⟨Values.cycle_mono forth, cycle_to into back⟩) (not_congr ⟨?_, ?_⟩)
  · rintro ⟨n, ⟨k, r, hk, hu⟩, he, hn, hp⟩
    have hnx : n ≠ x := by
      rintro rfl
      obtain ⟨ts, hr, hmem⟩ := hu
      exact h.others k r hk (reads_refs_mentions hr n hmem)
    have hkx : k ≠ x := by rintro rfl; rw [h.free] at hk; cases hk
    exact ⟨n, ⟨k, r, by rw [h.more, if_neg hkx]; exact hk, hu⟩, he, by rw [h.more, if_neg hnx]; exact hn, hp⟩
  · rintro ⟨n, ⟨k, r, hk, hu⟩, he, hn, hp⟩
    have hnx : n ≠ x := by rintro rfl; rw [h.more, if_pos rfl] at hn; cases hn
    rw [h.more, if_neg hnx] at hn
    by_cases hkx : k = x
    · rw [h.more, if_pos hkx] at hk; cases hk
      rcases h.known n hu he with k1 | k1
      · exact (k1 hn).elim
      · exact (k1 hp).elim
    · rw [h.more, if_neg hkx] at hk
      exact ⟨n, ⟨k, r, hk, hu⟩, he, hn, hp⟩

theorem idle_same (h : Idle V W g x raw) {m m' : GoMap Str} (hm : resolveVars (some V) g env = .ok m)
    (hm' : resolveVars (some W) g env = .ok m') (k : Str) (hk : k ≠ x) : m.get? k = m'.get? k := by
  have s1 := resolveVars_spec V g env
  have s2 := resolveVars_spec W g env
  rw [hm] at s1
  rw [hm'] at s2
  obtain ⟨a1, a2, l, ht, hl⟩ := s1
  obtain ⟨b1, b2, -⟩ := s2
  have out : ∀ k, k ≠ x → V.get? k = none → m.get? k = m'.get? k := by
    intro k hk hv
    rw [a2 k hv, b2 k (by rw [h.more, if_neg hk]; exact hv)]
  have key : ∀ l, Topo (DependsOn V.get?) l → ∀ k ∈ l, V.get? k ≠ none → m.get? k = m'.get? k := by
    intro l ht
    induction l with
    | nil => simp
    | cons a l ih =>
      intro k hk hv
      rcases List.mem_cons.mp hk with rfl | hk
      · have hkx : k ≠ x := by rintro rfl; exact hv h.free
        obtain ⟨r, hr⟩ := Option.ne_none_iff_exists'.mp hv
        obtain ⟨w, w1, w2⟩ := a1 k r hr
        obtain ⟨w', w1', w2'⟩ := b1 k r (by rw [h.more, if_neg hkx]; exact hr)
        rw [interpolate_congr (m' := m'), w1'] at w1
        · cases w1; rw [w2, w2']
        · intro n hn he
          have hnx : n ≠ x := by rintro rfl; exact h.others k r hr hn
          by_cases hvn : V.get? n = none
          · exact out n hnx hvn
          · exact ih ht.2 n (ht.1 n ⟨r, hr, hn, he, hvn⟩) hvn
      · exact ih ht.2 k hk hv
  by_cases hv : V.get? k = none
  · exact out k hk hv
  · exact key l ht k (hl k hv) hv

end
end Unused

section
variable {c : Cfg} {tasks : TaskMap} {g g' : GoMap Str} {n x raw : Str} {T : Task}

/-- the same for any definitions `W` that differ in `x` only -/
theorem Unused.same {tasks' : TaskMap} {W : GoMap Str} (hT : tasks.get? n = some T) (hn : tasks'.get? n = some { T with vars := some W })
    (hne : ∀ k, k ≠ n → tasks'.get? k = tasks.get? k) (id : Unused.Idle (T.vars.getD []) W g x raw) (hw : Without T x)
    (hdir : ¬ Mentions c.globalDir x) (henv : ∀ p ∈ c.globalEnv, ¬ Mentions p.2 x)
    (hagain : ∀ m tenv, resolveVars T.vars g c.env = .ok m →
      interpolateEnv ⟨m, c.env⟩ (mergeEnvMaps [c.globalEnv, T.env]) = .ok tenv → ∀ p ∈ tenv, ¬ Mentions p.2 x) :
    Values.Same c g g tasks tasks' := by
  constructor
  · intro k U hk
    by_cases e : k = n
    · subst e
      rw [hT] at hk; cases hk
      refine ⟨_, hn, fun _ _ _ => rfl, fun m hm => ?_⟩
      have hm0 := hm
      rw [Values.resolve_getD] at hm
      obtain ⟨m', hm'⟩ := (Unused.idle_ok id).mp ⟨m, hm⟩
      exact ⟨m', hm', Values.onTask_of (fun k hk => Unused.idle_same id hm hm' k hk) hdir henv hw fun tenv => hagain m tenv hm0⟩
    · exact ⟨U.vars, (hne _ e).trans hk, fun _ _ _ => rfl, fun m hm => ⟨m, hm, Values.onTask_eq fun _ => rfl⟩⟩
  · intro k U hk
    by_cases e : k = n
    · subst e
      rw [hn] at hk; cases hk
      refine ⟨T.vars, hT, fun _ _ _ => rfl, fun m' hm' => ?_⟩
      obtain ⟨m, hm⟩ := (Unused.idle_ok id).mpr ⟨m', hm'⟩
      have hm0 : resolveVars T.vars g c.env = .ok m := by rw [Values.resolve_getD]; exact hm
      have eq : ∀ k, k ≠ x → m'.get? k = m.get? k := fun k hk => (Unused.idle_same id hm hm' k hk).symm
      have hw' : Without { T with vars := some W } x := by
        refine ⟨hw.cond, hw.dir, hw.env, ?_, hw.run⟩
        intro k r hk
        change W.get? k = some r at hk
        rw [id.more] at hk
        split_ifs at hk with e
        · cases hk; exact id.self
        · exact hw.vars k r hk
      refine ⟨m, hm0, Values.onTask_of eq hdir henv hw' fun tenv ht => hagain m tenv hm0 ?_⟩
      rw [← ht]
      refine Bab.Values.on_env fun p hp => ?_
      rcases Values.mem_two hp with hp | hp
      · exact Values.on_of (fun k hk => (eq k hk).symm) (henv p hp)
      · exact Values.on_of (fun k hk => (eq k hk).symm) (hw.env p hp)
    · rw [hne _ e] at hk
      exact ⟨U.vars, hk, fun _ _ _ => rfl, fun m hm => ⟨m, hm, Values.onTask_eq fun _ => rfl⟩⟩

/-- **C126** A variable of a task that is not used can be removed, or added: then all that C116 says holds, the same commands are run and the
same messages are printed, with the same processes, and success is the same. Its definition must make sense: it must not refer to itself
nor to what is not defined. No text of the task may mention it, even in a value that comes out of its `env`. -/
theorem C126_task (hT : tasks.get? n = some T) (hfree : (T.vars.getD []).get? x = none) (hself : ¬ Mentions raw x)
    (hknown : ∀ y, Uses raw y → ¬ IsEnv y → (T.vars.getD []).get? y ≠ none ∨ g.get? y ≠ none) (hw : Without T x)
    (hdir : ¬ Mentions c.globalDir x) (henv : ∀ p ∈ c.globalEnv, ¬ Mentions p.2 x)
    (hagain : ∀ m tenv, resolveVars T.vars g c.env = .ok m →
      interpolateEnv ⟨m, c.env⟩ (mergeEnvMaps [c.globalEnv, T.env]) = .ok tenv → ∀ p ∈ tenv, ¬ Mentions p.2 x) :
    Values.Same c g g tasks (moved tasks n T x raw) :=
  Unused.same hT (GoMap.get?_set_self _ _ _) (fun _ h => GoMap.get?_set_ne _ _ (Ne.symm h))
    ⟨fun _ => Values.set_get _, hfree, hw.vars, hself, hknown⟩ hw hdir henv hagain

/-- **C126** The same for a variable that is defined for all tasks. -/
theorem C126_global (hothers : ∀ k, k ≠ x → g'.get? k = g.get? k) (hdir : ¬ Mentions c.globalDir x)
    (henv : ∀ p ∈ c.globalEnv, ¬ Mentions p.2 x) (hU : ∀ k U, tasks.get? k = some U → Without U x)
    (hagain : ∀ k U m tenv, tasks.get? k = some U → resolveVars U.vars g c.env = .ok m →
      interpolateEnv ⟨m, c.env⟩ (mergeEnvMaps [c.globalEnv, U.env]) = .ok tenv → ∀ p ∈ tenv, ¬ Mentions p.2 x) :
    Values.Same c g g' tasks tasks := by
  have other : ∀ {g g' : GoMap Str}, (∀ k, k ≠ x → g.get? k = g'.get? k) → ∀ {k U}, tasks.get? k = some U → ∀ m, resolveVars U.vars g c.env = .ok m →
      ∃ m', resolveVars U.vars g' c.env = .ok m' ∧ ∀ k, k ≠ x → m.get? k = m'.get? k := by
    intro g g' hgg k U hUk m hm
    rw [Values.resolve_getD] at hm
    obtain ⟨m', h1, h2⟩ := Bab.Values.other_parent (g' := g') (fun k' r y h1 h2 _ _ => hgg y (by
      rintro rfl; exact (hU k U hUk).vars k' r h1 h2)) hm
    exact ⟨m', by rw [Values.resolve_getD]; exact h1, fun k hk => h2 k (.inr (hgg k hk))⟩
  have hgg : ∀ k, k ≠ x → g.get? k = g'.get? k := fun k hk => (hothers k hk).symm
  constructor
  · intro k U hk
    refine ⟨U.vars, hk, Values.on_of hgg (hU k U hk).cond, fun m hm => ?_⟩
    obtain ⟨m', h1, h2⟩ := other hgg hk m hm
    exact ⟨m', h1, Values.onTask_of h2 hdir henv (hU k U hk) fun tenv ht => hagain k U m tenv hk hm ht⟩
  · intro k U hk
    refine ⟨U.vars, hk, Values.on_of hothers (hU k U hk).cond, fun m' hm' => ?_⟩
    obtain ⟨m, h1, h2⟩ := other hothers hk m' hm'
    refine ⟨m, h1, Values.onTask_of h2 hdir henv (hU k U hk) fun tenv ht => hagain k U m tenv hk h1 ?_⟩
    rw [← ht]
    refine Bab.Values.on_env fun p hp => ?_
    rcases Values.mem_two hp with hp | hp
    · exact Values.on_of (fun k hk => (h2 k hk).symm) (henv p hp)
    · exact Values.on_of (fun k hk => (h2 k hk).symm) ((hU k U hk).env p hp)

/-- **C126** So two runs that end with success and are not interrupted, one with the variable and one without, do the same. -/
theorem C126_same {main : Str} {s s' : State} (hT : tasks.get? n = some T) (hfree : (T.vars.getD []).get? x = none) (hself : ¬ Mentions raw x)
    (hknown : ∀ y, Uses raw y → ¬ IsEnv y → (T.vars.getD []).get? y ≠ none ∨ g.get? y ≠ none) (hw : Without T x)
    (hdir : ¬ Mentions c.globalDir x) (henv : ∀ p ∈ c.globalEnv, ¬ Mentions p.2 x)
    (hagain : ∀ m tenv, resolveVars T.vars g c.env = .ok m →
      interpolateEnv ⟨m, c.env⟩ (mergeEnvMaps [c.globalEnv, T.env]) = .ok tenv → ∀ p ∈ tenv, ¬ Mentions p.2 x)
    (hd : c.dry = false) (hask : Unasked c tasks g main) (hr : Reach (start c tasks g main) s) (hp : s.prog = .ret none)
    (hc : ∀ id, .cancel id ∉ s.sh.trace) (hr' : Reach (start c (moved tasks n T x raw) g main) s') (hp' : s'.prog = .ret none)
    (hc' : ∀ id, .cancel id ∉ s'.sh.trace) : (Spec.entries s'.sh.trace).Perm (Spec.entries s.sh.trace) :=
  C116_same (C126_task hT hfree hself hknown hw hdir henv hagain) hd hask hr hp hc hr' hp' hc'

end

namespace Sample
open Exec

/-- a task with a variable that it does not use -/
def withTmp (raw : String) : TaskMap := moved sharing (s "lib") { name := s "lib", run := [cmd "ar ${{ lib }}"] } (s "tmp") (s raw)

/-- the conditions of `C126_task` are met -/
theorem withTmp_same : Values.Same {} forAll forAll sharing (withTmp "${{ root }}/tmp") := by
  refine C126_task rfl (by decide +kernel) (without (by decide +kernel)) (fun y hy _ => ?_) ?_ (without (by decide +kernel)) nofun ?_
  · obtain ⟨ts, hr, hm⟩ := hy
    have := (mem_extract_iff _ y).mpr (reads_refs_mentions hr y hm)
    rw [show extractVarRefs 0 (s "${{ root }}/tmp") = [s "root"] by decide +kernel, List.mem_singleton] at this
    subst this
    decide +kernel
  · refine ⟨without (by decide +kernel), without (by decide +kernel), nofun, nofun, fun it hit => ?_⟩
    simp only [List.mem_singleton] at hit
    subst hit
    exact ⟨without (by decide +kernel), without (by decide +kernel), without (by decide +kernel), nofun⟩
  · intro m tenv _ ht p hp
    cases ht
    cases hp

def withTmpRun : State := drive [.auto 400] (start {} (withTmp "${{ root }}/tmp") forAll (s "all"))

example : (Spec.entries withTmpRun.sh.trace).Perm (Spec.entries forAllRun.sh.trace) ∧ (Spec.entries withTmpRun.sh.trace).length = 3 :=
  ⟨C116_same withTmp_same rfl sharing_unasked (reach _ _) (ret_of_result (by decide +kernel)) (calm_of (by decide +kernel))
    (reach _ _) (ret_of_result (by decide +kernel)) (calm_of (by decide +kernel)), by decide +kernel⟩

/-- the conditions of `C126_global` are met: a variable for all tasks that none of them mentions -/
example : Values.Same {} ((s "tmp", s "/t") :: forAll) forAll sharing sharing := by
  have all : ∀ k U, sharing.get? k = some U → Without U (s "tmp") ∧ U.env = [] := by
    intro k U hU
    have := GoMap.mem_of_get? hU
    simp only [sharing, List.mem_cons, Prod.mk.injEq, List.not_mem_nil, or_false] at this
    rcases this with ⟨-, rfl⟩ | ⟨-, rfl⟩
    · refine ⟨⟨without (by decide +kernel), without (by decide +kernel), nofun, fun k r hk => ?_, fun it hit => ?_⟩, rfl⟩
      · have := GoMap.mem_of_get? hk
        simp only [Option.getD_some, List.mem_singleton, Prod.mk.injEq] at this
        rw [this.2]
        exact without (by decide +kernel)
      · simp only [List.mem_cons, List.not_mem_nil, or_false] at hit
        rcases hit with rfl | rfl
        · exact ⟨without (by decide +kernel), without (by decide +kernel), without (by decide +kernel), nofun⟩
        · exact ⟨without (by decide +kernel), without (by decide +kernel)⟩
    · refine ⟨⟨without (by decide +kernel), without (by decide +kernel), nofun, nofun, fun it hit => ?_⟩, rfl⟩
      simp only [List.mem_singleton] at hit
      subst hit
      exact ⟨without (by decide +kernel), without (by decide +kernel), without (by decide +kernel), nofun⟩
  refine C126_global (x := s "tmp") (fun k hk => ?_) (without (by decide +kernel)) nofun (fun k U h => (all k U h).1) (fun k U m tenv hU _ ht p hp => ?_)
  · simp [GoMap.get?, Ne.symm hk]
  · rw [(all k U hU).2] at ht
    cases ht
    cases hp

end Sample

open Sample in
/-- **C126** Limits of the property: the definition of a variable that is not used must make sense all the same. All variables of a task are
worked out before the first item, and the run fails if that is not possible. -/
theorem C126_nonsense :
    (Exec.result (Exec.drive [.auto 400] (start {} (withTmp "${{ rot }}/tmp") forAll (s "lib")))).map (fun e => e.map cause) =
      some (some (Err.varNotFound (s "rot"))) ∧
    Exec.result (Exec.drive [.auto 400] (start {} sharing forAll (s "lib"))) = some none := by
  decide +kernel

end Bab
