import Verif.Proof.Values
import Verif.Props.Deps
import Verif.Props.Main
/-
C116: where variables are defined does not matter.
-/

namespace Bab
open Spec Spec.Values

section
variable {c : Cfg} {tasks tasks' : TaskMap} {gvars gvars' : GoMap Str} {main : Str} {s s' : State} (hs : Values.Same c gvars gvars' tasks tasks')
include hs

/-- **C116** If the texts see the same values, wherever those come from, the same is done: two runs that end with success and are not
interrupted, one with each of the definitions, start the same commands and print the same messages, each once. -/
theorem C116_same (hd : c.dry = false) (hask : Unasked c tasks gvars main) (hr : Reach (start c tasks gvars main) s) (hp : s.prog = .ret none)
    (hc : ∀ id, .cancel id ∉ s.sh.trace) (hr' : Reach (start c tasks' gvars' main) s') (hp' : s'.prog = .ret none)
    (hc' : ∀ id, .cancel id ∉ s'.sh.trace) : (Spec.entries s'.sh.trace).Perm (Spec.entries s.sh.trace) := by
  have hask' := Bab.Values.unasked hs hask
  refine (List.perm_ext_iff_of_nodup (Due.entries_nodup fun loc => acts_once hr' loc) (Due.entries_nodup fun loc => acts_once hr loc)).mpr fun e => ?_
  constructor
  · intro he
    exact C78_all hd hask hr hp hc (Bab.Values.entry_of hs.2 (C78_only hd hask' hr' he))
  · intro he
    exact C78_all hd hask' hr' hp' hc' (Bab.Values.entry_of hs.1 (C78_only hd hask hr he))

/-- **C116** And the process that is started for a command is the same: the shell, the text, the directory, and the environment apart from
the names that control colours. -/
theorem C116_process (hd : c.dry = false) (hask : Unasked c tasks gvars main) (hr : Reach (start c tasks gvars main) s)
    (hr' : Reach (start c tasks' gvars' main) s') {loc : Loc} {spec spec' : ProcSpec} (h : .procStart loc spec ∈ s.sh.trace)
    (h' : .procStart loc spec' ∈ s'.sh.trace) :
    spec.shell = spec'.shell ∧ spec.arg = spec'.arg ∧ spec.cmd = spec'.cmd ∧ spec.dir = spec'.dir ∧
    ∀ k, k ∉ colourNames → procEnv c spec k = procEnv c spec' k := by
  obtain ⟨T1, v, m, tenv, text, env, dir, fr, hT1, hdue, he, hpr, rfl⟩ := Due.events hd hask hr _ h
  obtain ⟨T2, v', m', tenv', text', env', dir', fr', hT2, hdue', he', hpr', rfl⟩ := Due.events hd (Bab.Values.unasked hs hask) hr' _ h'
  obtain ⟨m2, U, k1, k2, k3, k4⟩ := Bab.Values.due_of hs.1 hdue
  obtain ⟨h1, rfl⟩ := Due.item_unique k1 hdue'
  cases h1
  rw [hT1] at k2; cases k2
  obtain ⟨vs, k5, -⟩ := hs.1 _ _ hT1
  rw [k5] at hT2; cases hT2
  have he2 : interpolateEnv ⟨m2, c.env⟩ (mergeEnvMaps [c.globalEnv, T1.env]) = .ok tenv' := he'
  rw [← Bab.Values.tenv_eq k3, he] at he2; cases he2
  have hpr2 : prepareCommand c T1 v tenv m2 = .ok (text', env', dir') := hpr'
  rw [← Bab.Values.on_prepare k3 (k4.2.1 v rfl) he, hpr] at hpr2; cases hpr2
  refine ⟨rfl, rfl, rfl, rfl, fun k hk => ?_⟩
  have we : env.WF := interpolateEnv_WF (prepare_inv hpr).2.1 (WF_mergeEnvMaps _)
  rw [procEnv_eq we, procEnv_eq we, colourEnv_other hk, colourEnv_other hk]

/-- items of parallel blocks keep out of each other's way as before -/
theorem Values.separate (hsep : Separate tasks) : Separate tasks' := by
  have task : ∀ {k U}, tasks'.get? k = some U → ∃ vs, tasks.get? k = some { U with vars := vs } := by
    intro k U h
    obtain ⟨vs, h, -⟩ := hs.2 _ _ h
    exact ⟨vs, h⟩
  have prior : ∀ its, Prior tasks' its = Prior tasks its := by
    intro its
    funext d
    refine propext ⟨?_, ?_⟩
    · rintro ⟨t, U, ht, hU, hd⟩
      obtain ⟨vs, h⟩ := task hU
      exact ⟨t, _, ht, h, hd⟩
    · rintro ⟨t, U, ht, hU, hd⟩
      obtain ⟨vs, h, -⟩ := hs.1 _ _ hU
      exact ⟨t, _, ht, h, hd⟩
  have may : ∀ {b d}, MayRun tasks' b d → MayRun tasks b d := by
    rintro b d (h | ⟨V, its, la, mo, li, co, s', o', pl', w', ln', hV, hbl, hpr⟩)
    · exact .inl (Bab.Values.refers_of hs.2 h)
    · obtain ⟨vs, h⟩ := task hV
      exact .inr ⟨_, its, la, mo, li, co, s', o', pl', w', ln', h, hbl, prior its ▸ hpr⟩
  have leads : ∀ {P x y}, Leads tasks' P x y → Leads tasks P x y := by
    intro P x y h
    induction h with
    | self => exact .self
    | step _ hb hm ih => exact .step ih hb (may hm)
  intro a U its la mo li co s o pl w l hU hb i j t u hij hi hj y h1 h2
  obtain ⟨vs, hU0⟩ := task hU
  rw [prior] at h1 h2 ⊢
  exact hsep a _ its la mo li co s o pl w l hU0 hb i j t u hij hi hj y (leads h1) (leads h2)

/-- **C116** Nor does it decide about success: if references make no circle and items of parallel blocks keep out of each other's way, then a
run with the one definitions in which nothing goes wrong outside succeeds exactly if such a run with the others does. -/
theorem C116_success (hd : c.dry = false) (hask : Unasked c tasks gvars main) {rank : Str → Nat} (hrk : ∀ a b, Refers tasks a b → rank b < rank a)
    (hsep : Separate tasks) (hr : Reach (start c tasks gvars main) s)
    (hcalm : ∀ e ∈ s.sh.trace, Calm e) {r r' : Option Err} (hp : s.prog = .ret r) (hr' : Reach (start c tasks' gvars' main) s')
    (hcalm' : ∀ e ∈ s'.sh.trace, Calm e) (hp' : s'.prog = .ret r') : r' = none ↔ r = none := by
  rw [C79_exact hd hask hrk hsep hr hcalm hp,
    C79_exact hd (Bab.Values.unasked hs hask) (fun a b h => hrk a b (Bab.Values.refers_of hs.2 h)) (Values.separate hs hsep) hr' hcalm' hp']
  exact ⟨Bab.Values.works_of hs.2 hs.1, Bab.Values.works_of hs.1 hs.2⟩

end

section
variable {c : Cfg} {tasks : TaskMap} {g g' : GoMap Str} {n x raw v : Str} {T : Task}

/-- values that agree on all but `x` agree for a text that does not mention it -/
theorem Values.on_of {m m' : GoMap Str} (h : ∀ k, k ≠ x → m.get? k = m'.get? k) {t : Str} (ht : ¬ Mentions t x) : On m m' t := by
  intro y hy _
  exact h y (by rintro rfl; exact ht hy)

/-- and for a task that does not -/
theorem Values.onTask_of {U : Task} {m m' : GoMap Str} (h : ∀ k, k ≠ x → m.get? k = m'.get? k) (hdir : ¬ Mentions c.globalDir x)
    (henv : ∀ p ∈ c.globalEnv, ¬ Mentions p.2 x) (hU : Without U x)
    (hagain : ∀ tenv, interpolateEnv ⟨m, c.env⟩ (mergeEnvMaps [c.globalEnv, U.env]) = .ok tenv → ∀ p ∈ tenv, ¬ Mentions p.2 x) : OnTask c U m m' where
  globalDir := on_of h hdir
  dir := on_of h hU.dir
  env := by
    intro p hp
    rcases Values.mem_two hp with hp | hp
    · exact on_of h (henv p hp)
    · exact on_of h (hU.env p hp)
  again := fun tenv ht p hp => on_of h (hagain tenv ht p hp)
  run := by
    intro it hit
    obtain ⟨h1, h2⟩ := hU.run it hit
    refine ⟨on_of h h1, ?_⟩
    cases it with
    | command v => exact ⟨on_of h h2.1, on_of h h2.2.1, fun p hp => on_of h (h2.2.2 p hp)⟩
    | log l => exact on_of h h2
    | parallel =>
      exact ⟨fun v hv => ⟨on_of h (h2.1 v hv).1, on_of h (h2.1 v hv).2.1, fun p hp => on_of h ((h2.1 v hv).2.2 p hp)⟩,
        fun l hl => on_of h (h2.2 l hl)⟩
    | _ => trivial

theorem Values.onTask_eq {U : Task} {m m' : GoMap Str} (h : ∀ k, m.get? k = m'.get? k) : OnTask c U m m' where
  globalDir := fun y _ _ => h y
  dir := fun y _ _ => h y
  env := fun _ _ y _ _ => h y
  again := fun _ _ _ _ y _ _ => h y
  run := by
    intro it _
    refine ⟨fun y _ _ => h y, ?_⟩
    cases it with
    | command v => exact ⟨fun y _ _ => h y, fun y _ _ => h y, fun _ _ y _ _ => h y⟩
    | log l => exact fun y _ _ => h y
    | parallel => exact ⟨fun v hv => ⟨fun y _ _ => h y, fun y _ _ => h y, fun _ _ y _ _ => h y⟩, fun l hl y _ _ => h y⟩
    | _ => trivial

theorem Values.resolve_getD (vars : Option (GoMap Str)) (env : Str → Option Str) : resolveVars vars g env = resolveVars (some (vars.getD [])) g env := by
  cases vars with
  | none => rfl
  | some V => rfl

/-- **C116** The definition of a variable can be moved from those for all tasks to the only task that uses it: to one that defines neither
the variable nor what its definition refers to, and whose condition, which is worked out without the variables of the task, does not use
it. No other task may say anything of it, even in a value that comes out of its `env` (those values are expanded again). -/
theorem C116_moved (hT : tasks.get? n = some T) (hfree : (T.vars.getD []).get? x = none)
    (hraw : ∀ y, Mentions raw y → ¬ IsEnv y → (T.vars.getD []).get? y = none ∧ y ≠ x) (htext : interpolate raw ⟨g, c.env⟩ = .ok v)
    (hx : g.get? x = some v) (hothers : ∀ k, k ≠ x → g'.get? k = g.get? k) (hcond : ¬ Mentions T.cond x) (hdir : ¬ Mentions c.globalDir x)
    (henv : ∀ p ∈ c.globalEnv, ¬ Mentions p.2 x) (hU : ∀ k U, k ≠ n → tasks.get? k = some U → Without U x)
    (hagain : ∀ k U m tenv, k ≠ n → tasks.get? k = some U → resolveVars U.vars g c.env = .ok m →
      interpolateEnv ⟨m, c.env⟩ (mergeEnvMaps [c.globalEnv, U.env]) = .ok tenv → ∀ p ∈ tenv, ¬ Mentions p.2 x) :
    Values.Same c g g' tasks (moved tasks n T x raw) := by
  have tk : Bab.Values.Taken (T.vars.getD []) g g' c.env x raw v := ⟨hfree, hraw, htext, hx, hothers⟩
  have hn : (moved tasks n T x raw).get? n = some { T with vars := some ((T.vars.getD []).set x raw) } := GoMap.get?_set_self _ _ _
  have hne : ∀ {k}, k ≠ n → (moved tasks n T x raw).get? k = tasks.get? k := fun h => GoMap.get?_set_ne _ _ (Ne.symm h)
  have hgg : ∀ k, k ≠ x → g.get? k = g'.get? k := fun k hk => (hothers k hk).symm
  -- another task
  have other : ∀ {g g' : GoMap Str}, (∀ k, k ≠ x → g.get? k = g'.get? k) → ∀ {k U}, k ≠ n → tasks.get? k = some U → ∀ m, resolveVars U.vars g c.env = .ok m →
      ∃ m', resolveVars U.vars g' c.env = .ok m' ∧ ∀ k, k ≠ x → m.get? k = m'.get? k := by
    intro g g' hgg k U hk hUk m hm
    rw [Values.resolve_getD] at hm
    obtain ⟨m', h1, h2⟩ := Bab.Values.other_parent (g' := g') (fun k' r y h1 h2 _ _ => hgg y (by
      rintro rfl; exact (hU k U hk hUk).vars k' r h1 h2)) hm
    exact ⟨m', by rw [Values.resolve_getD]; exact h1, fun k hk => h2 k (.inr (hgg k hk))⟩
  constructor
  · intro k U hk
    by_cases e : k = n
    · subst e
      rw [hT] at hk; cases hk
      refine ⟨_, hn, Values.on_of hgg hcond, fun m hm => ?_⟩
      rw [Values.resolve_getD] at hm
      obtain ⟨m', hm'⟩ := (Bab.Values.taken_ok tk).mp ⟨m, hm⟩
      exact ⟨m', hm', Values.onTask_eq (Bab.Values.taken_same tk hm hm')⟩
    · refine ⟨U.vars, (hne e).trans hk, Values.on_of hgg (hU k U e hk).cond, fun m hm => ?_⟩
      obtain ⟨m', h1, h2⟩ := other hgg e hk m hm
      exact ⟨m', h1, Values.onTask_of h2 hdir henv (hU k U e hk) fun tenv ht => hagain k U m tenv e hk hm ht⟩
  · intro k U hk
    by_cases e : k = n
    · subst e
      rw [hn] at hk; cases hk
      refine ⟨T.vars, hT, Values.on_of hothers hcond, fun m' hm' => ?_⟩
      obtain ⟨m, hm⟩ := (Bab.Values.taken_ok tk).mpr ⟨m', hm'⟩
      exact ⟨m, by rw [Values.resolve_getD]; exact hm, Values.onTask_eq fun k => (Bab.Values.taken_same tk hm hm' k).symm⟩
    · rw [hne e] at hk
      refine ⟨U.vars, hk, Values.on_of hothers (hU k U e hk).cond, fun m' hm' => ?_⟩
      obtain ⟨m, h1, h2⟩ := other hothers e hk m' hm'
      refine ⟨m, h1, Values.onTask_of h2 hdir henv (hU k U e hk) fun tenv ht => hagain k U m tenv e hk h1 ?_⟩
      rw [← ht]
      refine Bab.Values.on_env fun p hp => ?_
      rcases Values.mem_two hp with hp | hp
      · exact Values.on_of (fun k hk => (h2 k hk).symm) (henv p hp)
      · exact Values.on_of (fun k hk => (h2 k hk).symm) ((hU k U e hk).env p hp)

end

namespace Sample
open Exec

/-- a task that uses a variable defined for all tasks, and one that does not -/
def sharing : TaskMap :=
  [(s "all", { name := s "all", deps := [s "lib"], vars := some [(s "out", s "${{ dir }}/a.out")], run := [cmd "cc -o ${{ out }}", .log { log := s "in ${{dir}}" }] }),
   (s "lib", { name := s "lib", run := [cmd "ar ${{ lib }}"] })]

/-- the values for all tasks; `dir` is defined as `${{ root }}/bin` -/
def forAll : GoMap Str := [(s "root", s "/o"), (s "dir", s "/o/bin"), (s "lib", s "x.a")]

/-- without `dir` -/
def withoutDir : GoMap Str := [(s "root", s "/o"), (s "lib", s "x.a")]

/-- `dir` is defined in the task -/
def ownDir : TaskMap :=
  moved sharing (s "all")
    { name := s "all", deps := [s "lib"], vars := some [(s "out", s "${{ dir }}/a.out")], run := [cmd "cc -o ${{ out }}", .log { log := s "in ${{dir}}" }] }
    (s "dir") (s "${{ root }}/bin")

theorem without {t x : Str} (h : x ∉ extractVarRefs 0 t) : ¬ Mentions t x := fun hm => h ((mem_extract_iff t x).mpr hm)

/-- the conditions of `C116_moved` are met -/
theorem ownDir_same : Values.Same {} forAll withoutDir sharing ownDir := by
  have lib : Without { name := s "lib", run := [cmd "ar ${{ lib }}"] } (s "dir") := by
    refine ⟨without (by decide +kernel), without (by decide +kernel), nofun, nofun, fun it hit => ?_⟩
    simp only [List.mem_singleton] at hit
    subst hit
    exact ⟨without (by decide +kernel), without (by decide +kernel), without (by decide +kernel), nofun⟩
  have only : ∀ k U, k ≠ s "all" → sharing.get? k = some U → U = { name := s "lib", run := [cmd "ar ${{ lib }}"] } := by
    intro k U hk hU
    have := GoMap.mem_of_get? hU
    simp only [sharing, List.mem_cons, Prod.mk.injEq, List.not_mem_nil, or_false] at this
    rcases this with ⟨h, -⟩ | ⟨-, h⟩
    · exact absurd h hk
    · exact h
  refine C116_moved (v := s "/o/bin") rfl (by decide +kernel) (fun y hy _ => ?_) (by decide +kernel) (by decide +kernel) (fun k hk => ?_)
    (without (by decide +kernel)) (without (by decide +kernel)) nofun (fun k U hk hU => only k U hk hU ▸ lib) (fun k U m tenv hk hU _ ht p hp => ?_)
  · have := (mem_extract_iff _ y).mpr hy
    rw [show extractVarRefs 0 (s "${{ root }}/bin") = [s "root"] by decide +kernel, List.mem_singleton] at this
    subst this
    decide +kernel
  · simp only [withoutDir, forAll, GoMap.get?]
    simp [show ¬ s "dir" = k from fun h => hk h.symm]
  · rw [only k U hk hU] at ht
    cases ht
    cases hp

/-- a run with the one definitions and a run with the others -/
def forAllRun : State := drive [.auto 400] (start {} sharing forAll (s "all"))
def ownDirRun : State := drive [.auto 400] (start {} ownDir withoutDir (s "all"))

theorem sharing_unasked : Unasked {} sharing forAll (s "all") := by
  intro n T p _ hT hp
  have := GoMap.mem_of_get? hT
  simp only [sharing, List.mem_cons, Prod.mk.injEq, List.not_mem_nil, or_false] at this
  rcases this with ⟨-, rfl⟩ | ⟨-, rfl⟩ <;> simp [cmd] at hp

/-- the conditions of `C116_same` are met, and the values occur in the commands -/
example : (Spec.entries ownDirRun.sh.trace).Perm (Spec.entries forAllRun.sh.trace) ∧
    Spec.entries ownDirRun.sh.trace = [.cmd ⟨s "lib", 0, none⟩ (s "ar x.a"), .cmd ⟨s "all", 0, none⟩ (s "cc -o /o/bin/a.out"),
      .log ⟨s "all", 1, none⟩ (s "in /o/bin") []] ∧ Separate sharing :=
  ⟨C116_same ownDir_same rfl sharing_unasked (reach _ _) (ret_of_result (by decide +kernel)) (calm_of (by decide +kernel))
    (reach _ _) (ret_of_result (by decide +kernel)) (calm_of (by decide +kernel)), by decide +kernel, no_blocks (by decide +kernel)⟩

/-- the condition of the task uses the variable -/
def asks (vars : GoMap Str) : TaskMap := [(s "all", { name := s "all", cond := s "${{ dir }}", vars := some vars, run := [cmd "cc"] })]

end Sample

open Sample in
/-- **C116** Limits of the property: the condition of a task is worked out before its variables. A variable that it uses cannot be moved to
the task: the run fails then. -/
theorem C116_condition :
    Exec.result (Exec.drive [.auto 200] (start {} (asks []) [(s "dir", s "/o")] (s "all"))) = some none ∧
    (Exec.result (Exec.drive [.auto 200] (start {} (asks [(s "dir", s "/o")]) [] (s "all")))).map (fun e => e.map cause) =
      some (some (Err.varNotFound (s "dir"))) := by
  decide +kernel

end Bab
