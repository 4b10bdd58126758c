import Verif.Proof.Command
import Verif.Proof.SafeRun
import Verif.Proof.Place
import Verif.Proof.Sample
import Verif.Props.Interpolate
/-
C28 to C31: environment, directory, echo and output of commands.
-/

namespace Bab
open Spec Own

/-- a task with an escaped reference in its `env` -/
def Sample.twice : TaskMap :=
  [(Sample.s "t", { name := Sample.s "t", env := [("K".toList, "$${{ x }}".toList)], run := [Sample.cmd "make"] })]

/-- settings at all levels: environment, directories, output -/
def Sample.settings : TaskMap :=
  [(Sample.s "t", { name := Sample.s "t", sourcePath := "/home/u/p/Babfile.yml".toList, dir := "src".toList, output := some false, env := [("A".toList, "task".toList), ("B".toList, "${{ x }}".toList)], run := [
      .command { cmd := "make".toList, dir := "../${{ x }}/./lib".toList, env := [("A".toList, "$${{ x }}".toList)], silent := some false },
      .parallel [.command { cmd := "cc".toList, output := some true }, .task { task := "u".toList, silent := some true }] [] .interleaved 0 (some false) (some false) none [] [] 0] }),
   (Sample.s "u", { name := Sample.s "u", sourcePath := "/home/u/p/sub/Babfile.yml".toList, silent := some false, run := [Sample.cmd "ls"] })]

/-- the configuration for `Sample.settings` -/
def Sample.settingsCfg : Cfg :=
  { globalEnv := [("B".toList, "global".toList), ("C".toList, "global".toList)], globalSilent := some true, environ := [("C".toList, "inherited".toList), ("D".toList, "inherited".toList), ("TERM".toList, "xterm".toList)] }

/-- an invocation of `Sample.settings` -/
def Sample.settingsRun : State :=
  Exec.drive [.auto 400] (start Sample.settingsCfg Sample.settings [("x".toList, "v".toList)] (Sample.s "t"))

section
variable {c : Cfg} {tasks : TaskMap} {gvars : GoMap Str} {main : Str} {s : State}

/-- what the life cycle and the specification of events say about a started process -/
theorem proc_facts (h : Reach (start c tasks gvars main) s) {loc : Loc} {spec : ProcSpec} {a b : List Ev}
    (ht : s.sh.trace = a ++ .procStart loc spec :: b) : ProcOk c tasks (· ∈ a) loc spec :=
  (Safe.event_ok h ht).2.1

/-- C28. The environment of every command: a name set by the item has the expanded value of the item;
otherwise a name set by the task has the value of the task; otherwise a name set globally has the global
value; all other names have the value inherited from bab (the names that control colours are treated in
`C28_colours`). `m0` are the variables of the task when it started its items, `m` those the item sees.
The maps are given as lists of pairs in any order. -/
theorem C28_environment (h : Reach (start c tasks gvars main) s) {loc : Loc} {spec : ProcSpec} {T : Task} {v : CommandRun}
    (hp : .procStart loc spec ∈ s.sh.trace) (hT : tasks.get? loc.task = some T)
    (hv : itemAt tasks loc = some (.command v)) (hG : c.globalEnv.WF) (hTe : T.env.WF) (hve : v.env.WF) :
    ∃ g m0 call m, .taskVars loc.task g m0 call ∈ s.sh.trace ∧ .sees loc m ∈ s.sh.trace ∧ ∀ k,
      (∀ x, v.env.get? k = some x → ∃ y, interpolate x ⟨m, c.env⟩ = .ok y ∧ procEnv c spec k = some y) ∧
      (∀ x, v.env.get? k = none → T.env.get? k = some x →
        ∃ y z, interpolate x ⟨m0, c.env⟩ = .ok y ∧ interpolate y ⟨m, c.env⟩ = .ok z ∧ procEnv c spec k = some z) ∧
      (∀ x, v.env.get? k = none → T.env.get? k = none → c.globalEnv.get? k = some x →
        ∃ y z, interpolate x ⟨m0, c.env⟩ = .ok y ∧ interpolate y ⟨m, c.env⟩ = .ok z ∧ procEnv c spec k = some z) ∧
      (v.env.get? k = none → T.env.get? k = none → c.globalEnv.get? k = none → k ∉ colourNames →
        procEnv c spec k = lastEntry k c.environ) := by
  obtain ⟨a, b, ht⟩ := List.append_of_mem hp
  obtain ⟨T', v', g, m0, call, tenv, m, text, env, dir, fr, k1, k2, k3, k4, k5, k6, k7, k8, -⟩ := proc_facts h ht
  rw [hT] at k1; cases k1
  rw [hv] at k2; cases k2
  refine ⟨g, m0, call, m, by rw [ht]; simp [k3], by rw [ht]; simp [k5], fun k => ?_⟩
  obtain ⟨-, p2, -⟩ := prepare_inv k6
  have wt : tenv.WF := interpolateEnv_WF k4 (WF_mergeEnvMaps _)
  have we : env.WF := interpolateEnv_WF p2 (WF_mergeEnvMaps _)
  have e1 := interpolateEnv_get? k4 k
  have e2 := interpolateEnv_get? p2 k
  rw [get?_mergeEnvMaps_two hG hTe] at e1
  rw [get?_mergeEnvMaps_two wt hve] at e2
  have e3 := procEnv_eq (c := c) (fr := fr) (T := T) (v := v) (text := text) (dir := dir) we k
  rw [← k8] at e3
  refine ⟨fun x hx => ?_, fun x hx hy => ?_, fun x hx hy hz => ?_, fun hx hy hz hk => ?_⟩
  · obtain ⟨y, y1, y2⟩ := e2.1 x (by simp [hx])
    exact ⟨y, y1, by simp [e3, y2]⟩
  · obtain ⟨y, y1, y2⟩ := e1.1 x (by simp [hy])
    obtain ⟨z, z1, z2⟩ := e2.1 y (by simp [hx, y2])
    exact ⟨y, z, y1, z1, by simp [e3, z2]⟩
  · obtain ⟨y, y1, y2⟩ := e1.1 x (by simp [hy, hz])
    obtain ⟨z, z1, z2⟩ := e2.1 y (by simp [hx, y2])
    exact ⟨y, z, y1, z1, by simp [e3, z2]⟩
  · have y := e1.2 (by simp [hy, hz])
    have z := e2.2 (by simp [hx, y])
    simp [e3, z, colourEnv_other hk]

/-- C28. The names that control colours, as far as the Babfile does not set them: a command whose output
is passed through bab is told to use colours, or, if colours are switched off by the block or the call, not
to; every other command inherits bab's settings. -/
theorem C28_colours (h : Reach (start c tasks gvars main) s) {loc : Loc} {spec : ProcSpec} {T : Task} {v : CommandRun}
    (hp : .procStart loc spec ∈ s.sh.trace) (hT : tasks.get? loc.task = some T)
    (hv : itemAt tasks loc = some (.command v)) (hG : c.globalEnv.WF) (hTe : T.env.WF) (hve : v.env.WF) :
    ∃ g m0 call, .taskVars loc.task g m0 call ∈ s.sh.trace ∧
    ∀ k, v.env.get? k = none → T.env.get? k = none → c.globalEnv.get? k = none →
      ((∀ o, spec.out ≠ .sink o) → procEnv c spec k = lastEntry k c.environ) ∧
      (∀ o, spec.out = .sink o → (call.noColor || coloursOff tasks loc) = false →
        procEnv c spec k = if k = "FORCE_COLOR".toList then some "1".toList else lastEntry k c.environ) ∧
      (∀ o, spec.out = .sink o → (call.noColor || coloursOff tasks loc) = true →
        procEnv c spec k = if k = "NO_COLOR".toList then some "1".toList
          else if k = "TERM".toList then some "dumb".toList else lastEntry k c.environ) := by
  obtain ⟨a, b, ht⟩ := List.append_of_mem hp
  obtain ⟨T', v', g, m0, call, tenv, m, text, env, dir, fr, k1, k2, k3, k4, k5, k6, k7, k8, -⟩ := proc_facts h ht
  rw [hT] at k1; cases k1
  rw [hv] at k2; cases k2
  refine ⟨g, m0, call, by rw [ht]; simp [k3], fun k hx hy hz => ?_⟩
  obtain ⟨-, p2, -⟩ := prepare_inv k6
  have wt : tenv.WF := interpolateEnv_WF k4 (WF_mergeEnvMaps _)
  have we : env.WF := interpolateEnv_WF p2 (WF_mergeEnvMaps _)
  have e1 := interpolateEnv_get? k4 k
  have e2 := interpolateEnv_get? p2 k
  rw [get?_mergeEnvMaps_two hG hTe] at e1
  rw [get?_mergeEnvMaps_two wt hve] at e2
  have e3 := procEnv_eq (c := c) (fr := fr) (T := T) (v := v) (text := text) (dir := dir) we k
  rw [← k8] at e3
  have y := e1.2 (by simp [hy, hz])
  have z := e2.2 (by simp [hx, y])
  have hnc : fr.noColor = (call.noColor || coloursOff tasks loc) := frame_noColor k7
  rw [← hnc]
  rw [z, Option.none_or] at e3
  have ho : spec.out = (match fr.out with
    | some s => if isOutput [v.output, fr.ovOutput, T.output, c.globalOutput] then OutTo.sink s else .discard
    | none => if isOutput [v.output, fr.ovOutput, T.output, c.globalOutput] then .terminal else .discard) := by
    rw [k8]; rfl
  generalize isOutput [v.output, fr.ovOutput, T.output, c.globalOutput] = w at e3 ho
  rw [e3]
  unfold colourEnv
  cases hf : fr.out with
  | none =>
    rw [hf] at ho
    have : ∀ o, spec.out ≠ .sink o := by intro o; rw [ho]; cases w <;> simp
    refine ⟨fun _ => by simp [lastEntry], fun o h => absurd h (this o), fun o h => absurd h (this o)⟩
  | some o =>
    rw [hf] at ho
    cases w with
    | false =>
      have : ∀ o, spec.out ≠ .sink o := by intro o; rw [ho]; simp
      exact ⟨fun _ => by simp [lastEntry], fun o h => absurd h (this o), fun o h => absurd h (this o)⟩
    | true =>
      refine ⟨fun h => absurd ho (h o), fun _ _ hc => ?_, fun _ _ hc => ?_⟩
      · rw [hc]; exact lastEntry_one _ _ _ _
      · rw [hc]; exact lastEntry_two _ _ _ _ _ _

/-! ### C29 -/

theorem escapeAll_id {y : Str} (h : ¬ ∃ a b, y = a ++ "${{".toList ++ b) : escapeAll y = y := by
  induction y with
  | nil => rfl
  | cons x r ih =>
    rw [escapeAll_chr, ih]
    · rintro ⟨a, b, rfl⟩
      exact h ⟨x :: a, b, rfl⟩
    · rintro ⟨r', hr⟩
      exact h ⟨[], r', by rw [hr]; rfl⟩

/-- a text without `${{` and NUL expands to itself -/
theorem interpolate_plain (ctx : Ctx) {y : Str} (h : ¬ ∃ a b, y = a ++ "${{".toList ++ b) (hn : NoNul y) :
    interpolate y ctx = .ok y := by
  have := C03_escape_roundtrip ctx y hn
  rwa [escapeAll_id h] at this

/-- C29. Every text can be given to a command through the `env` of its item: written with escapes it
reaches the command unchanged, whatever references it seems to contain. -/
theorem C29_item_env_exact (h : Reach (start c tasks gvars main) s) {loc : Loc} {spec : ProcSpec} {T : Task}
    {v : CommandRun} (hp : .procStart loc spec ∈ s.sh.trace) (hT : tasks.get? loc.task = some T)
    (hv : itemAt tasks loc = some (.command v)) (hG : c.globalEnv.WF) (hTe : T.env.WF) (hve : v.env.WF)
    {k x : Str} (hx : NoNul x) (hk : v.env.get? k = some (escapeAll x)) : procEnv c spec k = some x := by
  obtain ⟨g, m0, call, m, -, -, h3⟩ := C28_environment h hp hT hv hG hTe hve
  obtain ⟨y, y1, y2⟩ := (h3 k).1 _ hk
  rw [C03_escape_roundtrip _ _ hx] at y1
  cases y1; exact y2

/-- C29. The `env` of an item is expanded once: the command gets exactly what one left-to-right reading of
the value renders to. -/
theorem C29_item_env_once (h : Reach (start c tasks gvars main) s) {loc : Loc} {spec : ProcSpec} {T : Task}
    {v : CommandRun} (hp : .procStart loc spec ∈ s.sh.trace) (hT : tasks.get? loc.task = some T)
    (hv : itemAt tasks loc = some (.command v)) (hG : c.globalEnv.WF) (hTe : T.env.WF) (hve : v.env.WF) :
    ∃ m, .sees loc m ∈ s.sh.trace ∧ ∀ k x ts, v.env.get? k = some x → Reads x ts → NoNul x →
      (∀ n w, n ∈ refs ts → value m.get? c.env n = some w → NoNul w) →
      ∃ y, render (value m.get? c.env) ts = some y ∧ procEnv c spec k = some y := by
  obtain ⟨g, m0, call, m, -, h2, h3⟩ := C28_environment h hp hT hv hG hTe hve
  refine ⟨m, h2, fun k x ts hx hr hn hv => ?_⟩
  obtain ⟨y, y1, y2⟩ := (h3 k).1 _ hx
  exact ⟨y, (C01_interpolate_single_pass ⟨m, c.env⟩ x ts hr hn hv y).mp y1, y2⟩

/-- C29 for the `env` of the task and the global `env`, as far as it holds: if the value, expanded once,
contains no `${{` and no NUL, it is what the command gets. Missing: values that contain `${{` after one
expansion; those are expanded again, see `C29_expanded_twice`. -/
theorem C29_task_env_partial (h : Reach (start c tasks gvars main) s) {loc : Loc} {spec : ProcSpec} {T : Task}
    {v : CommandRun} (hp : .procStart loc spec ∈ s.sh.trace) (hT : tasks.get? loc.task = some T)
    (hv : itemAt tasks loc = some (.command v)) (hG : c.globalEnv.WF) (hTe : T.env.WF) (hve : v.env.WF) :
    ∃ g m0 call, .taskVars loc.task g m0 call ∈ s.sh.trace ∧ ∀ k x y, v.env.get? k = none →
      (T.env.get? k = some x ∨ (T.env.get? k = none ∧ c.globalEnv.get? k = some x)) →
      interpolate x ⟨m0, c.env⟩ = .ok y → (¬ ∃ a b, y = a ++ "${{".toList ++ b) → NoNul y →
      procEnv c spec k = some y := by
  obtain ⟨g, m0, call, m, h1, -, h3⟩ := C28_environment h hp hT hv hG hTe hve
  refine ⟨g, m0, call, h1, fun k x y hx hy hi hb hn => ?_⟩
  have key : ∃ y z, interpolate x ⟨m0, c.env⟩ = .ok y ∧ interpolate y ⟨m, c.env⟩ = .ok z ∧ procEnv c spec k = some z := by
    rcases hy with hy | ⟨hy, hz⟩
    · exact (h3 k).2.1 x hx hy
    · exact (h3 k).2.2.1 x hx hy hz
  obtain ⟨y', z, j1, j2, j3⟩ := key
  rw [hi] at j1; cases j1
  rw [interpolate_plain _ hb hn] at j2
  cases j2; exact j3

/-- C29 fails for the `env` of a task: the escaped text `$${{ x }}` does not reach the command as
`${{ x }}`, it is expanded again. -/
theorem C29_expanded_twice :
    ∃ (tasks : TaskMap) (gvars : GoMap Str) (main : Str) (s : State) (T : Task) (loc : Loc) (spec : ProcSpec) (k : Str),
      Reach (start {} tasks gvars main) s ∧ tasks.get? loc.task = some T ∧ .procStart loc spec ∈ s.sh.trace ∧
      T.env = [(k, escapeAll "${{ x }}".toList)] ∧ procEnv {} spec k = some "value".toList := by
  refine ⟨Sample.twice, [("x".toList, "value".toList)], Sample.s "t",
    Exec.drive [.auto 100] (start {} Sample.twice [("x".toList, "value".toList)] (Sample.s "t")), _,
    ⟨Sample.s "t", 0, none⟩,
    { shell := "sh".toList, arg := "-c".toList, cmd := "make".toList, env := some [("K".toList, "value".toList)], dir := ".".toList, out := .terminal, stdin := true },
    "K".toList, Exec.reach _ _, rfl, by decide +kernel, by decide, by decide⟩

/-! ### C30 -/

/-- C30. The directory of a command is decided by the most specific of the directories of the item, the
task and the Babfile: it is expanded and seen from the directory of the Babfile that defines the task; if
it is not an existing directory, or cannot be expanded, there is an error and no result. -/
theorem C30_resolveDir {T : Task} (habs : T.sourcePath.head? = some '/') {cmdDir d : Str} (ctx : Ctx)
    (hd : DirSetting [cmdDir, T.dir, c.globalDir] d) (r : Str) :
    resolveDir c T cmdDir ctx = .ok r ↔
      ∃ p, interpolate d ctx = .ok p ∧ r = pathOf (seenFrom (dirOf T.sourcePath) p) ∧ c.stat r = .dir := by
  obtain ⟨hd0, hd1⟩ := dirSetting_eq hd
  unfold resolveDir
  dsimp only
  rw [hd1, if_neg hd0]
  cases hi : interpolate d ctx with
  | error e => simp
  | ok p =>
    dsimp only
    rw [resolve_path habs]
    constructor
    · intro h
      split at h
      · rename_i hs; cases h; exact ⟨p, rfl, rfl, hs⟩
      · cases h
    · rintro ⟨p', h1, h2, h3⟩
      cases h1
      rw [← h2, h3]

/-- C30. Without any setting a command runs in the directory of the Babfile that defines the task. -/
theorem C30_default {T : Task} (habs : T.sourcePath.head? = some '/') {cmdDir : Str} (ctx : Ctx)
    (hd : ¬ ∃ d, DirSetting [cmdDir, T.dir, c.globalDir] d) :
    resolveDir c T cmdDir ctx = .ok (pathOf (dirOf T.sourcePath)) := by
  have h1 : cmdDir = [] := by
    by_contra h; exact hd ⟨cmdDir, [], _, rfl, h, by simp⟩
  have h2 : T.dir = [] := by
    by_contra h; exact hd ⟨T.dir, [cmdDir], _, rfl, h, by simp [h1]⟩
  have h3 : c.globalDir = [] := by
    by_contra h; exact hd ⟨c.globalDir, [cmdDir, T.dir], [], rfl, h, by simp [h1, h2]⟩
  unfold resolveDir
  dsimp only
  rw [h1, h2, h3, dirPath_abs habs]; rfl

/-- C30. The directory of every process that is started. -/
theorem C30_directory (h : Reach (start c tasks gvars main) s) {loc : Loc} {spec : ProcSpec} {T : Task} {v : CommandRun}
    (hp : .procStart loc spec ∈ s.sh.trace) (hT : tasks.get? loc.task = some T)
    (hv : itemAt tasks loc = some (.command v)) (habs : T.sourcePath.head? = some '/') :
    ∃ m, .sees loc m ∈ s.sh.trace ∧
      (∀ d, DirSetting [v.dir, T.dir, c.globalDir] d → c.stat spec.dir = .dir ∧
        ∃ p, interpolate d ⟨m, c.env⟩ = .ok p ∧ spec.dir = pathOf (seenFrom (dirOf T.sourcePath) p)) ∧
      ((¬ ∃ d, DirSetting [v.dir, T.dir, c.globalDir] d) → spec.dir = pathOf (dirOf T.sourcePath)) := by
  obtain ⟨a, b, ht⟩ := List.append_of_mem hp
  obtain ⟨T', v', g, m0, call, tenv, m, text, env, dir, fr, k1, k2, k3, k4, k5, k6, k7, k8, -⟩ := proc_facts h ht
  rw [hT] at k1; cases k1
  rw [hv] at k2; cases k2
  obtain ⟨-, -, p3⟩ := prepare_inv k6
  have hdir : spec.dir = dir := by rw [k8]; rfl
  rw [hdir]
  refine ⟨m, by rw [ht]; simp [k5], fun d hd => ?_, fun hd => ?_⟩
  · obtain ⟨p, q1, q2, q3⟩ := (C30_resolveDir habs _ hd dir).mp p3
    exact ⟨q3, p, q1, q2⟩
  · rw [C30_default habs _ hd] at p3
    cases p3; rfl

/-- C30. A task is not completed when a command of it has no directory to run in: the command was skipped
because of its platform or condition, or the task was skipped, or the directory exists. -/
theorem C30_missing_directory (h : Reach (start c tasks gvars main) s) (hdry : c.dry = false) {n : Str} {T : Task}
    {i : Nat} {v : CommandRun} (hd : .done n ∈ s.sh.trace) (hT : tasks.get? n = some T)
    (hi : T.run[i]? = some (.command v)) (habs : T.sourcePath.head? = some '/') {d : Str}
    (hds : DirSetting [v.dir, T.dir, c.globalDir] d) :
    (∃ g, .taskSkip n g ∈ s.sh.trace) ∨ (∃ why, .itemSkip n i why ∈ s.sh.trace) ∨
    ∃ m p, .sees ⟨n, i, none⟩ m ∈ s.sh.trace ∧ interpolate d ⟨m, c.env⟩ = .ok p ∧
      c.stat (pathOf (seenFrom (dirOf T.sourcePath) p)) = .dir := by
  obtain ⟨a, b, ht⟩ := List.append_of_mem hd
  obtain ⟨T', hT', hdone⟩ := Safe.event_ok h ht
  rw [hT] at hT'; cases hT'
  have hsub : ∀ e, e ∈ a → e ∈ s.sh.trace := fun e he => by rw [ht]; simp [he]
  rcases hdone with ⟨g, hg⟩ | ⟨-, hall⟩
  · exact Or.inl ⟨g, hsub _ hg⟩
  rcases hall i _ hi with ⟨why, hw⟩ | hdone
  · exact Or.inr (Or.inl ⟨why, hsub _ hw⟩)
  refine Or.inr (Or.inr ?_)
  simp only [ItemDone, LeafDone, hdry, Bool.false_eq_true, if_false] at hdone
  have hdone := hsub _ hdone
  obtain ⟨a', b', ht'⟩ := List.append_of_mem hdone
  obtain ⟨-, spec, hs⟩ := Safe.event_ok h ht'
  have hs : .procStart ⟨n, i, none⟩ spec ∈ s.sh.trace := by rw [ht']; simp [hs]
  obtain ⟨m, k1, k2, -⟩ := C30_directory h hs hT (v := v) (by simp [itemAt, hT, hi]) habs
  obtain ⟨j1, p, j2, j3⟩ := k2 d hds
  exact ⟨m, p, k1, j2, j3 ▸ j1⟩

/-! ### C31 -/

/-- C31. Whether the output of a command is shown: the setting of the item if present, else of the
surrounding parallel block, else of the call, else of the task, else the global one, else shown. -/
theorem C31_output (h : Reach (start c tasks gvars main) s) {loc : Loc} {spec : ProcSpec} {T : Task} {v : CommandRun}
    (hp : .procStart loc spec ∈ s.sh.trace) (hT : tasks.get? loc.task = some T)
    (hv : itemAt tasks loc = some (.command v)) :
    ∃ g m0 call, .taskVars loc.task g m0 call ∈ s.sh.trace ∧
      Called tasks main loc.task call.silent call.output call.noColor ∧
      ∀ shown, Decides true [v.output, blockOutput tasks loc, call.output, T.output, c.globalOutput] shown ↔
        (shown = true ↔ spec.out ≠ .discard) := by
  obtain ⟨a, b, ht⟩ := List.append_of_mem hp
  obtain ⟨T', v', g, m0, call, tenv, m, text, env, dir, fr, k1, k2, k3, k4, k5, k6, k7, k8, -⟩ := proc_facts h ht
  rw [hT] at k1; cases k1
  rw [hv] at k2; cases k2
  have k3' : .taskVars loc.task g m0 call ∈ s.sh.trace := by rw [ht]; simp [k3]
  refine ⟨g, m0, call, k3', ?_, fun shown => ?_⟩
  · obtain ⟨x, y, hxy⟩ := List.append_of_mem k3'
    exact (Safe.event_ok h hxy).2.1
  rw [← isOutput_iff, ← isOutput_or, ← frame_output k7]
  have ho : spec.out = (match fr.out with
    | some s => if isOutput [v.output, fr.ovOutput, T.output, c.globalOutput] then OutTo.sink s else .discard
    | none => if isOutput [v.output, fr.ovOutput, T.output, c.globalOutput] then .terminal else .discard) := by
    rw [k8]; rfl
  rw [ho]
  cases fr.out <;> cases isOutput [v.output, fr.ovOutput, T.output, c.globalOutput] <;> cases shown <;> simp

/-- C31. Output of commands in parallel blocks never goes to the terminal directly, and such commands do
not read from the terminal. -/
theorem C31_block_output (h : Reach (start c tasks gvars main) s) {n : Str} {i j : Nat} {spec : ProcSpec}
    (hp : .procStart ⟨n, i, some j⟩ spec ∈ s.sh.trace) : spec.out ≠ .terminal ∧ spec.stdin = false := by
  obtain ⟨a, b, ht⟩ := List.append_of_mem hp
  obtain ⟨T', v', g, m0, call, tenv, m, text, env, dir, fr, k1, k2, k3, k4, k5, k6, k7, k8, -⟩ := proc_facts h ht
  obtain ⟨h1, -⟩ := k7
  obtain ⟨o, ho⟩ := Option.isSome_iff_exists.mp h1
  rw [k8]
  simp only [procSpec, ho]
  split <;> simp

/-- C31. Whether a command is echoed before it is started: decided by the setting of the item if present,
else of the surrounding parallel block, else of the call, else of the task, else the global one, else it is
echoed. What is echoed is the command that is started. -/
theorem C31_echo (h : Reach (start c tasks gvars main) s) {loc : Loc} {spec : ProcSpec} {T : Task} {v : CommandRun}
    {a b : List Ev} (ht : s.sh.trace = a ++ .procStart loc spec :: b) (hT : tasks.get? loc.task = some T)
    (hv : itemAt tasks loc = some (.command v)) :
    ∃ g m0 call, .taskVars loc.task g m0 call ∈ s.sh.trace ∧
      Called tasks main loc.task call.silent call.output call.noColor ∧
      (Decides false [v.silent, blockSilent tasks loc, call.silent, T.silent, c.globalSilent] false →
        ∃ o, .echoCmd loc spec.cmd o ∈ a) ∧
      (Decides false [v.silent, blockSilent tasks loc, call.silent, T.silent, c.globalSilent] true →
        ∀ text o, .echoCmd loc text o ∉ s.sh.trace) := by
  obtain ⟨T', v', g, m0, call, tenv, m, text, env, dir, fr, k1, k2, k3, k4, k5, k6, k7, k8, k9⟩ := proc_facts h ht
  rw [hT] at k1; cases k1
  rw [hv] at k2; cases k2
  have k3' : .taskVars loc.task g m0 call ∈ s.sh.trace := by rw [ht]; simp [k3]
  have hcmd : spec.cmd = text := by rw [k8]; rfl
  rw [hcmd]
  refine ⟨g, m0, call, k3', ?_, fun hd => ?_, fun hd text' o he => ?_⟩
  · obtain ⟨x, y, hxy⟩ := List.append_of_mem k3'
    exact (Safe.event_ok h hxy).2.1
  · refine k9 ?_
    rw [← isSilent_iff, ← isSilent_or, ← frame_silent k7] at hd
    exact hd
  · obtain ⟨x, y, hxy⟩ := List.append_of_mem he
    obtain ⟨-, T2, v2, g2, m2, call2, m', fr2, e1, e2, e3, e4, e5, e6, e7⟩ := Safe.event_ok h hxy
    rw [hT] at e1; cases e1
    rw [hv] at e2; cases e2
    have e3' : .taskVars loc.task g2 m2 call2 ∈ s.sh.trace := by rw [hxy]; simp [e3]
    have := vars_unique h k3' e3'
    obtain ⟨-, -, rfl⟩ := this
    rw [← isSilent_iff, ← isSilent_or, ← frame_silent e6, e7] at hd
    cases hd

/-- C31. The name of a task is shown before its items, if the call, the task and the Babfile do not say
otherwise, in this order of precedence; and if the name of a task is shown, then the task is called in a way
for which they do not say otherwise. -/
theorem C31_heading (h : Reach (start c tasks gvars main) s) (hdry : c.dry = false) {n : Str} {T : Task}
    (hT : tasks.get? n = some T) :
    (∀ a b g m call, s.sh.trace = a ++ .taskVars n g m call :: b →
      Decides false [call.silent, T.silent, c.globalSilent] false → ∃ x o, .echoTask n x o ∈ a) ∧
    (∀ x o, .echoTask n x o ∈ s.sh.trace →
      ∃ silent output noColor, Called tasks main n silent output noColor ∧
        Decides false [silent, T.silent, c.globalSilent] false) := by
  constructor
  · intro a b g m call ht hd
    obtain ⟨-, -, T', h1, h2⟩ := Safe.event_ok h ht
    rw [hT] at h1; cases h1
    exact h2 hdry ((isSilent_iff _ _).mpr hd)
  · intro x o hx
    obtain ⟨a, b, ht⟩ := List.append_of_mem hx
    obtain ⟨-, T', si, o, nc, h1, h2, h3⟩ := Safe.event_ok h ht
    rw [hT] at h1; cases h1
    exact ⟨si, o, nc, h2, (isSilent_iff _ _).mp h3⟩

end

/-- the processes started at a place -/
def Sample.procs (loc : Loc) : List ProcSpec :=
  Sample.settingsRun.sh.trace.filterMap fun | .procStart l spec => if l = loc then some spec else none | _ => none

-- the hypotheses of the theorems above are met by the commands of `Sample.settings`
example : Reach (start Sample.settingsCfg Sample.settings [("x".toList, "v".toList)] (Sample.s "t")) Sample.settingsRun :=
  Exec.reach _ _

example : (Sample.procs ⟨Sample.s "t", 0, none⟩).length = 1 ∧ (Sample.procs ⟨Sample.s "t", 1, some 0⟩).length = 1 ∧
    (Sample.procs ⟨Sample.s "u", 0, none⟩).length = 1 := by decide +kernel

-- C28, C29: item before task before global before inherited settings; the escape survives
example : (Sample.procs ⟨Sample.s "t", 0, none⟩).map (fun p => ["A", "B", "C", "D", "E"].map fun k => procEnv Sample.settingsCfg p k.toList) =
    [[some "${{ x }}".toList, some "v".toList, some "global".toList, some "inherited".toList, none]] := by decide +kernel

-- C28_colours: the block switches colours off
example : (Sample.procs ⟨Sample.s "t", 1, some 0⟩).map (fun p => ["TERM", "NO_COLOR", "FORCE_COLOR"].map fun k => procEnv Sample.settingsCfg p k.toList) =
    [[some "dumb".toList, some "1".toList, none]] := by decide +kernel

-- C30: most specific directory
example : (Sample.procs ⟨Sample.s "t", 0, none⟩).map (·.dir) = ["/home/u/v/lib".toList] ∧
    DirSetting ["../${{ x }}/./lib".toList, "src".toList, []] "../${{ x }}/./lib".toList ∧
    pathOf (seenFrom (dirOf "/home/u/p/Babfile.yml".toList) "../v/./lib".toList) = "/home/u/v/lib".toList :=
  ⟨by decide +kernel, ⟨[], _, rfl, by decide, by simp⟩, by decide⟩

-- C31: the task's `output` is overridden by the item; the caller's `silent` overrides the task's
example : (Sample.procs ⟨Sample.s "t", 0, none⟩).map (·.out) = [.discard] ∧
    (Sample.procs ⟨Sample.s "t", 1, some 0⟩).map (·.out) = [.sink ⟨[], [0]⟩] ∧
    .echoCmd ⟨Sample.s "t", 0, none⟩ "make".toList none ∈ Sample.settingsRun.sh.trace ∧
    .echoCmd ⟨Sample.s "u", 0, none⟩ "ls".toList none ∉ Sample.settingsRun.sh.trace := by decide +kernel

end Bab
