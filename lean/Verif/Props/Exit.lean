import Verif.Model.Exit
import Verif.Props.CommandLine
import Verif.Props.Main
import Verif.Props.ResolveVars
/-
C99: the exit status of a command line.
-/

namespace Bab
open CmdLine Spec Spec.Words Cli

namespace Spec

/-- a Babfile is there and accepted -/
def Usable (w : World) (bf : Str) : Prop := ∃ p, Chosen w bf p ∧ Accepted w.files p

/-- errors in the text of a Babfile are not cancellation -/
def Calm.Texts (x : AllTexts) : Prop := ∀ p, ¬ Wraps (x.load.invalid p) .canceled

end Spec

theorem PErr.not_canceled {x : LoadTexts} (hx : ∀ p, ¬ Wraps (x.invalid p) .canceled) (e : PErr) : ¬ Wraps (e.toGo x) .canceled := by
  induction e with
  | inInclude p ns e ih =>
    intro h
    unfold PErr.toGo at h
    cases h with
    | wrap h => exact ih h
  | invalid p => exact hx p
  | validation errs =>
    intro h
    unfold PErr.toGo at h
    cases h with
    | many h1 h2 =>
      obtain ⟨e, -, rfl⟩ := List.mem_map.mp h1
      cases h2
  | pathEmpty | notFound p =>
    intro h
    unfold PErr.toGo at h
    cases h with
    | wrap h => cases h
  | circular p c | collision p n | fuel => intro h; unfold PErr.toGo at h; cases h

theorem load_not_canceled {x : AllTexts} (hx : Calm.Texts x) {w : World} {v : Visit} {bf : Str} {e : CliErr} (h : loadTasks w v bf = .error e) :
    ¬ Wraps (cliErr x e) .canceled := by
  have key : e = .noBabfile ∨ ∃ e', e = .load e' := by
    unfold loadTasks at h
    dsimp only at h
    split at h
    · split at h
      · cases h
      · exact .inr ⟨_, (Except.error.inj h).symm⟩
    · split at h
      · exact .inl (Except.error.inj h).symm
      · split at h
        · cases h
        · exact .inr ⟨_, (Except.error.inj h).symm⟩
  rcases key with rfl | ⟨e', rfl⟩
  · intro h; unfold cliErr at h; cases h
  · exact PErr.not_canceled hx e'

theorem globals_not_canceled {x : AllTexts} {vars : Option (GoMap Str)} {env : Str → Option Str} {l : Nat} {e : Err}
    (h : placed l (resolveVars vars [] env) = .error e) : ¬ Wraps (cliErr x (.globals e)) .canceled := by
  obtain ⟨e', he, rfl⟩ := of_placed_error h
  have hc : cause (e'.placed l) ≠ .canceled := by
    cases vars with
    | none => cases he
    | some m =>
      rcases C05_resolveVars_error_kind m [] env e' he with ⟨n, c, rfl, -⟩ | ⟨n, rfl, -⟩ <;> simp [Err.placed, cause]
  intro h
  unfold cliErr at h
  cases h with
  | wrap h => exact hc ((toGo_wraps _ _).mp h)

theorem status_some {x : AllTexts} {r : Option Err} {a : Answer} {e : GoErr} (h : returned x r a = some e) (he : ¬ Wraps e .canceled) :
    status x r a = 1 := by
  unfold status
  rcases (C54_exit (returned x r a)).2 with h0 | h1
  · exact absurd ((C54_exit _).1.mp h0 e h) he
  · exact h1

/-- **C99** The status is 0 or 1. It is 1 if the command line cannot be read: an unknown flag, a missing or wrong value. -/
theorem C99_usage {x : AllTexts} {r : Option Err} {w w' : World} {v v' : Visit} {pick : Pick} {args : List Str} :
    (status x r (invoke w w' v v' args pick) = 0 ∨ status x r (invoke w w' v v' args pick) = 1) ∧
    ((¬ ∃ said ws, Line args said ws ∧ Sensible said) → status x r (invoke w w' v v' args pick) = 1) := by
  refine ⟨(C54_exit _).2, fun h => ?_⟩
  unfold invoke
  cases hr : readArgs args with
  | error e => exact status_some rfl (fun h => by cases h)
  | ok sw =>
    obtain ⟨said, h1, h2, -⟩ := (C95_reads args sw.1 sw.2).mp hr
    exact (h ⟨said, _, h1, h2⟩).elim

theorem invoke_line {args : List Str} {said : Said} {ws : List Str} (h : Line args said ws) (hs : Sensible said) (w w' : World) (v v' : Visit)
    (pick : Pick) : invoke w w' v v' args pick = if On .help said then .help else if On .version said then .version else
      .did (run w w' v v' (meant said).flags ws pick) := by
  unfold invoke
  rw [(C95_reads _ (meant said) _).mpr ⟨said, h, hs, rfl⟩]
  rfl

section
variable {x : AllTexts} {r : Option Err} {w w' : World} {v v' : Visit} {pick : Pick} {args : List Str} {said : Said} {ws : List Str}

/-- **C99** With `--help`, `--version`, `--completion`, `--validate` or `--list`, in this order of precedence, the status tells whether
the shell is known or the Babfile is accepted. -/
theorem C99_flags (hx : Calm.Texts x) (hw : FilesWF w.files) (hv : VisitOK v) (h : Line args said ws) (hs : Sensible said) :
    ((On .help said = true ∨ On .version said = true) → status x r (invoke w w' v v' args pick) = 0) ∧
    (On .help said = false → On .version said = false →
      (Text .completion said ≠ [] → (status x r (invoke w w' v v' args pick) = 0 ↔ Text .completion said ∈ shells)) ∧
      (Text .completion said = [] → On .validate said = true ∨ On .list said = true →
        (status x r (invoke w w' v v' args pick) = 0 ↔ Usable w (Text .babfile said)))) := by
  rw [invoke_line h hs]
  refine ⟨fun hh => ?_, fun h1 h2 => ?_⟩
  · by_cases h1 : On .help said = true
    · rw [if_pos h1]; rfl
    · rw [if_neg h1, if_pos (hh.resolve_left h1)]; rfl
  · rw [if_neg (by simp [h1]), if_neg (by simp [h2])]
    refine ⟨fun hc => ?_, fun hc hvl => ?_⟩
    · rw [C64_script (fl := (meant said).flags) hc ws pick]
      by_cases hm : (meant said).flags.completion ∈ shells
      · rw [if_pos hm]; exact ⟨fun _ => hm, fun _ => rfl⟩
      · rw [if_neg hm]
        have : status x r (.did (.failed (.badShell (meant said).flags.completion))) = 1 := status_some rfl (fun h => by unfold cliErr at h; cases h)
        rw [this]
        exact ⟨fun h => absurd h (by decide), fun h => (hm h).elim⟩
    · rw [Spec.Usable, ← C64_load hw hv]
      have hcf : ¬ (meant said).flags.completion ≠ [] := not_not.mpr hc
      unfold run
      rw [if_neg hcf]
      by_cases hval : (meant said).flags.validate = true
      · rw [if_pos hval]
        unfold runValidate
        change _ ↔ ∃ r, loadTasks w v (meant said).flags.babfile = .ok r
        cases hl : loadTasks w v (meant said).flags.babfile with
        | error e =>
          dsimp only
          have := status_some (x := x) (r := r) (a := .did (.failed e)) rfl (load_not_canceled hx hl)
          rw [this]
          exact ⟨fun h => absurd h (by decide), by rintro ⟨_, h⟩; cases h⟩
        | ok R => exact ⟨fun _ => ⟨R, rfl⟩, fun _ => rfl⟩
      · rw [if_neg hval, if_pos (show (meant said).flags.listTasks = true from hvl.resolve_left hval)]
        unfold runList
        change _ ↔ ∃ r, loadTasks w v (meant said).flags.babfile = .ok r
        cases hl : loadTasks w v (meant said).flags.babfile with
        | error e =>
          dsimp only
          have := status_some (x := x) (r := r) (a := .did (.failed e)) rfl (load_not_canceled hx hl)
          rw [this]
          exact ⟨fun h => absurd h (by decide), by rintro ⟨_, h⟩; cases h⟩
        | ok R =>
          refine ⟨fun _ => ⟨R, rfl⟩, fun _ => ?_⟩
          dsimp only
          split <;> rfl

theorem runTask_status (hx : Calm.Texts x) (hw : FilesWF w.files) (hv : VisitOK v) {fl : Flags} {y : Str}
    (h0 : status x r (.did (Cli.runTask w v fl y)) = 0) :
    ∃ c tasks gvars name, Cli.runTask w v fl y = .run c tasks gvars name ∧ RunsFor w fl y c tasks gvars name ∧
      ∀ e, r = some e → cause e = .canceled := by
  cases ho : Cli.runTask w v fl y with
  | run c tasks gvars name =>
    rw [ho] at h0
    exact ⟨c, tasks, gvars, name, rfl, runTask_run hw hv ho, (C54_cause _ _).mp h0⟩
  | _ =>
    exfalso
    unfold Cli.runTask at ho
    cases hl : loadTasks w v fl.babfile with
    | error e =>
      have hr : Cli.runTask w v fl y = .failed e := by unfold Cli.runTask; rw [hl]
      rw [hr, status_some rfl (load_not_canceled hx hl)] at h0
      cases h0
    | ok R =>
      rw [hl] at ho
      dsimp only at ho
      cases hg : placed 0 (resolveVars R.vars [] w.base.env) with
      | error e =>
        have hr : Cli.runTask w v fl y = .failed (.globals e) := by unfold Cli.runTask; rw [hl]; dsimp only; rw [hg]
        rw [hr, status_some rfl (globals_not_canceled hg)] at h0
        cases h0
      | ok g => rw [hg] at ho; cases ho

/-- **C99** `bab <name>`, with whatever else on the command line: if the status is 0, then the Babfile is accepted, the task that the name
stands for was run, and it is done without any failure, or bab was interrupted. -/
theorem C99_task (hx : Calm.Texts x) (hw : FilesWF w.files) (hv : VisitOK v) {y : Str} (h : Line args said (y :: ws)) (hs : Sensible said)
    (h1 : On .help said = false) (h2 : On .version said = false) (h3 : Text .completion said = []) (h4 : On .validate said = false)
    (h5 : On .list said = false) (h0 : status x r (invoke w w' v v' args pick) = 0) :
    ∃ c tasks gvars name, invoke w w' v v' args pick = .did (.run c tasks gvars name) ∧ RunsFor w (meant said).flags y c tasks gvars name ∧
      ∀ s, Reach (start c tasks gvars name) s → s.prog = .ret r →
        (∃ e, r = some e ∧ cause e = .canceled) ∨ .done name ∈ s.sh.trace ∧ ∀ e ∈ s.sh.trace, ¬ Trouble e := by
  have hrun : run w w' v v' (meant said).flags (y :: ws) pick = Cli.runTask w v (meant said).flags y := by
    unfold run
    rw [if_neg (show ¬ (meant said).flags.completion ≠ [] from not_not.mpr h3), if_neg (show ¬ (meant said).flags.validate = true from by change ¬ On .validate said = true; simp [h4]),
      if_neg (show ¬ (meant said).flags.listTasks = true from by change ¬ On .list said = true; simp [h5])]
  rw [invoke_line h hs, if_neg (by simp [h1]), if_neg (by simp [h2]), hrun] at h0 ⊢
  obtain ⟨c, tasks, gvars, name, h6, h7, h8⟩ := runTask_status hx hw hv h0
  refine ⟨c, tasks, gvars, name, by rw [h6], h7, fun s hr hp => ?_⟩
  cases r with
  | none => exact .inr ⟨C16_success_means_done hr hp, C15_no_swallowed_failure hr hp⟩
  | some e => exact .inl ⟨e, rfl, h8 e rfl⟩

/-- **C99** and if the status is 1, then no Babfile is accepted, or its global variables cannot be resolved, or the task has failed. -/
theorem C99_task_fails (hw : FilesWF w.files) (hv : VisitOK v) {y : Str} (h : Line args said (y :: ws)) (hs : Sensible said)
    (h1 : On .help said = false) (h2 : On .version said = false) (h3 : Text .completion said = []) (h4 : On .validate said = false)
    (h5 : On .list said = false) (h0 : status x r (invoke w w' v v' args pick) = 1) :
    ¬ Usable w (Text .babfile said) ∨
    (∃ p b e, Chosen w (Text .babfile said) p ∧ w.files.get? p = some (some b) ∧ resolveVars b.vars [] w.base.env = .error e) ∨
    ∃ c tasks gvars name e, invoke w w' v v' args pick = .did (.run c tasks gvars name) ∧ RunsFor w (meant said).flags y c tasks gvars name ∧
      r = some e ∧ cause e ≠ .canceled := by
  rw [invoke_line h hs, if_neg (by simp [h1]), if_neg (by simp [h2])] at h0 ⊢
  rcases C64_task (w' := w') (v' := v') hw hv (fl := (meant said).flags) h3 h4 h5 y ws pick with ⟨e, -, hr | ⟨p, b, e', k1, k2, k3, -⟩⟩ | ⟨c, tasks, gvars, name, k1, k2⟩
  · exact .inl hr
  · exact .inr (.inl ⟨p, b, e', k1, k2, k3⟩)
  · rw [k1] at h0 ⊢
    refine .inr (.inr ?_)
    have hn : ¬ ∀ e, r = some e → cause e = .canceled := by
      intro hh
      have h00 : status x r (.did (.run c tasks gvars name)) = 0 := (C54_cause x.run r).mpr hh
      rw [h0] at h00
      cases h00
    rw [not_forall] at hn
    obtain ⟨e, he⟩ := hn
    rw [Classical.not_imp] at he
    exact ⟨c, tasks, gvars, name, e, rfl, k2, he.1, he.2⟩

/-- **C99** `bab` without a name: if the status is 0, then the Babfile is accepted and has tasks, and either the picker was left without a choice, or
bab was interrupted, or the chosen task was run and is done without any failure. -/
theorem C99_picker (hx : Calm.Texts x) (hw : FilesWF w.files) (hv : VisitOK v) (hw' : FilesWF w'.files) (hv' : VisitOK v') (h : Line args said [])
    (hs : Sensible said) (h1 : On .help said = false) (h2 : On .version said = false) (h3 : Text .completion said = [])
    (h4 : On .validate said = false) (h5 : On .list said = false) (h0 : status x r (invoke w w' v v' args pick) = 0) :
    ∃ (shown : TaskMap) (p : Str), Chosen w (Text .babfile said) p ∧ Accepted w.files p ∧ (∀ a T, shown.get? a = some T ↔ Makes w.files p a T) ∧ shown ≠ [] ∧
      (pick = .killed ∨ ∃ msgs, pick = .msgs msgs ∧
        ((Picker.run w.find shown msgs).selected = none ∨
         ∃ t c tasks gvars name, (Picker.run w.find shown msgs).selected = some t ∧ invoke w w' v v' args pick = .did (.run c tasks gvars name) ∧
          RunsFor w' (meant said).flags t.name c tasks gvars name ∧
          ∀ s, Reach (start c tasks gvars name) s → s.prog = .ret r →
            (∃ e, r = some e ∧ cause e = .canceled) ∨ .done name ∈ s.sh.trace ∧ ∀ e ∈ s.sh.trace, ¬ Trouble e)) := by
  have hrun : run w w' v v' (meant said).flags [] pick = Cli.runInteractive w w' v v' (meant said).flags pick := by
    unfold run
    rw [if_neg (show ¬ (meant said).flags.completion ≠ [] from not_not.mpr h3), if_neg (show ¬ (meant said).flags.validate = true from by change ¬ On .validate said = true; simp [h4]),
      if_neg (show ¬ (meant said).flags.listTasks = true from by change ¬ On .list said = true; simp [h5])]
  rw [invoke_line h hs, if_neg (by simp [h1]), if_neg (by simp [h2]), hrun] at h0 ⊢
  unfold runInteractive at h0 ⊢
  cases hl : loadTasks w v (meant said).flags.babfile with
  | error e =>
    rw [hl] at h0
    have h0' : status x r (.did (.failed e)) = 0 := h0
    rw [status_some rfl (load_not_canceled hx hl)] at h0'
    cases h0'
  | ok R =>
    rw [hl] at h0
    dsimp only at h0 ⊢
    obtain ⟨p, g1, g2, g3⟩ := loadTasks_ok hw hv hl
    have hmk := parseFile_makes hw hv.orders _ g3
    have hne : R.tasks ≠ [] := by
      intro he
      have hp : pickTask w R.tasks pick = .error .noTasks := by unfold pickTask; rw [he]; rfl
      rw [hp] at h0
      have h0' : status x r (.did (.failed .noTasks)) = 0 := h0
      rw [status_some rfl (fun h => by unfold cliErr at h; cases h)] at h0'
      cases h0'
    have hlen : ¬ R.tasks.length = 0 := fun he => hne (List.length_eq_zero_iff.mp he)
    refine ⟨R.tasks, p, g1, g2, hmk, hne, ?_⟩
    cases pick with
    | killed => exact .inl rfl
    | failed =>
      have hp : pickTask w R.tasks .failed = .error .picker := by unfold pickTask; rw [if_neg hlen]
      rw [hp] at h0
      have h0' : status x r (.did (.failed .picker)) = 0 := h0
      rw [status_some rfl (fun h => by unfold cliErr at h; cases h)] at h0'
      cases h0'
    | msgs l =>
      refine .inr ⟨l, rfl, ?_⟩
      have hp : pickTask w R.tasks (.msgs l) = .ok (Picker.run w.find R.tasks l).selected := by unfold pickTask; rw [if_neg hlen]; rfl
      rw [hp] at h0 ⊢
      cases hsel : (Picker.run w.find R.tasks l).selected with
      | none => exact .inl rfl
      | some t =>
        rw [hsel] at h0
        dsimp only at h0 ⊢
        obtain ⟨c, tasks, gvars, name, h6, h7, h8⟩ := runTask_status hx hw' hv' h0
        refine .inr ⟨t, c, tasks, gvars, name, rfl, by rw [h6], h7, fun s hr hp => ?_⟩
        cases r with
        | none => exact .inr ⟨C16_success_means_done hr hp, C15_no_swallowed_failure hr hp⟩
        | some e => exact .inl ⟨e, rfl, h8 e rfl⟩

/-- **C99** `bab` without a name, in a project with tasks: if the picker is left without a choice, nothing is run, and the status is 0; so it is if
bab is interrupted in the picker. -/
theorem C99_left (hw : FilesWF w.files) (hv : VisitOK v) (h : Line args said [])
    (hs : Sensible said) (h1 : On .help said = false) (h2 : On .version said = false) (h3 : Text .completion said = [])
    (h4 : On .validate said = false) (h5 : On .list said = false) {p : Str} (hp : Chosen w (Text .babfile said) p) (ha : Accepted w.files p)
    {a : Str} (hne : FileHas w.files p a) :
    (∃ shown : TaskMap, (∀ a T, shown.get? a = some T ↔ Makes w.files p a T) ∧
      ∀ msgs, (Picker.run w.find shown msgs).selected = none →
        invoke w w' v v' args (.msgs msgs) = .did .nothing ∧ status x r (invoke w w' v v' args (.msgs msgs)) = 0) ∧
    (¬ ∃ c tasks gvars name, invoke w w' v v' args .killed = .did (.run c tasks gvars name)) ∧
    status x r (invoke w w' v v' args .killed) = 0 := by
  have hrun : ∀ pick, run w w' v v' (meant said).flags [] pick = Cli.runInteractive w w' v v' (meant said).flags pick := by
    intro pick
    unfold run
    rw [if_neg (show ¬ (meant said).flags.completion ≠ [] from not_not.mpr h3), if_neg (show ¬ (meant said).flags.validate = true from by change ¬ On .validate said = true; simp [h4]),
      if_neg (show ¬ (meant said).flags.listTasks = true from by change ¬ On .list said = true; simp [h5])]
  have hinv : ∀ pick, invoke w w' v v' args pick = .did (Cli.runInteractive w w' v v' (meant said).flags pick) := by
    intro pick
    rw [invoke_line h hs, if_neg (by simp [h1]), if_neg (by simp [h2]), hrun]
  obtain ⟨R, hl⟩ := (C64_load hw hv (meant said).flags.babfile).mpr ⟨p, hp, ha⟩
  obtain ⟨q, g1, g2, g3⟩ := loadTasks_ok hw hv hl
  obtain rfl := chosen_unique hp g1
  obtain ⟨T, hT⟩ := (fileHas_iff (parseFile_ok hw hv.orders _ g3).2.1 a).mp hne
  have hlen : ¬ R.tasks.length = 0 := by
    intro he
    rw [List.length_eq_zero_iff.mp he] at hT
    cases hT
  refine ⟨⟨R.tasks, parseFile_makes hw hv.orders _ g3, fun msgs hsel => ?_⟩, ?_⟩
  · have hpick : pickTask w R.tasks (.msgs msgs) = .ok none := by
      unfold pickTask
      rw [if_neg hlen]
      exact congrArg Except.ok hsel
    have hno : invoke w w' v v' args (.msgs msgs) = .did .nothing := by
      rw [hinv]
      unfold runInteractive
      rw [hl]
      dsimp only
      rw [hpick]
    rw [hno]
    exact ⟨rfl, rfl⟩
  · have hpick : pickTask w R.tasks .killed = .error .killed := by
      unfold pickTask
      rw [if_neg hlen]
    have hno : invoke w w' v v' args .killed = .did (.failed .killed) := by
      rw [hinv]
      unfold runInteractive
      rw [hl]
      dsimp only
      rw [hpick]
    rw [hno]
    constructor
    · rintro ⟨_, _, _, _, h⟩
      cases h
    · exact (C54_exit _).1.mpr fun e he => by
        obtain rfl : GoErr.canceled = e := Option.some.inj he
        exact .self _

end

namespace Sample

/-- texts for the messages -/
def someTexts : AllTexts :=
  { run := { isPrint := fun _ => true, platform := s "linux", path := s "/p/Babfile.yml", cwd := none, similar := fun _ => [], other := fun _ => [] },
    load := { isPrint := fun _ => true, cwd := none, arg := [], read := fun _ => [], invalid := fun _ => .plain [], similar := fun _ => [] },
    usage := fun _ => [], other := fun _ => [] }

theorem someTexts_calm : Calm.Texts someTexts := by
  intro p h
  cases h

/-- `bab <args>`, when the runner returns `r` -/
def bab0 (args : List String) (r : Option Err) : Nat :=
  status someTexts r (invoke (desk project) (desk project) plainly plainly (args.map s) (.msgs [.down, .enter]))

example : bab0 ["--help", "nonsense"] none = 0 ∧ bab0 ["--hlep"] none = 1 ∧ bab0 ["-b"] none = 1 ∧ bab0 ["--validate"] none = 0 ∧
    bab0 ["--validate", "-b", "missing.yml"] none = 1 ∧ bab0 ["-c", "tcsh"] none = 1 ∧ bab0 ["a"] none = 0 ∧ bab0 [] none = 0 ∧
    bab0 ["a"] (some (.wrap (.dep (s "web:make")) (.taskNotFound (s "x")))) = 1 ∧ bab0 ["a", "-v"] (some (.wrap (.dep (s "web:make")) .canceled)) = 0 := by
  decide +kernel

/-- the hypotheses of C99_flags, C99_task and C99_picker for such command lines -/
example : FilesWF (desk project).files ∧ VisitOK plainly ∧ Line [s "a", ['-', 'v']] [(.verbose, trueText)] [s "a"] ∧ Sensible [(.verbose, trueText)] ∧
    On .help [(.verbose, trueText)] = false ∧ On .version [(.verbose, trueText)] = false ∧ Text .completion [(.verbose, trueText)] = [] ∧
    On .validate [(.verbose, trueText)] = false ∧ On .list [(.verbose, trueText)] = false ∧ Line [] [] [] ∧ Sensible [] :=
  ⟨project_wf, plainly_ok, .plain (.word (.inr (by decide +kernel)) (.group (g := [['-', 'v']]) (.shorts (.last (by simp [Short]) rfl)) .nil)),
    (by
      intro f v h _
      obtain ⟨rfl, rfl⟩ := Prod.mk.inj (List.mem_singleton.mp h)
      decide), by decide, by decide, by decide, by decide, by decide, .plain .nil, (by intro f v h; cases h)⟩

/-- the hypotheses of C99_left for `bab` -/
example : (∃ p, Chosen (desk project) (Text .babfile []) p ∧ Accepted (desk project).files p ∧ ∃ a, FileHas (desk project).files p a) ∧
    status someTexts none (invoke (desk project) (desk project) plainly plainly [] (.msgs [.down])) = 0 := by
  refine ⟨?_, by decide +kernel⟩
  obtain ⟨p, h1, h2⟩ := project_accepted
  refine ⟨p, h1, h2, s "all", ?_⟩
  have : p = s "/p/Babfile.yml" := chosen_unique (w := desk project) (bf := []) h1 ⟨s "/p/Babfile.yml", by decide +kernel, by decide +kernel, by decide +kernel⟩
  subst this
  exact ⟨[], [], s "all", _, _, .own rfl rfl, rfl⟩

/-- a command line that cannot be read -/
example : ¬ ∃ said ws, Line [s "--hlep"] said ws ∧ Sensible said := by
  rintro ⟨said, ws, h1, h2⟩
  have h := (C95_reads _ _ _).mpr ⟨said, h1, h2, rfl⟩
  have he : readArgs [s "--hlep"] = .error (.unknown (s "hlep")) := by decide +kernel
  rw [he] at h
  cases h

end Sample

end Bab
