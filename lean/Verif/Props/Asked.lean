import Verif.Proof.Asked
import Verif.Model.Cli
import Verif.Proof.Sample
/-
C108: of the variables of the process environment only those that the Babfile names are read.

`Cfg.env` is what bab looks up by name (`os.Getenv`, interpolate.go 71). What every process inherits (`os.Environ`, runner.go 510) is
`Cfg.environ`; it is handed on and never looked at, see C29.
-/

namespace Bab
open Spec Spec.Asked

section
variable {c : Cfg} {tasks : TaskMap} {gvars : GoMap Str} {main : Str} {N : Str → Prop} {env' : Str → Option Str}

/-- C108 (partial). If the Babfile refers to the environment variables of a set only, then an invocation can do exactly the same with any
other environment that gives the same values to these. The full statement needs no hypothesis about values; as the `env` of a task and of
the Babfile is expanded twice (finding 4), it fails, see `C108_injected`. Here these values have to be made of plain text and of environment
variables which contain no `$`. -/
theorem C108_unnamed_partial (hN : NamesAll N c tasks) (hs : SettledAll c.env c tasks) (he : ∀ x, N x → c.env x = env' x) (s : State) :
    Reach (start { c with env := env' } tasks gvars main) s ↔ Reach (start c tasks gvars main) s := by
  unfold start runWithTasks
  rw [Asked.run he hN hs]

/-- C108 (partial). A Babfile that refers to no environment variable at all does the same in every environment; its values of `env` must
contain no `$` here. -/
theorem C108_none_partial (hN : NamesAll (fun _ => False) c tasks) (h1 : ∀ p ∈ c.globalEnv, Inert p.2)
    (h2 : ∀ n T, tasks.get? n = some T → ∀ p ∈ T.env, Inert p.2) (s : State) :
    Reach (start { c with env := env' } tasks gvars main) s ↔ Reach (start c tasks gvars main) s := by
  have key : ∀ t, Inert t → Settled c.env t := by
    intro t ht
    obtain ⟨ts, hr⟩ := reads_exists t
    refine ⟨ht.2, ts, hr, ?_⟩
    replace ht := ht.1
    induction hr with
    | nil => rintro k ⟨⟩
    | esc _ _ => exact absurd (List.mem_append_left _ (by decide)) ht
    | ref hi _ _ =>
      obtain ⟨w1, w2, rfl, -⟩ := hi
      exact absurd (by simp) ht
    | chr _ _ _ ih =>
      rename_i ch _ _ _ _ _
      intro k hk
      rcases List.mem_cons.mp hk with rfl | hk
      · exact .inl ⟨ch, rfl, fun e => ht (e ▸ List.mem_cons_self)⟩
      · exact ih (fun hm => ht (List.mem_cons_of_mem _ hm)) k hk
  exact C108_unnamed_partial hN ⟨fun p hp => key _ (h1 p hp), fun n T hT p hp => key _ (h2 n T hT p hp)⟩ (fun _ h => h.elim) s

/-- C108. The variables of a Babfile and of a task: whether they can be resolved, and to what, depends only on the environment variables
that the definitions name. -/
theorem C108_variables {vars : Option (GoMap Str)} (hv : ∀ k raw, (vars.getD []).get? k = some raw → Names N raw) (parent : GoMap Str)
    {env : Str → Option Str} (he : ∀ x, N x → env x = env' x) : resolveVars vars parent env = resolveVars vars parent env' :=
  Asked.names_vars he hv parent

/-- C108. Expansion of any text depends only on the environment variables that the text names. -/
theorem C108_text {t : Str} (ht : Names N t) (vars : GoMap Str) {env : Str → Option Str} (he : ∀ x, N x → env x = env' x) :
    interpolate t ⟨vars, env⟩ = interpolate t ⟨vars, env'⟩ :=
  Asked.names_interpolate he ht vars
end

/-! ### the whole command -/

namespace Cli

/-- the same machine with another environment -/
def World.withEnv (w : World) (env' : Str → Option Str) : World := { w with base := { w.base with env := env' } }

/-- everything in the loaded Babfile names environment variables of the set only -/
structure NamesFile (N : Str → Prop) (r : ParseResult) : Prop where
  vars : ∀ k raw, (r.vars.getD []).get? k = some raw → Names N raw
  dir : Names N r.dir
  env : ∀ p ∈ r.env, Names N p.2
  tasks : ∀ n T, r.tasks.get? n = some T → NamesTask N T

/-- the values of `env` for all tasks and for single tasks are plain text and environment variables with plain text -/
structure SettledFile (env : Str → Option Str) (r : ParseResult) : Prop where
  all : ∀ p ∈ r.env, Settled env p.2
  tasks : ∀ n T, r.tasks.get? n = some T → ∀ p ∈ T.env, Settled env p.2

/-- Two outcomes that cannot be told apart: the same error, list, script, …, or two runs with the same executions. -/
inductive Same : Outcome → Outcome → Prop
  | refl (o) : Same o o
  | run {c c' : Cfg} {tasks : TaskMap} {gvars : GoMap Str} {name : Str}
      (h : ∀ s, Reach (start c' tasks gvars name) s ↔ Reach (start c tasks gvars name) s) : Same (.run c tasks gvars name) (.run c' tasks gvars name)

section
variable {N : Str → Prop} {env' : Str → Option Str}

/-- C108. What is loaded, and whether a Babfile is accepted, does not depend on the environment. -/
theorem C108_load (w : World) (v : Visit) (bf : Str) (env' : Str → Option Str) : loadTasks (w.withEnv env') v bf = loadTasks w v bf := rfl

/-- C108. Neither does what `--validate`, `--list` and `--completion` print. -/
theorem C108_no_run (w w' : World) (v v' : Visit) {fl : Flags} (h : fl.completion ≠ [] ∨ fl.validate = true ∨ fl.listTasks = true)
    (args : List Str) (pick : Pick) : run (w.withEnv env') (w'.withEnv env') v v' fl args pick = run w w' v v' fl args pick := by
  unfold run
  by_cases h1 : fl.completion ≠ []
  · simp only [if_pos h1]
  · simp only [if_neg h1]
    by_cases h2 : fl.validate = true
    · simp only [if_pos h2]; rfl
    · simp only [if_neg h2, if_pos ((h.resolve_left h1).resolve_left h2)]; rfl

theorem same_runTask {w : World} {v : Visit} {fl : Flags} (he : ∀ x, N x → w.base.env x = env' x)
    (hr : ∀ r, loadTasks w v fl.babfile = .ok r → NamesFile N r ∧ SettledFile w.base.env r) (x : Str) :
    Same (runTask w v fl x) (runTask (w.withEnv env') v fl x) := by
  unfold runTask
  rw [C108_load]
  cases hl : loadTasks w v fl.babfile with
  | error e => exact .refl _
  | ok r =>
    obtain ⟨h1, h2⟩ := hr r hl
    dsimp only [World.withEnv]
    rw [← C108_variables h1.vars [] he]
    cases placed 0 (resolveVars r.vars [] w.base.env) with
    | error e => exact .refl _
    | ok g =>
      exact .run fun s => C108_unnamed_partial
        (c := { w.base with dry := fl.dryRun, globalEnv := r.env, globalSilent := r.silent, globalOutput := r.output, globalDir := r.dir })
        ⟨h1.dir, h1.env, h1.tasks⟩ ⟨h2.all, h2.tasks⟩ he s

/-- C108 (partial), for the whole command: if the Babfile names environment variables of a set only, then the outcome is the same with any
other environment that gives the same values to these. The hypothesis about `env` is the one of `C108_unnamed_partial`. The Babfile is loaded
a second time when a task has been picked, therefore there are two machines. -/
theorem C108_command_partial {w w' : World} {v v' : Visit} {fl : Flags} (he : ∀ x, N x → w.base.env x = env' x)
    (he' : ∀ x, N x → w'.base.env x = env' x)
    (hr : ∀ r, loadTasks w v fl.babfile = .ok r → NamesFile N r ∧ SettledFile w.base.env r)
    (hr' : ∀ r, loadTasks w' v' fl.babfile = .ok r → NamesFile N r ∧ SettledFile w'.base.env r) (args : List Str) (pick : Pick) :
    Same (run w w' v v' fl args pick) (run (w.withEnv env') (w'.withEnv env') v v' fl args pick) := by
  unfold run
  by_cases h1 : fl.completion ≠ []
  · simp only [if_pos h1]; exact .refl _
  · simp only [if_neg h1]
    by_cases h2 : fl.validate = true
    · simp only [if_pos h2]; exact .refl _
    · simp only [if_neg h2]
      by_cases h3 : fl.listTasks = true
      · simp only [if_pos h3]; exact .refl _
      · simp only [if_neg h3]
        cases args with
        | cons a l => exact same_runTask he hr a
        | nil =>
          dsimp only
          unfold runInteractive
          rw [C108_load]
          cases loadTasks w v fl.babfile with
          | error e => exact .refl _
          | ok r =>
            dsimp only
            rw [show pickTask (w.withEnv env') r.tasks pick = pickTask w r.tasks pick from rfl]
            cases pickTask w r.tasks pick with
            | error e => exact .refl _
            | ok o =>
              cases o with
              | none => exact .refl _
              | some t => exact same_runTask he' hr' t.name

end
end Cli

/-! ### a variable that is read although nothing names it -/

/-- a task that passes the name of a branch on to its command -/
def Sample.branch : TaskMap :=
  [(Sample.s "t", { name := Sample.s "t", env := [(Sample.s "B", Sample.s "${{ env.BRANCH }}")], run := [.command { cmd := Sample.s "make" }] })]

/-- an environment in which the name of the branch has been chosen by somebody, and something else is secret -/
def Sample.machine (secret : String) : Str → Option Str := fun x =>
  if x = Sample.s "BRANCH" then some (Sample.s "${{ env.TOKEN }}") else if x = Sample.s "TOKEN" then some (Sample.s secret) else none

theorem Sample.names_of {N : Str → Prop} {t : Str} (h : ∀ x ∈ extractVarRefs 0 (replaceEscapes t), N (x.drop 4)) : Names N t := by
  rintro x ⟨ts, hr, hx⟩
  rw [← extract_replaceEscapes hr] at hx
  exact h _ hx

theorem Sample.branch_names {c : Cfg} (h1 : c.globalDir = []) (h2 : c.globalEnv = []) :
    NamesAll (fun x => x = Sample.s "BRANCH") c Sample.branch where
  dir := by rw [h1]; exact Sample.names_of (by decide)
  env := by rw [h2]; rintro p ⟨⟩
  tasks n T h := by
    unfold Sample.branch GoMap.get? at h
    split at h
    · cases h
      refine ⟨Sample.names_of (by decide), Sample.names_of (by decide), ?_, by rintro k raw ⟨⟩, ?_⟩
      · intro p hp
        rw [List.mem_singleton] at hp
        subst hp
        refine Sample.names_of fun x hx => ?_
        rw [show extractVarRefs 0 (replaceEscapes (Sample.s "${{ env.BRANCH }}")) = [Sample.s "env.BRANCH"] by decide +kernel,
          List.mem_singleton] at hx
        subst hx
        decide +kernel
      · intro i hi
        rw [List.mem_singleton] at hi
        subst hi
        exact ⟨Sample.names_of (by decide), Sample.names_of (by decide +kernel), Sample.names_of (by decide), by rintro p ⟨⟩⟩
    · cases h

/-- C108 fails. The Babfile names `BRANCH` only. When `BRANCH` contains the text of a reference to `TOKEN`, the command gets the value of
`TOKEN` as the name of the branch; with another `TOKEN` it gets another name. -/
theorem C108_injected : ∃ (tasks : TaskMap) (env env' : Str → Option Str) (s s' : State) (loc : Loc) (p p' : ProcSpec),
    NamesAll (fun x => x = Sample.s "BRANCH") {} tasks ∧ env (Sample.s "BRANCH") = env' (Sample.s "BRANCH") ∧
    Reach (start { env := env } tasks [] (Sample.s "t")) s ∧ .procStart loc p ∈ s.sh.trace ∧ p.env = some [(Sample.s "B", Sample.s "hunter2")] ∧
    Reach (start { env := env' } tasks [] (Sample.s "t")) s' ∧ .procStart loc p' ∈ s'.sh.trace ∧
      p'.env = some [(Sample.s "B", Sample.s "swordfish")] := by
  refine ⟨Sample.branch, Sample.machine "hunter2", Sample.machine "swordfish",
    Exec.drive [.auto 100] (start { env := Sample.machine "hunter2" } Sample.branch [] (Sample.s "t")),
    Exec.drive [.auto 100] (start { env := Sample.machine "swordfish" } Sample.branch [] (Sample.s "t")), ⟨Sample.s "t", 0, none⟩,
    { shell := "sh".toList, arg := "-c".toList, cmd := Sample.s "make", env := some [(Sample.s "B", Sample.s "hunter2")], dir := ".".toList, out := .terminal, stdin := true },
    { shell := "sh".toList, arg := "-c".toList, cmd := Sample.s "make", env := some [(Sample.s "B", Sample.s "swordfish")], dir := ".".toList, out := .terminal, stdin := true },
    Sample.branch_names rfl rfl, rfl, Exec.reach _ _, by decide +kernel, rfl, Exec.reach _ _, by decide +kernel, rfl⟩

/-- `C108_unnamed_partial` applies to the same task when the name of the branch is an ordinary one -/
example (env' : Str → Option Str) (h : env' (Sample.s "BRANCH") = some (Sample.s "main")) :
    ∃ s : State, Reach (start { env := env' } Sample.branch [] (Sample.s "t")) s ∧ ∃ loc p, .procStart loc p ∈ s.sh.trace ∧
      p.env = some [(Sample.s "B", Sample.s "main")] := by
  let env : Str → Option Str := fun x => if x = Sample.s "BRANCH" then some (Sample.s "main") else none
  have hs : SettledAll env { env := env } Sample.branch := by
    refine ⟨by rintro p ⟨⟩, fun n T hT p hp => ?_⟩
    unfold Sample.branch GoMap.get? at hT
    split at hT
    · cases hT
      rw [List.mem_singleton] at hp
      subst hp
      refine ⟨by unfold NoNul; decide +kernel, [.ref (Sample.s "env.BRANCH")], ?_, ?_⟩
      · exact .ref (r := []) (name := Sample.s "env.BRANCH") (t := Sample.s "${{ env.BRANCH }}")
          ⟨[' '], [' '], rfl, ⟨'e', Sample.s "nv.BRANCH", rfl, by unfold Letter; decide, by unfold NameChar Letter; decide +kernel⟩,
            by unfold Blank; decide, by unfold Blank; decide⟩ .nil
      · intro k hk
        rw [List.mem_singleton] at hk
        subst hk
        refine .inr ⟨Sample.s "BRANCH", rfl, ?_⟩
        unfold Inert NoNul
        decide +kernel
    · cases hT
  have := C108_unnamed_partial (env' := env') (gvars := []) (main := Sample.s "t") (Sample.branch_names (c := { env := env }) rfl rfl) hs
    (by rintro x rfl; rw [h]; rfl)
  exact ⟨Exec.drive [.auto 100] (start { env := env } Sample.branch [] (Sample.s "t")), (this _).mpr (Exec.reach _ _), ⟨Sample.s "t", 0, none⟩,
    { shell := "sh".toList, arg := "-c".toList, cmd := Sample.s "make", env := some [(Sample.s "B", Sample.s "main")], dir := ".".toList, out := .terminal, stdin := true },
    by decide +kernel, rfl⟩

end Bab
