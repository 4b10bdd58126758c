import Verif.Model.Runner
/-
The cases of internal/runner/runner_test.go, run on the model. These are tests of the model, not proofs: where the model and
the code disagree on a case that the authors wrote down, this file does not build. In the tests nothing runs in parallel, so
an invocation has one course for given answers of the outside world; `exec` follows it, and `exec_reach` says that what it
computes is a course of the model.
-/

namespace Bab.TestRunner

/-- the answers of a world in which every process starts and exits with status 0 and every prompt gets this text -/
private def answer (text : Str) (σ : Shared) : (a : Act) → a.Resp
  | .claim n => σ.status.get? n
  | .setDone _ => ()
  | .status n => σ.status.get? n
  | .snapshot => σ.status
  | .globals => σ.gvars
  | .setGlobal _ _ => ()
  | .cancelled c => σ.isCancelled c
  | .newCtx => σ.ctxs
  | .start c _ _ => !σ.isCancelled c
  | .wait _ => none
  | .prompt _ _ => .ok text
  | .tui => true
  | .emit _ => ()
  | .fuel => ()

private theorem answer_ok (text : Str) (σ : Shared) (a : Act) : a.Answers σ (answer text σ a) := by
  cases a
  case start c loc spec => cases h : σ.isCancelled c <;> simp [Act.Answers, answer, h]
  all_goals first | rfl | simp [Act.Answers, answer]

/-- the course of a program without parallel blocks: its error and the shared state at its end -/
private def exec (text : Str) : Prog → Shared → Option (Option Err × Shared)
  | .ret r, σ => some (r, σ)
  | .act a k, σ => exec text (k (answer text σ a)) (a.apply σ (answer text σ a))
  | .par .., _ => none

private theorem Reach.trans' {s t u : State} (h : Reach s t) (h' : Reach t u) : Reach s u := by
  induction h' with
  | refl => exact h
  | step _ hs ih => exact .step ih hs

/-- what `exec` computes is a course of the model -/
theorem exec_reach (text : Str) (p : Prog) : ∀ (σ : Shared) (r : Option Err) (σ' : Shared),
    exec text p σ = some (r, σ') → Reach ⟨p, σ⟩ ⟨.ret r, σ'⟩ := by
  induction p with
  | ret r => intro σ r' σ' h; simp only [exec, Option.some.injEq, Prod.mk.injEq] at h; rw [h.1, h.2]; exact .refl
  | act a k ih =>
    intro σ r σ' h
    rw [exec] at h
    exact Reach.trans' (.step .refl (.prog (.act _ (answer_ok text σ a)))) (ih _ _ _ _ h)
  | par => intro σ r σ' h; simp [exec] at h

/-- `RunWithTasks` with the answers of `answer` -/
private def run (c : Cfg) (tasks : List Task) (name : String) : Option (Option Err × Shared) :=
  exec "answer".toList (runWithTasks c (tasks.map fun t => (t.name, t)) name.toList) (Shared.init [])

/-- whether it ends without an error -/
private def ok (c : Cfg) (tasks : List Task) (name : String) : Bool :=
  match run c tasks name with
  | some (none, _) => true
  | _ => false

private def error (c : Cfg) (tasks : List Task) (name : String) : Option Err :=
  match run c tasks name with
  | some (r, _) => r
  | _ => none

/-- what is shown of a dry run: the commands, the names of tasks and the texts of logs -/
private def would (c : Cfg) (tasks : List Task) (name : String) : List String :=
  match run { c with dry := true } tasks name with
  | some (_, σ) => σ.trace.filterMap fun e => match e with
    | .wouldRun _ t => some (String.ofList t)
    | .wouldTask _ t => some ("task " ++ String.ofList t)
    | .wouldLog _ t l => some (String.ofList l ++ " " ++ String.ofList t)
    | _ => none
  | none => []

/-- the processes of a run that is not dry -/
private def procs (c : Cfg) (tasks : List Task) (name : String) : List ProcSpec :=
  match run c tasks name with
  | some (_, σ) => σ.trace.filterMap fun e => match e with | .procStart _ s => some s | _ => none
  | none => []

private def cmd (s : String) : RunItem := .command { cmd := s.toList }
private def task (name : String) (items : List RunItem) : Task := { name := name.toList, run := items }
private def dry : Cfg := { dry := true }
private def m (l : List (String × String)) : GoMap Str := l.map fun p => (p.1.toList, p.2.toList)

-- 14-27 TestRunSimpleTask
private def hello : Task := { name := "hello".toList, run := [cmd "echo hello"] }
example : ok dry [hello] "hello" = true := by decide +kernel
example : would {} [hello] "hello" = ["echo hello"] := by decide +kernel

-- 29-47 TestRunWithDependencies
private def build : Task := { name := "build".toList, run := [cmd "echo building"] }
private def test : Task := { name := "test".toList, run := [cmd "echo testing"], deps := ["build".toList] }
example : ok dry [build, test] "test" = true := by decide +kernel
example : would {} [build, test] "test" = ["echo building", "echo testing"] := by decide +kernel

-- 49-65 TestRunTaskNotFound
example : error dry [hello] "nonexistent" = some (.taskNotFound "nonexistent".toList) := by decide +kernel

-- 67-89 TestRunCircularDependency
private def circA : Task := { name := "a".toList, run := [cmd "echo a"], deps := ["b".toList] }
private def circB : Task := { name := "b".toList, run := [cmd "echo b"], deps := ["a".toList] }

/-- the error inside all wrappings -/
private def root : Err → Err
  | .wrap _ e => root e
  | e => e

example : (error dry [circA, circB] "a").map root = some (.circularDep ["a".toList, "b".toList, "a".toList]) := by decide +kernel

-- 172-192 TestRunTaskWithTaskRef
private def main_ : Task := { name := "main".toList, run := [cmd "echo main", .task { task := "helper".toList }] }
private def helper : Task := { name := "helper".toList, run := [cmd "echo helper"] }
example : ok dry [main_, helper] "main" = true := by decide +kernel
example : would {} [main_, helper] "main" = ["echo main", "task helper"] := by decide +kernel

-- 194-214 TestRunTaskRefCircular
private def refA : Task := { name := "a".toList, run := [.task { task := "b".toList }] }
private def refB : Task := { name := "b".toList, run := [.task { task := "a".toList }] }
example : ((error {} [refA, refB] "a").map root).isSome = true := by decide +kernel
example : (match (error {} [refA, refB] "a").map root with | some (.circularDep _) => true | _ => false) = true := by decide +kernel

-- 216-273 TestRunEnv
private def echoFoo : Task := { name := "hello".toList, run := [cmd "echo $FOO"] }
private def lookupEnv (k : String) (s : ProcSpec) : Option String :=
  s.env.bind fun l => ((l.filter (fun p => p.1 = k.toList)).getLast?).map fun p => String.ofList p.2
example : (procs { globalEnv := m [("FOO", "bar")] } [echoFoo] "hello").map (lookupEnv "FOO") = [some "bar"] := by decide +kernel
example : (procs {} [{ echoFoo with env := m [("FOO", "task-value")] }] "hello").map (lookupEnv "FOO") = [some "task-value"] := by decide +kernel
example : (procs {} [{ echoFoo with run := [.command { cmd := "echo $FOO".toList, env := m [("FOO", "cmd-value")] }] }] "hello").map
    (lookupEnv "FOO") = [some "cmd-value"] := by decide +kernel

-- 275-295 TestRunEnvPrecedence
private def precedence : List ProcSpec :=
  procs { globalEnv := m [("FOO", "global"), ("BAR", "global"), ("BAZ", "global")] }
    [{ name := "test".toList, env := m [("FOO", "task"), ("BAR", "task")],
       run := [.command { cmd := "echo $FOO $BAR $BAZ".toList, env := m [("FOO", "cmd")] }] }] "test"
example : ["FOO", "BAR", "BAZ"].map (fun k => precedence.map (lookupEnv k)) = [[some "cmd"], [some "task"], [some "global"]] := by decide +kernel

-- 297-334 TestRunWithLogItem, TestRunWithLogAllLevels
private def log (s l : String) : RunItem := .log { log := s.toList, level := l.toList }
example : would {} [task "deploy"
      [log "Starting deployment..." "info", cmd "echo deploying", log "Deployment complete!" "info"]] "deploy" =
    ["info Starting deployment...", "echo deploying", "info Deployment complete!"] := by decide +kernel
example : would {} [{ name := "test".toList, run := [log "D" "debug", log "I" "info", log "W" "warn", log "E" "error"] }] "test" =
    ["debug D", "info I", "warn W", "error E"] := by decide +kernel

-- 336-358 TestRunLogPlatformSkip
example : error dry [task "test"
      [.log { log := "x".toList, level := "info".toList, platforms := ["nonexistent".toList] }]] "test" =
    some (.noItems "test".toList) := by decide +kernel

-- 360-417 TestBoolInheritanceFunctions
private def tt : Option Bool := some true
private def ff : Option Bool := some false
private def inheritance : List (List (Option Bool)) :=
  [[none, none, tt], [none, none, ff], [none, tt, ff], [none, ff, tt], [tt, ff, none], [ff, tt, none], [tt, ff, ff], [ff, tt, tt]]
example : isSilent [none, none, none] = false := by decide +kernel
example : isOutput [none, none, none] = true := by decide +kernel
example : inheritance.map isSilent = [true, false, true, false, true, false, true, false] := by decide +kernel
example : inheritance.map isOutput = [true, false, true, false, true, false, true, false] := by decide +kernel
example : [isSilent [tt, ff, ff, ff], isSilent [none, ff, tt, tt], isOutput [tt, ff, ff, ff], isOutput [none, ff, tt, tt]] =
    [true, false, true, false] := by decide +kernel

-- 419-507 TestRunSilent, TestSilentInheritance: which commands are announced
private def echoed (c : Cfg) (tasks : List Task) (name : String) : List String :=
  match run c tasks name with
  | some (_, σ) => σ.trace.filterMap fun e => match e with | .echoCmd _ t _ => some (String.ofList t) | _ => none
  | none => []
example : echoed {} [hello] "hello" = ["echo hello"] := by decide +kernel
example : echoed { globalSilent := tt } [hello] "hello" = [] := by decide +kernel
example : echoed {} [{ hello with silent := tt }] "hello" = [] := by decide +kernel
example : echoed {} [{ hello with run := [.command { cmd := "echo hello".toList, silent := tt }] }] "hello" = [] := by decide +kernel
example : echoed {} [{ main_ with run := [.task { task := "helper".toList, silent := tt }] }, helper] "main" = [] := by decide +kernel
example : echoed {} [{ task "test"
      [.command { cmd := "echo cmd1".toList, silent := ff }, cmd "echo cmd2"] with silent := tt }] "test" = ["echo cmd1"] := by decide +kernel

-- 509-583 TestRunOutput, TestOutputInheritance: where the output of the processes goes
example : (procs {} [hello] "hello").map (·.out) = [.terminal] := by decide +kernel
example : (procs { globalOutput := ff } [hello] "hello").map (·.out) = [.discard] := by decide +kernel
example : (procs {} [{ hello with output := ff }] "hello").map (·.out) = [.discard] := by decide +kernel
example : (procs {} [{ hello with run := [.command { cmd := "echo hello".toList, output := ff }] }] "hello").map (·.out) = [.discard] := by
  decide +kernel
example : (procs {} [{ task "test"
      [.command { cmd := "echo cmd1".toList, output := tt }, cmd "echo cmd2"] with output := ff }] "test").map (·.out) = [.terminal, .discard] := by
  decide +kernel

-- 585-830 TestResolveDir…
private def atDir (dir : String) : Task := { name := "test".toList, sourcePath := "/tmp/t/Babfile.yml".toList, dir := dir.toList }
private def disk : Str → StatRes := fun p =>
  if p ∈ ["/tmp/t/subdir", "/tmp/t/taskdir", "/tmp/t/cmddir", "/tmp/t/absolute", "/tmp/t/sub", "/tmp/t/release"].map String.toList then .dir
  else if p = "/tmp/t/afile".toList then .notDir
  else .missing
private def dirOf (global : String) (T : Task) (cmdDir : String) (vars : GoMap Str := []) : Except String String :=
  match resolveDir { globalDir := global.toList, stat := disk } T cmdDir.toList ⟨vars, fun _ => none⟩ with
  | .ok d => .ok (String.ofList d)
  | .error (.badDir d) => .error (String.ofList d)
  | .error _ => .error ""
private def good (r : Except String String) (d : String) : Bool := match r with | .ok d' => d' == d | .error _ => false
private def bad (r : Except String String) (d : String) : Bool := match r with | .ok _ => false | .error d' => d' == d
example : good (dirOf "" (atDir "") "") "/tmp/t" = true := by decide +kernel
example : good (dirOf "./subdir" (atDir "") "") "/tmp/t/subdir" = true := by decide +kernel
example : good (dirOf "./rootdir" (atDir "./taskdir") "") "/tmp/t/taskdir" = true := by decide +kernel
example : good (dirOf "./basedir" (atDir "./taskdir") "./cmddir") "/tmp/t/cmddir" = true := by decide +kernel
example : good (dirOf "" (atDir "/tmp/t/absolute") "") "/tmp/t/absolute" = true := by decide +kernel
example : bad (dirOf "" (atDir "./nonexistent") "") "/tmp/t/nonexistent" = true := by decide +kernel
example : bad (dirOf "" (atDir "./afile") "") "/tmp/t/afile" = true := by decide +kernel
example : good (dirOf "" { atDir "" with sourcePath := "/tmp/t/sub/Babfile.yml".toList } "") "/tmp/t/sub" = true := by decide +kernel
example : good (dirOf "" (atDir "./${{ target }}") "" (m [("target", "release")])) "/tmp/t/release" = true := by decide +kernel

-- 832-1002 TestRunWith…Dir, TestRunDirErrorNonExistent, TestRunDirCascadePrecedence, TestRunIncludedTaskUsesSourceDir
private def pwd (dir : String) : RunItem := .command { cmd := "pwd".toList, dir := dir.toList }
private def all : Str → StatRes := fun p =>
  if p ∈ ["/tmp/t/subdir", "/tmp/t/taskdir", "/tmp/t/cmddir", "/tmp/t/global", "/tmp/t/task", "/tmp/t/cmd"].map String.toList then .dir else .missing
private def dirs (global : String) (T : Task) : List String := (procs { globalDir := global.toList, stat := all } [T] "test").map fun s => String.ofList s.dir
example : dirs "./subdir" { atDir "" with run := [pwd ""] } = ["/tmp/t/subdir"] := by decide +kernel
example : dirs "" { atDir "./taskdir" with run := [pwd ""] } = ["/tmp/t/taskdir"] := by decide +kernel
example : dirs "" { atDir "" with run := [pwd "./cmddir"] } = ["/tmp/t/cmddir"] := by decide +kernel
example : dirs "" { atDir "./nonexistent" with run := [pwd ""] } = [] := by decide +kernel
example : (error { stat := all } [{ atDir "./nonexistent" with run := [pwd ""] }] "test").map root = some (.badDir "/tmp/t/nonexistent".toList) := by
  decide +kernel
example : dirs "./global" { atDir "./task" with run := [pwd "", pwd "./cmd", pwd "/tmp/t/global"] } =
    ["/tmp/t/task", "/tmp/t/cmd", "/tmp/t/global"] := by decide +kernel
example : dirs "" { atDir "" with sourcePath := "/tmp/t/sub/Babfile.yml".toList, run := [pwd ""] } = ["/tmp/t/sub"] := by decide +kernel

-- 1004-1049 TestInterpolatePromptFields
private def asked : Option PromptRun :=
  let p : PromptRun :=
    { prompt := "result".toList, type := .select, message := "Hello ${{ name }}".toList, default := "${{ env_val }}".toList
      placeholder := "Enter ${{ name }}'s value".toList, options := ["${{ env_val }}".toList, "staging".toList, "dev".toList]
      defaults := ["${{ env_val }}".toList] }
  match interpolatePrompt p ⟨m [("name", "Alice"), ("env_val", "production")], fun _ => none⟩ with
  | .ok p => some p
  | .error _ => none
example : asked.map (fun p => [p.message, p.default, p.placeholder].map String.ofList) =
    some ["Hello Alice", "production", "Enter Alice's value"] := by decide +kernel
example : asked.map (fun p => [p.options, p.defaults].map (·.map String.ofList)) =
    some [["production", "staging", "dev"], ["production"]] := by decide +kernel

end Bab.TestRunner
