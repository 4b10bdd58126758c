import Verif.Tests.ParserData
import Verif.Model.ReadMessage
import Verif.Model.Cli
/-
The cases of cmd/root_test.go, cmd/validate_test.go, cmd/completion_test.go and of the loading in internal/runner/runner_test.go,
run on the model. These are tests of the model, not proofs.
-/

namespace Bab.TestCli

open Bab.Yaml Bab.TestData Bab.Cli

private def decoders : Decoders where
  strs := fun n => match n with
    | .seq _ ns => ns.mapM (fun m => match m with | .scalar _ _ v => some v | _ => none)
    | _ => none
  int := fun _ => none
  bool := fun _ => none
  inc := fun _ => none
  compiles := fun _ => true
  why := fun _ _ => []
  complaint := fun _ => []

private def texts : LoadTexts where
  isPrint := fun c => 32 ≤ c.toNat && c.toNat < 127
  cwd := some "/t".toList
  arg := []
  read := fun _ => "no such file".toList
  invalid := fun _ => .plain []
  similar := fun _ => []

/-- a machine with one file in the working directory `/t`; `none` is a file that is not YAML -/
private def machine (name : String) (n : Option Node) : World where
  files := filesOf texts decoders
    [("/t/".toList ++ name.toList, match n with | some n => .ok (some n) | none => .error "yaml: line 1: did not find expected ',' or ']'".toList)]
  ex := fun p => p = "/t/".toList ++ name.toList
  cwd := "/t".toList
  base := {}
  find := fun _ _ => []

private def visit : Visit where
  orders := ⟨fun _ m => m, fun _ m => m, fun _ m => m⟩
  grow := fun n => 2 * n
  v1 := id
  v2 := id
  v3 := id
  v4 := id

/-- `run` with these flags and arguments, as a word -/
private def does (w : World) (fl : Flags) (args : List String) : String :=
  match Cli.run w w visit visit fl (args.map String.toList) (.msgs []) with
  | .failed .noBabfile => "no Babfile"
  | .failed (.load (.validation es)) => "invalid " ++ toString es.length
  | .failed (.load (.notFound _)) => "no file"
  | .failed (.load _) => "cannot be read"
  | .failed (.badShell _) => "invalid shell"
  | .failed _ => "other error"
  | .script s => "script " ++ String.ofList s
  | .valid n => "valid " ++ toString n
  | .listed _ => "listed"
  | .emptyList => "empty"
  | .nothing => "nothing"
  | .run c tasks _ name =>
    (if c.dry then "dry " else "") ++ "run " ++ String.ofList name ++ (if (tasks.get? name).isSome then "" else " not found")

/-- `tasks:` with tasks of one command, and dependencies -/
private def babfile (tasks : List (String × List String)) : Node :=
  o 1 [(s 1 "tasks", o 2 (tasks.map fun t =>
    (s 2 t.1, o 3 [(s 3 "deps", q 3 (t.2.map (s 3))), (s 4 "run", q 5 [o 5 [(s 5 "cmd", s 5 "echo")]])])))]

private def hello : World := machine "Babfile" (some (babfile [("hello", [])]))

-- cmd/root_test.go 92-161 TestCLI_runTask
example : does hello { dryRun := true } ["hello"] = "dry run hello" := by decide +kernel
example : does hello { dryRun := true } ["nonexistent"] = "dry run nonexistent not found" := by decide +kernel

-- cmd/root_test.go 163-208 TestCLI_run_dispatching
example : does hello { completion := "invalid".toList, listTasks := true } ["sometask"] = "invalid shell" := by decide +kernel
example : does hello { listTasks := true } ["nonexistent"] = "listed" := by decide +kernel

-- cmd/root_test.go 210-244 TestCLI_withCustomBabfile
private def custom : World := machine "custom-tasks.yml" (some (babfile [("custom", [])]))
example : does custom { dryRun := true, babfile := "/t/custom-tasks.yml".toList } ["custom"] = "dry run custom" := by decide +kernel
example : does custom { listTasks := true, babfile := "/t/custom-tasks.yml".toList } [] = "listed" := by decide +kernel
example : does custom { validate := true, babfile := "/t/custom-tasks.yml".toList } [] = "valid 1" := by decide +kernel

-- cmd/validate_test.go 11-95 TestCLI_runValidate
example : does hello { validate := true } [] = "valid 1" := by decide +kernel
example : does (machine "Babfile" (some (babfile [("build", ["clean"]), ("clean", [])]))) { validate := true } [] = "valid 2" := by decide +kernel
example : does (machine "Babfile" none) { validate := true } [] = "cannot be read" := by decide +kernel
example : does (machine "Babfile" (some (babfile [("build", ["nonexistent"])]))) { validate := true } [] = "invalid 1" := by decide +kernel

-- cmd/completion_test.go 11-98 TestCLI_runCompletion (without a shell, `runCompletion` itself complains)
example : ["bash", "zsh", "fish", "powershell", "invalid"].map (fun sh => does hello { completion := sh.toList } []) =
    ["script bash", "script zsh", "script fish", "script powershell", "invalid shell"] := by decide +kernel
example : (match runCompletion {} with | .failed (.badShell _) => true | _ => false) = true := by decide +kernel

-- internal/runner/runner_test.go 91-152 TestLoadTasks, TestLoadTasksWithCustomPath, TestLoadTasksWithNonexistentPath
private def loaded (w : World) (path : String) : Option (List String) :=
  match loadTasks w visit path.toList with
  | .ok r => some (r.tasks.keys.map String.ofList)
  | .error _ => none
example : loaded (machine "Babfile.yml" (some (babfile [("hello", []), ("world", [])]))) "" = some ["hello", "world"] := by decide +kernel
example : loaded custom "/t/custom-tasks.yml" = some ["custom"] := by decide +kernel
example : loaded custom "/nonexistent/path/Babfile.yml" = none := by decide +kernel

-- cmd/list_test.go 56-61: no Babfile
example : does (machine "other" none) { listTasks := true } [] = "no Babfile" := by decide +kernel

end Bab.TestCli
