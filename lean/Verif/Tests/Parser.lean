import Verif.Tests.ParserData
import Verif.Model.ReadMessage
/-
The cases of internal/parser/parser_test.go, run on the model. These are tests of the model, not proofs: where the model and
the code disagree on a case that the authors wrote down, this file does not build.
-/

namespace Bab.TestParser

open Bab.Yaml Bab.TestData

/-- `node.Decode`, as far as the cases need it -/
private def decoders : Decoders where
  strs := fun n => match n with
    | .seq _ ns => ns.mapM (fun m => match m with | .scalar _ _ v => some v | _ => none)
    | _ => none
  int := fun n => match n with | .scalar _ _ v => atoi v | _ => none
  bool := fun n => match n with
    | .scalar _ _ v => if v = "true".toList then some true else if v = "false".toList then some false else none
    | _ => none
  inc := fun n => match n with
    | .map _ [(.scalar _ _ k, .scalar _ _ v)] => if k = "babfile".toList then some v else none
    | _ => none
  compiles := fun _ => true
  why := fun _ _ => []
  complaint := fun _ => []

private def base : LoadTexts where
  isPrint := fun c => 32 ≤ c.toNat && c.toNat < 127
  cwd := some "/t".toList
  arg := []
  read := fun _ => "no such file".toList
  invalid := fun _ => .plain []
  similar := fun _ => []

/-- Go visits a map in any order; here it is that of the file. -/
private def orders : Orders where
  incs := fun _ m => m
  tasks := fun _ m => m
  aliases := fun _ m => m

/-- a path, and the files that there are in the directory `/t` of a case -/
private abbrev Case := String × List (String × Except String Node)

private def one (path : String) (n : Node) : Case := (path, [(path, .ok n)])

private def sources (c : Case) : GoMap (Except Str (Option Node)) :=
  c.2.map fun f => ("/t/".toList ++ f.1.toList, match f.2 with | .ok n => .ok (some n) | .error e => .error e.toList)

/-- `Parse`, in the directory of the files -/
private def load (c : Case) : Except PErr ParseResult :=
  parse (filesOf base decoders (sources c)) orders (fun n => 2 * n) id id id id "/t".toList c.1.toList

/-- a part of the result, if there is no error -/
private def get {α : Type} (c : Case) (f : ParseResult → α) : Option α :=
  match load c with
  | .ok r => some (f r)
  | .error _ => none

/-- a part of a task, if there is no error and there is a task of this name -/
private def ofTask {α : Type} (c : Case) (name : String) (f : Task → α) : Option α :=
  match load c with
  | .ok r => (r.tasks.get? name.toList).map f
  | .error _ => none

/-- the texts of the errors, as they are shown line by line -/
private def shown (c : Case) : List String :=
  match load c with
  | .ok _ => []
  | .error e => match e.toGo (withSources base decoders (sources c)) with
    | .many es => es.map fun e => String.ofList e.text
    | e => [String.ofList e.text]

private def names (c : Case) : Option (List String) := get c fun r => r.tasks.keys.map String.ofList

/-- what kind of item it is, and its main text -/
private def what : RunItem → String × String
  | .command c => ("cmd", String.ofList c.cmd)
  | .task t => ("task", String.ofList t.task)
  | .log l => ("log", String.ofList l.log)
  | .prompt p => ("prompt", String.ofList p.prompt)
  | .parallel .. => ("parallel", "")

private def commands (t : Task) : List CommandRun := t.run.filterMap fun i => match i with | .command c => some c | _ => none
private def calls (t : Task) : List TaskRun := t.run.filterMap fun i => match i with | .task c => some c | _ => none
private def logs (t : Task) : List LogRun := t.run.filterMap fun i => match i with | .log c => some c | _ => none
private def prompts (t : Task) : List PromptRun := t.run.filterMap fun i => match i with | .prompt c => some c | _ => none

private def strs (m : GoMap Str) : List (String × String) := m.map fun p => (String.ofList p.1, String.ofList p.2)

-- the cases of more than one file
private def of_main : Case :=
  ("includes/main.yml", [("includes/main.yml", .ok includes_main), ("includes/simple.yml", .ok includes_simple)])
private def of_circular_a : Case :=
  ("includes/circular_a.yml", [("includes/circular_a.yml", .ok includes_circular_a), ("includes/circular_b.yml", .ok includes_circular_b)])
private def of_deep_main : Case :=
  ("includes/deep/main.yml", [("includes/deep/main.yml", .ok includes_deep_main), ("includes/deep/first.yml", .ok includes_deep_first), ("includes/deep/second.yml", .ok includes_deep_second)])
private def of_main_log_prompt : Case :=
  ("includes/main_log_prompt.yml", [("includes/main_log_prompt.yml", .ok includes_main_log_prompt), ("includes/with_log_prompt.yml", .ok includes_with_log_prompt)])
private def of_dir_main : Case :=
  ("includes/dir_main.yml", [("includes/dir_main.yml", .ok includes_dir_main), ("includes/dir_sub.yml", .ok includes_dir_sub)])
private def of_alias_main : Case :=
  ("includes/alias_main.yml", [("includes/alias_main.yml", .ok includes_alias_main), ("includes/alias_sub.yml", .ok includes_alias_sub)])
private def of_globals_main : Case :=
  ("includes/globals_main.yml", [("includes/globals_main.yml", .ok includes_globals_main), ("includes/globals_sub.yml", .ok includes_globals_sub)])
private def invalid : Case := ("invalid_yaml.yml", [("invalid_yaml.yml", .error "yaml: line 4: could not find expected ':'")])

-- 13-38 TestParseSimpleTask
example : names (one "simple.yml" simple) = some ["hello"] := by decide +kernel
example : ofTask (one "simple.yml" simple) "hello" (fun t => String.ofList t.name) = some "hello" := by decide +kernel
example : ofTask (one "simple.yml" simple) "hello" (fun t => t.run.map what) = some [("cmd", "echo \"Hello World\"")] := by decide +kernel

-- 40-65 TestParseMultiCommand
example : ofTask (one "multi_command.yml" multi_command) "build" (fun t => String.ofList t.desc) = some "Build the project" := by decide +kernel
example : ofTask (one "multi_command.yml" multi_command) "build" (fun t => t.run.map what) =
    some [("cmd", "echo \"Compiling...\""), ("cmd", "echo \"Linking...\""), ("cmd", "echo \"Done!\"")] := by decide +kernel

-- 67-90 TestParseDependencies
example : names (one "dependencies.yml" dependencies) = some ["clean", "build", "test"] := by decide +kernel
example : ["clean", "build", "test"].map (fun n => ofTask (one "dependencies.yml" dependencies) n (fun t => t.deps.map String.ofList)) =
    [some [], some ["clean"], some ["build"]] := by decide +kernel

-- 92-112 TestParseNestedTasks
example : (names (one "nested.yml" nested)).map (·.length) = some 4 := by decide +kernel
example : ["ci:test", "ci:lint", "ci:full", "dev:start"].all (fun n => (ofTask (one "nested.yml" nested) n (fun _ => true)).isSome) = true := by decide +kernel
example : ofTask (one "nested.yml" nested) "ci:full" (fun t => t.deps.length) = some 2 := by decide +kernel

-- 114-129 TestParseDescriptions
example : ofTask (one "with_description.yml" with_description) "test" (fun t => String.ofList t.desc) = some "Run all unit tests" := by decide +kernel
example : ofTask (one "with_description.yml" with_description) "coverage" (fun t => String.ofList t.desc) = some "Generate coverage report" := by decide +kernel

-- 131-139 TestParseEmptyTasks
example : names (one "empty.yml" empty) = some [] := by decide +kernel

-- 141-149 TestParseInvalidYAML
example : (get invalid (fun _ => true)) = none := by decide +kernel
example : shown invalid = ["invalid_yaml.yml:4: could not find expected ':'"] := by decide +kernel

-- 151-159 TestParseInvalidDependency
example : (match load (one "invalid_deps.yml" invalid_deps) with | .error (.validation es) => es.map (·.err) | _ => []) =
    [.notFound "nonexistent_task".toList "test".toList] := by decide +kernel

-- 161-175 TestParseMultipleErrors
example : (shown (one "multiple_errors.yml" multiple_errors)).length = 3 := by decide +kernel

-- 177-185 TestParseNonexistentFile
example : (match load ("nonexistent.yml", []) with | .error e => some e | _ => none) = some (.notFound "/t/nonexistent.yml".toList) := by decide +kernel

-- 187-205 TestParseEmptyPath, TestParseWhitespacePath
example : (match load ("", []) with | .error e => some e | _ => none) = some .pathEmpty := by decide +kernel
example : (match load ("   ", []) with | .error e => some e | _ => none) = some .pathEmpty := by decide +kernel

-- 207-261 TestParseSimpleInclude, TestParseIncludeWithDeps
example : names of_main = some ["setup", "all", "gen:build", "gen:test"] := by decide +kernel
example : ofTask of_main "all" (fun t => t.deps.map String.ofList) = some ["setup", "gen:build"] := by decide +kernel

-- 263-271 TestParseCircularInclude
example : shown of_circular_a =
    ["includes/circular_a.yml: includes/circular_b.yml: includes/circular_a.yml: circular include: circular_a.yml → circular_b.yml → circular_a.yml"] := by
  decide +kernel

-- 273-285 TestParseNestedTaskNames
example : ["docker:build", "docker:push"].all (fun n => (ofTask (one "includes/nested.yml" includes_nested) n (fun _ => true)).isSome) = true := by decide +kernel

-- 287-327 TestParseTaskRun
example : (names (one "task_run.yml" task_run)).map (·.length) = some 3 := by decide +kernel
example : ofTask (one "task_run.yml" task_run) "main" (fun t => t.run.map what) =
    some [("cmd", "echo \"main command\""), ("task", "helper"), ("task", "nested:task")] := by decide +kernel

-- 329-347 TestParseTaskRunCycle, TestParseTaskRunNotFound
example : (match load (one "task_run_cycle.yml" task_run_cycle) with
    | .error (.validation es) => es.all (fun e => match e.err with | .cycle _ => true | _ => false) && !es.isEmpty
    | _ => false) = true := by decide +kernel
example : (match load (one "task_run_notfound.yml" task_run_notfound) with
    | .error (.validation es) => es.all (fun e => match e.err with | .notFound _ _ => true | _ => false) && !es.isEmpty
    | _ => false) = true := by decide +kernel

-- 349-390 TestParseDeepNestedInclude
example : names of_deep_main = some ["root", "first:build", "first:second:compile", "first:second:test"] := by decide +kernel
example : ofTask of_deep_main "first:build" (fun t => t.deps.map String.ofList) = some ["first:second:compile"] := by decide +kernel
example : ofTask of_deep_main "first:build" (fun t => (t.run.map what)[1]?) = some (some ("task", "first:second:test")) := by
  decide +kernel

-- 392-441 TestParseIncludeWithLogAndPrompt
example : ofTask of_main_log_prompt "ops:deploy" (fun t => t.run.length) = some 3 := by decide +kernel
example : ofTask of_main_log_prompt "ops:deploy" (fun t => (logs t).map fun l => (String.ofList l.log, String.ofList l.level)) =
    some [("Starting deployment", "info"), ("Done", "warn")] := by decide +kernel
example : ofTask of_main_log_prompt "ops:confirm" (fun t => t.run.length) = some 2 := by decide +kernel
example : ofTask of_main_log_prompt "ops:confirm" (fun t => (prompts t).map fun p => (String.ofList p.prompt, p.type)) =
    some [("proceed", .confirm)] := by decide +kernel

-- 443-461 TestParseGlobalEnv
example : get (one "env_global.yml" env_global) (fun r => strs r.env) = some [("NODE_ENV", "production"), ("PORT", "3000"), ("DEBUG", "false")] := by decide +kernel

-- 463-482 TestParseTaskEnv
example : ofTask (one "env_task.yml" env_task) "build" (fun t => strs t.env) = some [("BUILD_TYPE", "release"), ("OPTIMIZE", "true")] := by decide +kernel

-- 484-519 TestParseCommandEnv
example : ofTask (one "env_command.yml" env_command) "build" (fun t => (commands t).map fun c => strs c.env) =
    some [[("DEBUG", "true"), ("LOG_LEVEL", "verbose")], []] := by decide +kernel

-- 521-555 TestParseEnvInheritance
example : get (one "env_inheritance.yml" env_inheritance) (fun r => strs r.env) = some [("LEVEL", "global"), ("GLOBAL_ONLY", "global-only")] := by decide +kernel
example : ofTask (one "env_inheritance.yml" env_inheritance) "test" (fun t => strs t.env) = some [("LEVEL", "task"), ("TASK_ONLY", "task-only")] := by decide +kernel
example : ofTask (one "env_inheritance.yml" env_inheritance) "test" (fun t => (commands t).map fun c => strs c.env) =
    some [[("LEVEL", "command"), ("CMD_ONLY", "cmd-only")]] := by decide +kernel

-- 557-594 TestParseLogSimple
example : ofTask (one "log_simple.yml" log_simple) "deploy" (fun t => t.run.map (fun i => (what i).1)) = some ["log", "cmd", "log"] := by decide +kernel
example : ofTask (one "log_simple.yml" log_simple) "deploy" (fun t => (logs t).map fun l => (String.ofList l.log, String.ofList l.level)) =
    some [("Starting deployment...", "info"), ("Deployment complete!", "info")] := by decide +kernel

-- 596-636 TestParseLogExpanded
example : ofTask (one "log_expanded.yml" log_expanded) "build" (fun t => t.run.length) = some 4 := by decide +kernel
example : ofTask (one "log_expanded.yml" log_expanded) "build" (fun t => (logs t).map fun l => String.ofList l.level) = some ["info", "debug", "warn"] := by
  decide +kernel

-- 638-675 TestParseLogPlatforms
example : ofTask (one "log_platforms.yml" log_platforms) "setup" (fun t => (logs t).map fun l => l.platforms.map String.ofList) =
    some [["darwin"], ["linux"], []] := by decide +kernel

-- 677-689 TestParseLogInvalidLevel, TestParseLogWithCmd
example : (shown (one "log_invalid_level.yml" log_invalid_level)).length = 1 := by decide +kernel
example : (shown (one "log_with_cmd.yml" log_with_cmd)).length = 1 := by decide +kernel

-- 691-723 TestParseLogAllLevels
example : [one "log_level_debug.yml" log_level_debug, one "log_level_info.yml" log_level_info, one "log_level_warn.yml" log_level_warn,
      one "log_level_error.yml" log_level_error].map (fun l => ofTask l "test" (fun t => (logs t).map fun l => String.ofList l.level)) =
    [some ["debug"], some ["info"], some ["warn"], some ["error"]] := by decide +kernel

-- 830-844 TestParseSilent
example : get (one "silent_global.yml" silent_global) (fun r => r.silent) = some (some true) := by decide +kernel
example : ofTask (one "silent_task.yml" silent_task) "hello" (fun t => t.silent) = some (some true) := by decide +kernel
example : get (one "silent_false.yml" silent_false) (fun r => r.silent) = some (some false) := by decide +kernel
example : ofTask (one "silent_false.yml" silent_false) "hello" (fun t => (t.silent, (commands t).map (·.silent))) = some (some false, [some false]) := by decide +kernel
example : ofTask (one "silent_command.yml" silent_command) "hello" (fun t => (commands t)[0]?.map (·.silent)) = some (some (some true)) := by decide +kernel
example : ofTask (one "silent_taskrun.yml" silent_taskrun) "main" (fun t => (calls t)[0]?.map (·.silent)) = some (some (some true)) := by decide +kernel

-- 846-860 TestParseOutput
example : get (one "output_global.yml" output_global) (fun r => r.output) = some (some false) := by decide +kernel
example : ofTask (one "output_task.yml" output_task) "hello" (fun t => t.output) = some (some false) := by decide +kernel
example : get (one "output_true.yml" output_true) (fun r => r.output) = some (some true) := by decide +kernel
example : ofTask (one "output_true.yml" output_true) "hello" (fun t => (t.output, (commands t).map (·.output))) = some (some true, [some true]) := by decide +kernel
example : ofTask (one "output_command.yml" output_command) "hello" (fun t => (commands t)[0]?.map (·.output)) = some (some (some false)) := by decide +kernel
example : ofTask (one "output_taskrun.yml" output_taskrun) "main" (fun t => (calls t)[0]?.map (·.output)) = some (some (some false)) := by decide +kernel

-- 862-895 TestParsePromptInput
example : ofTask (one "prompt_input.yml" prompt_input) "test" (fun t => (prompts t).map fun p =>
      (String.ofList p.prompt, p.type, String.ofList p.message, String.ofList p.default, String.ofList p.placeholder)) =
    some [("username", .input, "Enter your username", "guest", "username")] := by decide +kernel

-- 897-921 TestParsePromptSelect
example : ofTask (one "prompt_select.yml" prompt_select) "test" (fun t => (prompts t).map fun p => (p.type, p.options.length, String.ofList p.default)) =
    some [(.select, 3, "dev")] := by decide +kernel

-- 923-953 TestParsePromptMultiselect
example : ofTask (one "prompt_multiselect.yml" prompt_multiselect) "test" (fun t => (prompts t).map fun p =>
      (p.type, p.options.length, p.defaults.length)) = some [(.multiselect, 3, 2)] := by decide +kernel
example : ofTask (one "prompt_multiselect.yml" prompt_multiselect) "test" (fun t => (prompts t).map fun p => (p.min, p.max)) =
    some [(some 1, some 2)] := by decide +kernel

-- 955-999 TestParsePromptConfirm, TestParsePromptPassword
example : ofTask (one "prompt_confirm.yml" prompt_confirm) "test" (fun t => (prompts t).map fun p => (p.type, String.ofList p.default)) =
    some [(.confirm, "false")] := by decide +kernel
example : ofTask (one "prompt_password.yml" prompt_password) "test" (fun t => (prompts t).map fun p => (p.type, p.confirm)) = some [(.password, some true)] := by decide +kernel

-- 1001-1028 TestParsePromptNumber
example : ofTask (one "prompt_number.yml" prompt_number) "test" (fun t => (prompts t).map fun p => (p.type, String.ofList p.default, p.min, p.max)) =
    some [(.number, "8080", some 1024, some 65535)] := by decide +kernel

-- 1030-1055 TestParsePromptErrors
example : shown (one "prompt_invalid_missing_type.yml" prompt_invalid_missing_type) = ["prompt_invalid_missing_type.yml:4: task \"test\": run[0]: prompt \"username\": 'type' is required"] := by
  decide +kernel
example : [one "prompt_invalid_type.yml" prompt_invalid_type, one "prompt_invalid_missing_options.yml" prompt_invalid_missing_options, one "prompt_invalid_default_not_in_options.yml" prompt_invalid_default_not_in_options, one "prompt_invalid_options_on_input.yml" prompt_invalid_options_on_input, one "prompt_invalid_confirm_on_input.yml" prompt_invalid_confirm_on_input, one "prompt_invalid_number_default.yml" prompt_invalid_number_default].map
      (fun f => (shown f).length) = [1, 1, 1, 1, 1, 1] := by decide +kernel

-- 1057-1138 TestParseDir
example : get (one "dir_global.yml" dir_global) (fun r => String.ofList r.dir) = some "./subdir" := by decide +kernel
example : ofTask (one "dir_task.yml" dir_task) "test" (fun t => String.ofList t.dir) = some "./mydir" := by decide +kernel
example : ofTask (one "dir_command.yml" dir_command) "test" (fun t => (commands t).map fun c => String.ofList c.dir) = some ["./cmddir"] := by decide +kernel
example : get (one "dir_cascade.yml" dir_cascade) (fun r => String.ofList r.dir) = some "./global" := by decide +kernel
example : ofTask (one "dir_cascade.yml" dir_cascade) "test" (fun t => (String.ofList t.dir, (commands t).map fun c => String.ofList c.dir)) =
    some ("./task", ["", "./cmd"]) := by decide +kernel

-- 1140-1209 TestParseTaskSourcePath, TestParseIncludeSourcePath, TestParseDeepIncludeSourcePath
example : ofTask (one "simple.yml" simple) "hello" (fun t => String.ofList t.sourcePath) = some "/t/simple.yml" := by decide +kernel
example : ["setup", "gen:build"].map (fun n => ofTask of_main n (fun t => String.ofList t.sourcePath)) =
    [some "/t/includes/main.yml", some "/t/includes/simple.yml"] := by decide +kernel
example : ["root", "first:build", "first:second:compile"].map (fun n => ofTask of_deep_main n (fun t => String.ofList t.sourcePath)) =
    [some "/t/includes/deep/main.yml", some "/t/includes/deep/first.yml", some "/t/includes/deep/second.yml"] := by decide +kernel

-- 1211-1235 TestParseIncludePreservesDir
example : ofTask of_dir_main "sub:build" (fun t => (String.ofList t.dir, (commands t)[1]?.map fun c => String.ofList c.dir)) =
    some ("./subtask", some "./subcmd") := by decide +kernel

-- 1237-1322 TestParseAlias
example : ofTask (one "alias_single.yml" alias_single) "greet" (fun t => String.ofList t.alias) = some "g" := by decide +kernel
example : get (one "alias_single.yml" alias_single) (fun r => strs r.aliases) = some [("g", "greet")] := by decide +kernel
example : ofTask (one "alias_multiple.yml" alias_multiple) "build" (fun t => t.aliases.map String.ofList) = some ["b", "bld"] := by decide +kernel
example : get (one "alias_multiple.yml" alias_multiple) (fun r => strs r.aliases) = some [("b", "build"), ("bld", "build")] := by decide +kernel
example : ofTask (one "alias_both.yml" alias_both) "deploy" (fun t => t.allAliases.length) = some 3 := by decide +kernel
example : get (one "alias_both.yml" alias_both) (fun r => strs r.aliases) = some [("d", "deploy"), ("dep", "deploy"), ("ship", "deploy")] := by decide +kernel
example : get (one "alias_empty.yml" alias_empty) (fun r => strs r.aliases) = some [("l", "lint")] := by decide +kernel

-- 1324-1344 TestParseAliasErrors
example : (match load (one "alias_conflict.yml" alias_conflict) with | .error (.validation es) => es.map (·.err) | _ => []) =
    [.aliasConflict "build".toList "test".toList] := by decide +kernel
example : (match load (one "alias_duplicate.yml" alias_duplicate) with | .error (.validation es) => es.map (·.err) | _ => []) =
    [.aliasTwice "t".toList "build".toList "test".toList] := by decide +kernel

-- 1346-1367 TestParseIncludeWithAliases
example : get of_alias_main (fun r => strs r.aliases) = some [("r", "run"), ("gen:b", "gen:build"), ("gen:bld", "gen:build")] := by
  decide +kernel
example : ofTask of_alias_main "gen:build" (fun t => String.ofList t.alias) = some "gen:b" := by decide +kernel

-- 1369-1465 TestParseIncludeInheritsGlobalDir, …Vars, …Env, …SilentOutput
private def inherited (t : Task) : String × Option String × Option String × Option Bool × Option Bool :=
  (String.ofList t.dir, ((t.vars.getD []).get? "sub_version".toList).map String.ofList, (t.env.get? "SUB_ENV".toList).map String.ofList,
    t.silent, t.output)

example : ofTask of_globals_main "sub:no-overrides" inherited =
    some ("./subglobal", some "2.0", some "from-sub", some true, some false) := by decide +kernel
example : ofTask of_globals_main "sub:with-overrides" inherited =
    some ("./subtask", some "3.0", some "from-task", some false, some true) := by decide +kernel

-- 1467-1495 TestParseIncludePreservesTaskRunFields
example : ofTask of_globals_main "sub:with-taskref" (fun t => (t.run.length, (calls t).map fun c =>
      (String.ofList c.task, c.silent, String.ofList c.cond))) =
    some (1, [("sub:no-overrides", some true, "${{ sub_version }}")]) := by decide +kernel

/-- whether a text contains another -/
private def hasStr (sub : Str) : Str → Bool
  | [] => sub.isEmpty
  | c :: s => sub.isPrefixOf (c :: s) || hasStr sub s

private def has (sub : String) (s : String) : Bool := hasStr sub.toList s.toList

-- 1497-1515 TestParseInvalidPlatform, TestParseInvalidDirGlobal
example : (shown (one "invalid_platform.yml" invalid_platform)).map (has "invalid platform") = [true] := by decide +kernel
example : (shown (one "invalid_dir_global.yml" invalid_dir_global)).map (has "dir must be a string") = [true] := by decide +kernel

/-- the parallel blocks: kinds of items, labels, mode, limit -/
private def blocks (t : Task) : List (List (String × String) × List String × ParallelMode × Nat) :=
  t.run.filterMap fun i => match i with
    | .parallel items labels mode limit _ _ _ _ _ _ => some (items.map what, labels.map String.ofList, mode, limit)
    | _ => none

-- 1517-1558 TestParseParallelBasic
example : ofTask (one "parallel_basic.yml" parallel_basic) "build:all" (fun t => t.run.length) = some 1 := by decide +kernel
example : ofTask (one "parallel_basic.yml" parallel_basic) "build:all" (fun t => (blocks t).map (·.1)) =
    some [[("task", "build:frontend"), ("task", "build:backend"), ("cmd", "echo \"libs\"")]] := by decide +kernel
example : ofTask (one "parallel_basic.yml" parallel_basic) "build:all" (fun t => (blocks t).map (·.2)) =
    some [(["", "", "libs"], .interleaved, 2)] := by decide +kernel

-- 1560-1581 TestParseParallelGrouped
example : ofTask (one "parallel_grouped.yml" parallel_grouped) "test:all" (fun t => (blocks t).map fun b => (b.1.length, b.2.2.1)) = some [(2, .grouped)] := by
  decide +kernel

-- 1583-1611 TestParseParallelRejectsPrompt, TestParseParallelRejectsNested, TestParseParallelInvalidMode
example : (shown (one "parallel_prompt.yml" parallel_prompt)).map (has "prompt items cannot be used inside parallel blocks") = [true] := by decide +kernel
example : (shown (one "parallel_nested.yml" parallel_nested)).map (has "parallel items cannot be nested") = [true] := by decide +kernel
example : (shown (one "parallel_invalid_mode.yml" parallel_invalid_mode)).map (has "invalid mode") = [true] := by decide +kernel

-- 1613-1629 TestParseParallelItemLabel
example : ofTask (one "parallel_basic.yml" parallel_basic) "build:all" (fun t => t.run.map fun i => match i with
      | .parallel items labels .. => [0, 2].map fun j => String.ofList (itemLabel items labels j)
      | _ => []) = some [["build:frontend", "libs"]] := by decide +kernel

-- 1631-1708 TestParseWhen
example : ofTask (one "when_task.yml" when_task) "deploy" (fun t => String.ofList t.cond) = some "${{ confirm }} == 'true'" := by decide +kernel
example : ofTask (one "when_command.yml" when_command) "test" (fun t => t.run.map fun i => String.ofList i.cond) =
    some ["${{ confirm }} == 'true'", "${{ confirm }} != 'true'"] := by decide +kernel
example : ofTask (one "when_all_types.yml" when_all_types) "test" (fun t => (String.ofList t.cond, t.run.map fun i => String.ofList i.cond)) =
    some ("${{ enabled }}", ["${{ run_cmd }} == 'true'", "${{ run_task }} == 'true'", "${{ run_log }} == 'true'", "${{ run_prompt }} == 'true'"]) := by
  decide +kernel

end Bab.TestParser
