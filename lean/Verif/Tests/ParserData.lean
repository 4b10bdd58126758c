import Verif.Model.Unmarshal
/-
The files of internal/parser/testdata as YAML trees with their lines, for the tests in `Tests/Parser`. The one file that is
not YAML (`invalid_yaml.yml`) is missing. The trees were written down by a script that reads the part of YAML that is used in
these files.
-/

namespace Bab.TestData

open Bab.Yaml

/-- a text -/
def s (line : Nat) (v : String) : Node := .scalar line "!!str".toList v.toList

/-- a truth value -/
def b (line : Nat) (v : String) : Node := .scalar line "!!bool".toList v.toList

/-- a number -/
def i (line : Nat) (v : String) : Node := .scalar line "!!int".toList v.toList

/-- a list -/
def q (line : Nat) (ns : List Node) : Node := .seq line ns

/-- a mapping -/
def o (line : Nat) (es : List (Node × Node)) : Node := .map line es

/-- testdata/alias_both.yml -/
def alias_both : Node :=
  o 1 [(s 1 "tasks", o 2 [(s 2 "deploy", o 3 [(s 3 "desc", s 3 "Deploy app"), (s 4 "alias", s 4 "d"), (s 5 "aliases", q 5 [s 5 "dep", s 5 "ship"]),
  (s 6 "run", q 7 [o 7 [(s 7 "cmd", s 7 "echo deploying")]])])])]

/-- testdata/alias_conflict.yml -/
def alias_conflict : Node :=
  o 1 [(s 1 "tasks", o 2 [(s 2 "test", o 3 [(s 3 "desc", s 3 "Run tests"), (s 4 "alias", s 4 "build"), (s 5 "run", q 6 [o 6 [(s 6 "cmd",
  s 6 "go test ./...")]])]), (s 7 "build", o 8 [(s 8 "desc", s 8 "Build the project"), (s 9 "run", q 10 [o 10 [(s 10 "cmd", s 10 "go build .")]])])])]

/-- testdata/alias_duplicate.yml -/
def alias_duplicate : Node :=
  o 1 [(s 1 "tasks", o 2 [(s 2 "test", o 3 [(s 3 "desc", s 3 "Run tests"), (s 4 "alias", s 4 "t"), (s 5 "run", q 6 [o 6 [(s 6 "cmd",
  s 6 "go test ./...")]])]), (s 7 "build", o 8 [(s 8 "desc", s 8 "Build the project"), (s 9 "alias", s 9 "t"), (s 10 "run", q 11 [o 11 [(s 11 "cmd",
  s 11 "go build .")]])])])]

/-- testdata/alias_empty.yml -/
def alias_empty : Node :=
  o 1 [(s 1 "tasks", o 2 [(s 2 "lint", o 3 [(s 3 "desc", s 3 "Run linter"), (s 4 "aliases", q 4 [s 4 "", s 4 "l", s 4 ""]), (s 5 "run",
  q 6 [o 6 [(s 6 "cmd", s 6 "echo linting")]])])])]

/-- testdata/alias_multiple.yml -/
def alias_multiple : Node :=
  o 1 [(s 1 "tasks", o 2 [(s 2 "build", o 3 [(s 3 "desc", s 3 "Build the project"), (s 4 "aliases", q 4 [s 4 "b", s 4 "bld"]), (s 5 "run",
  q 6 [o 6 [(s 6 "cmd", s 6 "go build .")]])])])]

/-- testdata/alias_single.yml -/
def alias_single : Node :=
  o 1 [(s 1 "tasks", o 2 [(s 2 "greet", o 3 [(s 3 "desc", s 3 "Say hello"), (s 4 "alias", s 4 "g"), (s 5 "run", q 6 [o 6 [(s 6 "cmd",
  s 6 "echo hello")]])])])]

/-- testdata/dependencies.yml -/
def dependencies : Node :=
  o 1 [(s 1 "tasks", o 2 [(s 2 "clean", o 3 [(s 3 "run", q 4 [o 4 [(s 4 "cmd", s 4 "echo \"Cleaning...\"")]])]), (s 6 "build", o 7 [(s 7 "deps",
  q 7 [s 7 "clean"]), (s 8 "run", q 9 [o 9 [(s 9 "cmd", s 9 "echo \"Building...\"")]])]), (s 11 "test", o 12 [(s 12 "deps", q 12 [s 12 "build"]),
  (s 13 "run", q 14 [o 14 [(s 14 "cmd", s 14 "echo \"Testing...\"")]])])])]

/-- testdata/dir_cascade.yml -/
def dir_cascade : Node :=
  o 1 [(s 1 "dir", s 1 "./global"), (s 3 "tasks", o 4 [(s 4 "test", o 5 [(s 5 "dir", s 5 "./task"), (s 6 "run", q 7 [o 7 [(s 7 "cmd",
  s 7 "echo \"uses task dir\"")], o 8 [(s 8 "cmd", s 8 "echo \"uses cmd dir\""), (s 9 "dir", s 9 "./cmd")]])])])]

/-- testdata/dir_command.yml -/
def dir_command : Node :=
  o 1 [(s 1 "tasks", o 2 [(s 2 "test", o 3 [(s 3 "run", q 4 [o 4 [(s 4 "cmd", s 4 "pwd"), (s 5 "dir", s 5 "./cmddir")]])])])]

/-- testdata/dir_global.yml -/
def dir_global : Node :=
  o 1 [(s 1 "tasks", o 2 [(s 2 "test", o 3 [(s 3 "run", q 4 [o 4 [(s 4 "cmd", s 4 "pwd")]])])]), (s 5 "dir", s 5 "./subdir")]

/-- testdata/dir_task.yml -/
def dir_task : Node :=
  o 1 [(s 1 "tasks", o 2 [(s 2 "test", o 3 [(s 3 "dir", s 3 "./mydir"), (s 4 "run", q 5 [o 5 [(s 5 "cmd", s 5 "pwd")]])])])]

/-- testdata/empty.yml -/
def empty : Node :=
  o 1 [(s 1 "tasks", o 1 [])]

/-- testdata/env_command.yml -/
def env_command : Node :=
  o 1 [(s 1 "tasks", o 2 [(s 2 "build", o 3 [(s 3 "run", q 4 [o 4 [(s 4 "cmd", s 4 "echo \"Debug mode\""), (s 5 "env", o 6 [(s 6 "DEBUG", s 6 "true"),
  (s 7 "LOG_LEVEL", s 7 "verbose")])], o 8 [(s 8 "cmd", s 8 "echo \"Normal mode\"")]])])])]

/-- testdata/env_global.yml -/
def env_global : Node :=
  o 1 [(s 1 "env", o 2 [(s 2 "NODE_ENV", s 2 "production"), (s 3 "PORT", s 3 "3000"), (s 4 "DEBUG", s 4 "false")]), (s 6 "tasks", o 7 [(s 7 "build",
  o 8 [(s 8 "run", q 9 [o 9 [(s 9 "cmd", s 9 "echo \"Building with $NODE_ENV\"")]])])])]

/-- testdata/env_inheritance.yml -/
def env_inheritance : Node :=
  o 1 [(s 1 "env", o 2 [(s 2 "LEVEL", s 2 "global"), (s 3 "GLOBAL_ONLY", s 3 "global-only")]), (s 5 "tasks", o 6 [(s 6 "test", o 7 [(s 7 "env",
  o 8 [(s 8 "LEVEL", s 8 "task"), (s 9 "TASK_ONLY", s 9 "task-only")]), (s 10 "run", q 11 [o 11 [(s 11 "cmd", s 11 "echo \"$LEVEL\""), (s 12 "env",
  o 13 [(s 13 "LEVEL", s 13 "command"), (s 14 "CMD_ONLY", s 14 "cmd-only")])]])])])]

/-- testdata/env_task.yml -/
def env_task : Node :=
  o 1 [(s 1 "tasks", o 2 [(s 2 "build", o 3 [(s 3 "desc", s 3 "Build the project"), (s 4 "env", o 5 [(s 5 "BUILD_TYPE", s 5 "release"),
  (s 6 "OPTIMIZE", s 6 "true")]), (s 7 "run", q 8 [o 8 [(s 8 "cmd", s 8 "echo \"Build type\"")]])])])]

/-- testdata/includes/alias_main.yml -/
def includes_alias_main : Node :=
  o 1 [(s 1 "includes", o 2 [(s 2 "gen", o 3 [(s 3 "babfile", s 3 "alias_sub.yml")])]), (s 5 "tasks", o 6 [(s 6 "run", o 7 [(s 7 "desc",
  s 7 "Run app"), (s 8 "alias", s 8 "r"), (s 9 "run", q 10 [o 10 [(s 10 "cmd", s 10 "echo running")]])])])]

/-- testdata/includes/alias_sub.yml -/
def includes_alias_sub : Node :=
  o 1 [(s 1 "tasks", o 2 [(s 2 "build", o 3 [(s 3 "desc", s 3 "Build the sub-project"), (s 4 "alias", s 4 "b"), (s 5 "aliases", q 5 [s 5 "bld"]),
  (s 6 "run", q 7 [o 7 [(s 7 "cmd", s 7 "go build .")]])])])]

/-- testdata/includes/circular_a.yml -/
def includes_circular_a : Node :=
  o 1 [(s 1 "includes", o 2 [(s 2 "b", o 3 [(s 3 "babfile", s 3 "./circular_b.yml")])]), (s 5 "tasks", o 6 [(s 6 "task_a", o 7 [(s 7 "run",
  q 8 [o 8 [(s 8 "cmd", s 8 "echo \"a\"")]])])])]

/-- testdata/includes/circular_b.yml -/
def includes_circular_b : Node :=
  o 1 [(s 1 "includes", o 2 [(s 2 "a", o 3 [(s 3 "babfile", s 3 "./circular_a.yml")])]), (s 5 "tasks", o 6 [(s 6 "task_b", o 7 [(s 7 "run",
  q 8 [o 8 [(s 8 "cmd", s 8 "echo \"b\"")]])])])]

/-- testdata/includes/deep/first.yml -/
def includes_deep_first : Node :=
  o 1 [(s 1 "includes", o 2 [(s 2 "second", o 3 [(s 3 "babfile", s 3 "./second.yml")])]), (s 5 "tasks", o 6 [(s 6 "build", o 7 [(s 7 "deps",
  q 7 [s 7 "second:compile"]), (s 8 "run", q 9 [o 9 [(s 9 "cmd", s 9 "echo \"first:build\"")], o 10 [(s 10 "task", s 10 "second:test")]])])])]

/-- testdata/includes/deep/main.yml -/
def includes_deep_main : Node :=
  o 1 [(s 1 "includes", o 2 [(s 2 "first", o 3 [(s 3 "babfile", s 3 "./first.yml")])]), (s 5 "tasks", o 6 [(s 6 "root", o 7 [(s 7 "deps",
  q 7 [s 7 "first:build"]), (s 8 "run", q 9 [o 9 [(s 9 "cmd", s 9 "echo \"root\"")]])])])]

/-- testdata/includes/deep/second.yml -/
def includes_deep_second : Node :=
  o 1 [(s 1 "tasks", o 2 [(s 2 "compile", o 3 [(s 3 "run", q 4 [o 4 [(s 4 "cmd", s 4 "echo \"compile\"")]])]), (s 6 "test", o 7 [(s 7 "run",
  q 8 [o 8 [(s 8 "cmd", s 8 "echo \"test\"")]])])])]

/-- testdata/includes/dir_main.yml -/
def includes_dir_main : Node :=
  o 1 [(s 1 "includes", o 2 [(s 2 "sub", o 3 [(s 3 "babfile", s 3 "./dir_sub.yml")])]), (s 5 "tasks", o 6 [(s 6 "main", o 7 [(s 7 "run",
  q 8 [o 8 [(s 8 "cmd", s 8 "pwd")]])])])]

/-- testdata/includes/dir_sub.yml -/
def includes_dir_sub : Node :=
  o 1 [(s 1 "dir", s 1 "./subglobal"), (s 3 "tasks", o 4 [(s 4 "build", o 5 [(s 5 "dir", s 5 "./subtask"), (s 6 "run", q 7 [o 7 [(s 7 "cmd",
  s 7 "pwd")], o 8 [(s 8 "cmd", s 8 "pwd"), (s 9 "dir", s 9 "./subcmd")]])])])]

/-- testdata/includes/globals_main.yml -/
def includes_globals_main : Node :=
  o 1 [(s 1 "includes", o 2 [(s 2 "sub", o 3 [(s 3 "babfile", s 3 "./globals_sub.yml")])]), (s 5 "tasks", o 6 [(s 6 "main", o 7 [(s 7 "run",
  q 8 [o 8 [(s 8 "cmd", s 8 "echo main")]])])])]

/-- testdata/includes/globals_sub.yml -/
def includes_globals_sub : Node :=
  o 1 [(s 1 "dir", s 1 "./subglobal"), (s 2 "silent", b 2 "true"), (s 3 "output", b 3 "false"), (s 5 "vars", o 6 [(s 6 "sub_version", s 6 "2.0")]),
  (s 8 "env", o 9 [(s 9 "SUB_ENV", s 9 "from-sub")]), (s 11 "tasks", o 12 [(s 12 "no-overrides", o 13 [(s 13 "run", q 14 [o 14 [(s 14 "cmd",
  s 14 "echo ${{ sub_version }}")]])]), (s 16 "with-overrides", o 17 [(s 17 "dir", s 17 "./subtask"), (s 18 "silent", b 18 "false"), (s 19 "output",
  b 19 "true"), (s 20 "vars", o 21 [(s 21 "sub_version", s 21 "3.0")]), (s 22 "env", o 23 [(s 23 "SUB_ENV", s 23 "from-task")]), (s 24 "run",
  q 25 [o 25 [(s 25 "cmd", s 25 "echo ${{ sub_version }}")]])]), (s 27 "with-taskref", o 28 [(s 28 "run", q 29 [o 29 [(s 29 "task",
  s 29 "no-overrides"), (s 30 "silent", b 30 "true"), (s 31 "when", s 31 "${{ sub_version }}")]])])])]

/-- testdata/includes/main.yml -/
def includes_main : Node :=
  o 1 [(s 1 "includes", o 2 [(s 2 "gen", o 3 [(s 3 "babfile", s 3 "./simple.yml")])]), (s 5 "tasks", o 6 [(s 6 "setup", o 7 [(s 7 "run",
  q 8 [o 8 [(s 8 "cmd", s 8 "echo \"setup\"")]])]), (s 10 "all", o 11 [(s 11 "deps", q 11 [s 11 "setup", s 11 "gen:build"]), (s 12 "run",
  q 13 [o 13 [(s 13 "cmd", s 13 "echo \"done\"")]])])])]

/-- testdata/includes/main_log_prompt.yml -/
def includes_main_log_prompt : Node :=
  o 1 [(s 1 "includes", o 2 [(s 2 "ops", o 3 [(s 3 "babfile", s 3 "./with_log_prompt.yml")])]), (s 5 "tasks", o 6 [(s 6 "start", o 7 [(s 7 "run",
  q 8 [o 8 [(s 8 "cmd", s 8 "echo start")]])])])]

/-- testdata/includes/nested.yml -/
def includes_nested : Node :=
  o 1 [(s 1 "tasks", o 2 [(s 2 "docker:build", o 3 [(s 3 "run", q 4 [o 4 [(s 4 "cmd", s 4 "docker build .")]])]), (s 5 "docker:push", o 6 [(s 6 "run",
  q 7 [o 7 [(s 7 "cmd", s 7 "docker push")]])])])]

/-- testdata/includes/simple.yml -/
def includes_simple : Node :=
  o 1 [(s 1 "tasks", o 2 [(s 2 "build", o 3 [(s 3 "run", q 4 [o 4 [(s 4 "cmd", s 4 "echo \"building\"")]])]), (s 6 "test", o 7 [(s 7 "run",
  q 8 [o 8 [(s 8 "cmd", s 8 "echo \"testing\"")]])])])]

/-- testdata/includes/with_log_prompt.yml -/
def includes_with_log_prompt : Node :=
  o 1 [(s 1 "tasks", o 2 [(s 2 "deploy", o 3 [(s 3 "run", q 4 [o 4 [(s 4 "log", s 4 "Starting deployment")], o 5 [(s 5 "cmd", s 5 "echo deploying")],
  o 6 [(s 6 "log", s 6 "Done"), (s 7 "level", s 7 "warn")]])]), (s 9 "confirm", o 10 [(s 10 "run", q 11 [o 11 [(s 11 "prompt", s 11 "proceed"),
  (s 12 "type", s 12 "confirm"), (s 13 "message", s 13 "Continue?")], o 14 [(s 14 "cmd", s 14 "echo confirmed")]])])])]

/-- testdata/invalid_deps.yml -/
def invalid_deps : Node :=
  o 1 [(s 1 "tasks", o 2 [(s 2 "test", o 3 [(s 3 "deps", q 3 [s 3 "nonexistent_task"]), (s 4 "run", q 5 [o 5 [(s 5 "cmd",
  s 5 "echo \"Testing\"")]])])])]

/-- testdata/invalid_dir_global.yml -/
def invalid_dir_global : Node :=
  o 1 [(s 1 "dir", o 2 [(s 2 "nested", s 2 "value")]), (s 4 "tasks", o 5 [(s 5 "build", o 6 [(s 6 "run", q 7 [o 7 [(s 7 "cmd",
  s 7 "echo hello")]])])])]

/-- testdata/invalid_platform.yml -/
def invalid_platform : Node :=
  o 1 [(s 1 "tasks", o 2 [(s 2 "build", o 3 [(s 3 "run", q 4 [o 4 [(s 4 "cmd", s 4 "echo hello"), (s 5 "platforms", q 6 [s 6 "macos"])]])])])]

/-- testdata/log_expanded.yml -/
def log_expanded : Node :=
  o 1 [(s 1 "tasks", o 2 [(s 2 "build", o 3 [(s 3 "run", q 4 [o 4 [(s 4 "log", s 4 "Build started"), (s 5 "level", s 5 "info")], o 6 [(s 6 "cmd",
  s 6 "go build .")], o 7 [(s 7 "log", s 7 "Build completed successfully"), (s 8 "level", s 8 "debug")], o 9 [(s 9 "log", s 9 "Ready for testing"),
  (s 10 "level", s 10 "warn")]])])])]

/-- testdata/log_invalid_level.yml -/
def log_invalid_level : Node :=
  o 1 [(s 1 "tasks", o 2 [(s 2 "test", o 3 [(s 3 "run", q 4 [o 4 [(s 4 "log", s 4 "test message"), (s 5 "level", s 5 "invalid")]])])])]

/-- testdata/log_level_debug.yml -/
def log_level_debug : Node :=
  o 1 [(s 1 "tasks", o 2 [(s 2 "test", o 3 [(s 3 "run", q 4 [o 4 [(s 4 "log", s 4 "test"), (s 5 "level", s 5 "debug")]])])])]

/-- testdata/log_level_error.yml -/
def log_level_error : Node :=
  o 1 [(s 1 "tasks", o 2 [(s 2 "test", o 3 [(s 3 "run", q 4 [o 4 [(s 4 "log", s 4 "test"), (s 5 "level", s 5 "error")]])])])]

/-- testdata/log_level_info.yml -/
def log_level_info : Node :=
  o 1 [(s 1 "tasks", o 2 [(s 2 "test", o 3 [(s 3 "run", q 4 [o 4 [(s 4 "log", s 4 "test"), (s 5 "level", s 5 "info")]])])])]

/-- testdata/log_level_warn.yml -/
def log_level_warn : Node :=
  o 1 [(s 1 "tasks", o 2 [(s 2 "test", o 3 [(s 3 "run", q 4 [o 4 [(s 4 "log", s 4 "test"), (s 5 "level", s 5 "warn")]])])])]

/-- testdata/log_platforms.yml -/
def log_platforms : Node :=
  o 1 [(s 1 "tasks", o 2 [(s 2 "setup", o 3 [(s 3 "run", q 4 [o 4 [(s 4 "log", s 4 "Setting up on macOS"), (s 5 "level", s 5 "info"),
  (s 6 "platforms", q 6 [s 6 "darwin"])], o 7 [(s 7 "log", s 7 "Setting up on Linux"), (s 8 "level", s 8 "info"), (s 9 "platforms",
  q 9 [s 9 "linux"])], o 10 [(s 10 "log", s 10 "Setup complete on all platforms")]])])])]

/-- testdata/log_simple.yml -/
def log_simple : Node :=
  o 1 [(s 1 "tasks", o 2 [(s 2 "deploy", o 3 [(s 3 "run", q 4 [o 4 [(s 4 "log", s 4 "Starting deployment...")], o 5 [(s 5 "cmd",
  s 5 "echo \"deploying\"")], o 6 [(s 6 "log", s 6 "Deployment complete!")]])])])]

/-- testdata/log_with_cmd.yml -/
def log_with_cmd : Node :=
  o 1 [(s 1 "tasks", o 2 [(s 2 "test", o 3 [(s 3 "run", q 4 [o 4 [(s 4 "log", s 4 "message"), (s 5 "cmd", s 5 "echo \"hello\"")]])])])]

/-- testdata/multi_command.yml -/
def multi_command : Node :=
  o 1 [(s 1 "tasks", o 2 [(s 2 "build", o 3 [(s 3 "desc", s 3 "Build the project"), (s 4 "run", q 5 [o 5 [(s 5 "cmd", s 5 "echo \"Compiling...\"")],
  o 6 [(s 6 "cmd", s 6 "echo \"Linking...\"")], o 7 [(s 7 "cmd", s 7 "echo \"Done!\"")]])])])]

/-- testdata/multiple_errors.yml -/
def multiple_errors : Node :=
  o 1 [(s 1 "tasks", o 2 [(s 2 "build", o 3 [(s 3 "run", q 4 [o 4 [(s 4 "invalid", b 4 "true")], o 5 [(s 5 "cmd", s 5 "hi"), (s 6 "task",
  s 6 "also")]])]), (s 7 "test", o 8 [(s 8 "run", q 9 [o 9 [(s 9 "bad", s 9 "data")]])])])]

/-- testdata/nested.yml -/
def nested : Node :=
  o 1 [(s 1 "tasks", o 2 [(s 2 "ci:test", o 3 [(s 3 "run", q 4 [o 4 [(s 4 "cmd", s 4 "echo \"Running tests\"")]])]), (s 6 "ci:lint", o 7 [(s 7 "run",
  q 8 [o 8 [(s 8 "cmd", s 8 "echo \"Linting code\"")]])]), (s 10 "ci:full", o 11 [(s 11 "deps", q 12 [s 12 "ci:test", s 13 "ci:lint"]), (s 14 "run",
  q 15 [o 15 [(s 15 "cmd", s 15 "echo \"CI complete\"")]])]), (s 17 "dev:start", o 18 [(s 18 "run", q 19 [o 19 [(s 19 "cmd",
  s 19 "echo \"Starting dev server\"")]])])])]

/-- testdata/output_command.yml -/
def output_command : Node :=
  o 1 [(s 1 "tasks", o 2 [(s 2 "hello", o 3 [(s 3 "run", q 4 [o 4 [(s 4 "cmd", s 4 "echo hello"), (s 5 "output", b 5 "false")]])])])]

/-- testdata/output_global.yml -/
def output_global : Node :=
  o 1 [(s 1 "output", b 1 "false"), (s 2 "tasks", o 3 [(s 3 "hello", o 4 [(s 4 "run", q 5 [o 5 [(s 5 "cmd", s 5 "echo hello")]])])])]

/-- testdata/output_task.yml -/
def output_task : Node :=
  o 1 [(s 1 "tasks", o 2 [(s 2 "hello", o 3 [(s 3 "output", b 3 "false"), (s 4 "run", q 5 [o 5 [(s 5 "cmd", s 5 "echo hello")]])])])]

/-- testdata/output_taskrun.yml -/
def output_taskrun : Node :=
  o 1 [(s 1 "tasks", o 2 [(s 2 "main", o 3 [(s 3 "run", q 4 [o 4 [(s 4 "task", s 4 "helper"), (s 5 "output", b 5 "false")]])]), (s 6 "helper",
  o 7 [(s 7 "run", q 8 [o 8 [(s 8 "cmd", s 8 "echo helper")]])])])]

/-- testdata/output_true.yml -/
def output_true : Node :=
  o 1 [(s 1 "output", b 1 "true"), (s 2 "tasks", o 3 [(s 3 "hello", o 4 [(s 4 "output", b 4 "true"), (s 5 "run", q 6 [o 6 [(s 6 "cmd",
  s 6 "echo hello"), (s 7 "output", b 7 "true")]])])])]

/-- testdata/parallel_basic.yml -/
def parallel_basic : Node :=
  o 1 [(s 1 "tasks", o 2 [(s 2 "build:frontend", o 3 [(s 3 "run", q 4 [o 4 [(s 4 "cmd", s 4 "echo \"frontend\"")]])]), (s 6 "build:backend",
  o 7 [(s 7 "run", q 8 [o 8 [(s 8 "cmd", s 8 "echo \"backend\"")]])]), (s 10 "build:all", o 11 [(s 11 "desc", s 11 "Build everything"), (s 12 "run",
  q 13 [o 13 [(s 13 "parallel", q 14 [o 14 [(s 14 "task", s 14 "build:frontend")], o 15 [(s 15 "task", s 15 "build:backend")], o 16 [(s 16 "cmd",
  s 16 "echo \"libs\""), (s 17 "label", s 17 "libs")]]), (s 18 "mode", s 18 "interleaved"), (s 19 "limit", i 19 "2")]])])])]

/-- testdata/parallel_grouped.yml -/
def parallel_grouped : Node :=
  o 1 [(s 1 "tasks", o 2 [(s 2 "test:all", o 3 [(s 3 "run", q 4 [o 4 [(s 4 "parallel", q 5 [o 5 [(s 5 "cmd", s 5 "echo \"test frontend\"")],
  o 6 [(s 6 "cmd", s 6 "echo \"test backend\"")]]), (s 7 "mode", s 7 "grouped")]])])])]

/-- testdata/parallel_invalid_mode.yml -/
def parallel_invalid_mode : Node :=
  o 1 [(s 1 "tasks", o 2 [(s 2 "bad", o 3 [(s 3 "run", q 4 [o 4 [(s 4 "parallel", q 5 [o 5 [(s 5 "cmd", s 5 "echo \"hello\"")]]), (s 6 "mode",
  s 6 "invalid")]])])])]

/-- testdata/parallel_nested.yml -/
def parallel_nested : Node :=
  o 1 [(s 1 "tasks", o 2 [(s 2 "bad", o 3 [(s 3 "run", q 4 [o 4 [(s 4 "parallel", q 5 [o 5 [(s 5 "parallel", q 6 [o 6 [(s 6 "cmd",
  s 6 "echo \"nested\"")]])]])]])])])]

/-- testdata/parallel_prompt.yml -/
def parallel_prompt : Node :=
  o 1 [(s 1 "tasks", o 2 [(s 2 "bad", o 3 [(s 3 "run", q 4 [o 4 [(s 4 "parallel", q 5 [o 5 [(s 5 "prompt", s 5 "name"), (s 6 "type", s 6 "input"),
  (s 7 "message", s 7 "Name?")]])]])])])]

/-- testdata/prompt_confirm.yml -/
def prompt_confirm : Node :=
  o 1 [(s 1 "tasks", o 2 [(s 2 "test", o 3 [(s 3 "run", q 4 [o 4 [(s 4 "prompt", s 4 "continue_deploy"), (s 5 "type", s 5 "confirm"), (s 6 "message",
  s 6 "Continue with deployment?"), (s 7 "default", s 7 "false")]])])])]

/-- testdata/prompt_input.yml -/
def prompt_input : Node :=
  o 1 [(s 1 "tasks", o 2 [(s 2 "test", o 3 [(s 3 "run", q 4 [o 4 [(s 4 "prompt", s 4 "username"), (s 5 "type", s 5 "input"), (s 6 "message",
  s 6 "Enter your username"), (s 7 "default", s 7 "guest"), (s 8 "placeholder", s 8 "username")]])])])]

/-- testdata/prompt_invalid_confirm_on_input.yml -/
def prompt_invalid_confirm_on_input : Node :=
  o 1 [(s 1 "tasks", o 2 [(s 2 "test", o 3 [(s 3 "run", q 4 [o 4 [(s 4 "prompt", s 4 "username"), (s 5 "type", s 5 "input"), (s 6 "message",
  s 6 "Enter username"), (s 7 "confirm", b 7 "true")]])])])]

/-- testdata/prompt_invalid_default_not_in_options.yml -/
def prompt_invalid_default_not_in_options : Node :=
  o 1 [(s 1 "tasks", o 2 [(s 2 "test", o 3 [(s 3 "run", q 4 [o 4 [(s 4 "prompt", s 4 "choice"), (s 5 "type", s 5 "select"), (s 6 "message",
  s 6 "Select an option"), (s 7 "options", q 8 [s 8 "a", s 9 "b", s 10 "c"]), (s 11 "default", s 11 "z")]])])])]

/-- testdata/prompt_invalid_missing_options.yml -/
def prompt_invalid_missing_options : Node :=
  o 1 [(s 1 "tasks", o 2 [(s 2 "test", o 3 [(s 3 "run", q 4 [o 4 [(s 4 "prompt", s 4 "choice"), (s 5 "type", s 5 "select"), (s 6 "message",
  s 6 "Select an option")]])])])]

/-- testdata/prompt_invalid_missing_type.yml -/
def prompt_invalid_missing_type : Node :=
  o 1 [(s 1 "tasks", o 2 [(s 2 "test", o 3 [(s 3 "run", q 4 [o 4 [(s 4 "prompt", s 4 "username"), (s 5 "message", s 5 "Enter username")]])])])]

/-- testdata/prompt_invalid_number_default.yml -/
def prompt_invalid_number_default : Node :=
  o 1 [(s 1 "tasks", o 2 [(s 2 "test", o 3 [(s 3 "run", q 4 [o 4 [(s 4 "prompt", s 4 "port"), (s 5 "type", s 5 "number"), (s 6 "message",
  s 6 "Enter port"), (s 7 "default", s 7 "not_a_number")]])])])]

/-- testdata/prompt_invalid_options_on_input.yml -/
def prompt_invalid_options_on_input : Node :=
  o 1 [(s 1 "tasks", o 2 [(s 2 "test", o 3 [(s 3 "run", q 4 [o 4 [(s 4 "prompt", s 4 "username"), (s 5 "type", s 5 "input"), (s 6 "message",
  s 6 "Enter username"), (s 7 "options", q 8 [s 8 "a", s 9 "b"])]])])])]

/-- testdata/prompt_invalid_type.yml -/
def prompt_invalid_type : Node :=
  o 1 [(s 1 "tasks", o 2 [(s 2 "test", o 3 [(s 3 "run", q 4 [o 4 [(s 4 "prompt", s 4 "username"), (s 5 "type", s 5 "invalid_type"), (s 6 "message",
  s 6 "Enter username")]])])])]

/-- testdata/prompt_multiselect.yml -/
def prompt_multiselect : Node :=
  o 1 [(s 1 "tasks", o 2 [(s 2 "test", o 3 [(s 3 "run", q 4 [o 4 [(s 4 "prompt", s 4 "features"), (s 5 "type", s 5 "multiselect"), (s 6 "message",
  s 6 "Select features"), (s 7 "options", q 8 [s 8 "auth", s 9 "api", s 10 "db"]), (s 11 "defaults", q 12 [s 12 "auth", s 13 "api"]), (s 14 "min",
  i 14 "1"), (s 15 "max", i 15 "2")]])])])]

/-- testdata/prompt_number.yml -/
def prompt_number : Node :=
  o 1 [(s 1 "tasks", o 2 [(s 2 "test", o 3 [(s 3 "run", q 4 [o 4 [(s 4 "prompt", s 4 "port"), (s 5 "type", s 5 "number"), (s 6 "message",
  s 6 "Enter port number"), (s 7 "default", s 7 "8080"), (s 8 "min", i 8 "1024"), (s 9 "max", i 9 "65535")]])])])]

/-- testdata/prompt_password.yml -/
def prompt_password : Node :=
  o 1 [(s 1 "tasks", o 2 [(s 2 "test", o 3 [(s 3 "run", q 4 [o 4 [(s 4 "prompt", s 4 "secret_key"), (s 5 "type", s 5 "password"), (s 6 "message",
  s 6 "Enter secret key"), (s 7 "confirm", b 7 "true")]])])])]

/-- testdata/prompt_select.yml -/
def prompt_select : Node :=
  o 1 [(s 1 "tasks", o 2 [(s 2 "test", o 3 [(s 3 "run", q 4 [o 4 [(s 4 "prompt", s 4 "environment"), (s 5 "type", s 5 "select"), (s 6 "message",
  s 6 "Select environment"), (s 7 "options", q 8 [s 8 "dev", s 9 "staging", s 10 "prod"]), (s 11 "default", s 11 "dev")]])])])]

/-- testdata/silent_command.yml -/
def silent_command : Node :=
  o 1 [(s 1 "tasks", o 2 [(s 2 "hello", o 3 [(s 3 "run", q 4 [o 4 [(s 4 "cmd", s 4 "echo hello"), (s 5 "silent", b 5 "true")]])])])]

/-- testdata/silent_false.yml -/
def silent_false : Node :=
  o 1 [(s 1 "silent", b 1 "false"), (s 2 "tasks", o 3 [(s 3 "hello", o 4 [(s 4 "silent", b 4 "false"), (s 5 "run", q 6 [o 6 [(s 6 "cmd",
  s 6 "echo hello"), (s 7 "silent", b 7 "false")]])])])]

/-- testdata/silent_global.yml -/
def silent_global : Node :=
  o 1 [(s 1 "silent", b 1 "true"), (s 2 "tasks", o 3 [(s 3 "hello", o 4 [(s 4 "run", q 5 [o 5 [(s 5 "cmd", s 5 "echo hello")]])])])]

/-- testdata/silent_task.yml -/
def silent_task : Node :=
  o 1 [(s 1 "tasks", o 2 [(s 2 "hello", o 3 [(s 3 "silent", b 3 "true"), (s 4 "run", q 5 [o 5 [(s 5 "cmd", s 5 "echo hello")]])])])]

/-- testdata/silent_taskrun.yml -/
def silent_taskrun : Node :=
  o 1 [(s 1 "tasks", o 2 [(s 2 "main", o 3 [(s 3 "run", q 4 [o 4 [(s 4 "task", s 4 "helper"), (s 5 "silent", b 5 "true")]])]), (s 6 "helper",
  o 7 [(s 7 "run", q 8 [o 8 [(s 8 "cmd", s 8 "echo helper")]])])])]

/-- testdata/simple.yml -/
def simple : Node :=
  o 1 [(s 1 "tasks", o 2 [(s 2 "hello", o 3 [(s 3 "run", q 4 [o 4 [(s 4 "cmd", s 4 "echo \"Hello World\"")]])])])]

/-- testdata/task_run.yml -/
def task_run : Node :=
  o 1 [(s 1 "tasks", o 2 [(s 2 "main", o 3 [(s 3 "run", q 4 [o 4 [(s 4 "cmd", s 4 "echo \"main command\"")], o 5 [(s 5 "task", s 5 "helper")],
  o 6 [(s 6 "task", s 6 "nested:task")]])]), (s 8 "helper", o 9 [(s 9 "run", q 10 [o 10 [(s 10 "cmd", s 10 "echo \"helper\"")]])]),
  (s 12 "nested:task", o 13 [(s 13 "run", q 14 [o 14 [(s 14 "cmd", s 14 "echo \"nested task\"")]])])])]

/-- testdata/task_run_cycle.yml -/
def task_run_cycle : Node :=
  o 1 [(s 1 "tasks", o 2 [(s 2 "a", o 3 [(s 3 "run", q 4 [o 4 [(s 4 "task", s 4 "b")]])]), (s 5 "b", o 6 [(s 6 "run", q 7 [o 7 [(s 7 "task",
  s 7 "a")]])])])]

/-- testdata/task_run_notfound.yml -/
def task_run_notfound : Node :=
  o 1 [(s 1 "tasks", o 2 [(s 2 "main", o 3 [(s 3 "run", q 4 [o 4 [(s 4 "task", s 4 "nonexistent")]])])])]

/-- testdata/when_all_types.yml -/
def when_all_types : Node :=
  o 1 [(s 1 "tasks", o 2 [(s 2 "test", o 3 [(s 3 "when", s 3 "${{ enabled }}"), (s 4 "run", q 5 [o 5 [(s 5 "cmd", s 5 "echo \"command\""),
  (s 6 "when", s 6 "${{ run_cmd }} == 'true'")], o 7 [(s 7 "task", s 7 "helper"), (s 8 "when", s 8 "${{ run_task }} == 'true'")], o 9 [(s 9 "log",
  s 9 "logging"), (s 10 "when", s 10 "${{ run_log }} == 'true'")], o 11 [(s 11 "prompt", s 11 "user_input"), (s 12 "type", s 12 "input"),
  (s 13 "message", s 13 "Enter value"), (s 14 "when", s 14 "${{ run_prompt }} == 'true'")]])]), (s 15 "helper", o 16 [(s 16 "run",
  q 17 [o 17 [(s 17 "cmd", s 17 "echo \"helper\"")]])])])]

/-- testdata/when_command.yml -/
def when_command : Node :=
  o 1 [(s 1 "tasks", o 2 [(s 2 "test", o 3 [(s 3 "run", q 4 [o 4 [(s 4 "cmd", s 4 "echo \"yes\""), (s 5 "when", s 5 "${{ confirm }} == 'true'")],
  o 6 [(s 6 "cmd", s 6 "echo \"no\""), (s 7 "when", s 7 "${{ confirm }} != 'true'")]])])])]

/-- testdata/when_task.yml -/
def when_task : Node :=
  o 1 [(s 1 "tasks", o 2 [(s 2 "deploy", o 3 [(s 3 "when", s 3 "${{ confirm }} == 'true'"), (s 4 "run", q 5 [o 5 [(s 5 "cmd", s 5 "deploy.sh")]])])])]

/-- testdata/with_description.yml -/
def with_description : Node :=
  o 1 [(s 1 "tasks", o 2 [(s 2 "test", o 3 [(s 3 "desc", s 3 "Run all unit tests"), (s 4 "run", q 5 [o 5 [(s 5 "cmd", s 5 "go test ./...")]])]),
  (s 7 "coverage", o 8 [(s 8 "desc", s 8 "Generate coverage report"), (s 9 "deps", q 9 [s 9 "test"]), (s 10 "run", q 11 [o 11 [(s 11 "cmd",
  s 11 "go tool cover -html=coverage.txt")]])])])]

end Bab.TestData
