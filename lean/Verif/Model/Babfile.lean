import Verif.Base
/-
Model of the data types of internal/babfile (run.go, run_*.go, task.go, env.go, variable.go).
JSON-schema functions are left out here.
-/

namespace Bab

/-- babfile/run_cmd.go 8-17 `CommandRun` -/
structure CommandRun where
  cmd : Str
  dir : Str := []
  env : GoMap Str := []
  silent : Option Bool := none
  output : Option Bool := none
  platforms : List Str := []
  cond : Str := []
  line : Nat := 0
  deriving DecidableEq, Repr

/-- babfile/run_task.go 8-15 `TaskRun` -/
structure TaskRun where
  task : Str
  silent : Option Bool := none
  output : Option Bool := none
  platforms : List Str := []
  cond : Str := []
  line : Nat := 0
  deriving DecidableEq, Repr

/-- babfile/run_log.go 45-51 `LogRun` -/
structure LogRun where
  log : Str
  level : Str := []
  platforms : List Str := []
  cond : Str := []
  line : Nat := 0
  deriving DecidableEq, Repr

/-- babfile/run_prompt.go 8-20 `PromptType`; `other` is any string that is not one of the six -/
inductive PromptType
  | confirm | input | select | multiselect | password | number | other
  deriving DecidableEq, Repr

/-- babfile/run_prompt.go 57-72 `PromptRun` -/
structure PromptRun where
  prompt : Str
  type : PromptType
  message : Str
  platforms : List Str := []
  default : Str := []
  defaults : List Str := []
  options : List Str := []
  placeholder : Str := []
  validate : Str := []
  min : Option Int := none
  max : Option Int := none
  confirm : Option Bool := none
  cond : Str := []
  line : Nat := 0
  deriving DecidableEq, Repr

/-- babfile/run_parallel.go 10-16 `ParallelMode` -/
inductive ParallelMode
  | interleaved | grouped | tabs
  deriving DecidableEq, Repr

/-- babfile/run.go 5-10 `RunItem`: the five implementations. The last one is `ParallelRun`
(run_parallel.go 29-40); its `Items` may by type be any run items. -/
inductive RunItem where
  | command (c : CommandRun)
  | task (t : TaskRun)
  | log (l : LogRun)
  | prompt (p : PromptRun)
  | parallel (items : List RunItem) (labels : List Str) (mode : ParallelMode) (limit : Nat)
      (color silent output : Option Bool) (platforms : List Str) (cond : Str) (line : Nat)

/-- babfile/run.go 34-44 `matchesPlatform` -/
def matchesPlatform : List Str → Str → Bool
  | [], _ => true
  | ps, p => ps.any (· = p)

namespace RunItem

/-- the field `Platforms` of each kind
(babfile/run_cmd.go, run_task.go, run_log.go, run_prompt.go 78-80, run_parallel.go 50-52) -/
def platforms : RunItem → List Str
  | command c => c.platforms
  | task t => t.platforms
  | log l => l.platforms
  | prompt p => p.platforms
  | parallel _ _ _ _ _ _ _ ps _ _ => ps

/-- `ShouldRunOnPlatform` of each kind (run_cmd.go 23, run_task.go 21, run_log.go 57,
run_prompt.go 78, run_parallel.go 50) -/
def onPlatform (i : RunItem) (p : Str) : Bool := matchesPlatform i.platforms p

/-- `GetWhen` of each kind (run_cmd.go 27, run_task.go 25, run_log.go 61, run_prompt.go 82,
run_parallel.go 54) -/
def cond : RunItem → Str
  | command c => c.cond
  | task t => t.cond
  | log l => l.cond
  | prompt p => p.cond
  | parallel _ _ _ _ _ _ _ _ w _ => w

/-- `GetLine` of each kind (run_cmd.go 21, run_task.go 19, run_log.go 55, run_prompt.go 76, run_parallel.go 48) -/
def line : RunItem → Nat
  | command c => c.line
  | task t => t.line
  | log l => l.line
  | prompt p => p.line
  | parallel _ _ _ _ _ _ _ _ _ l => l

end RunItem

/-- babfile/run_parallel.go 58-75 `ItemLabel` and 77-83 `truncateRunes` -/
def itemLabel (items : List RunItem) (labels : List Str) (i : Nat) : Str :=
  match labels[i]? with
  | some (c :: l) => c :: l
  | _ =>
    match items[i]? with
    | some (.task t) => t.task
    | some (.command c) => c.cmd.take 20
    | some (.log l) => l.log.take 20
    | _ => []

/-- babfile/task.go 10-26 `Task`; `vars = none` is a nil map -/
structure Task where
  name : Str
  sourcePath : Str := []
  desc : Str := []
  alias : Str := []
  aliases : List Str := []
  vars : Option (GoMap Str) := none
  env : GoMap Str := []
  silent : Option Bool := none
  output : Option Bool := none
  dir : Str := []
  cond : Str := []
  deps : List Str := []
  run : List RunItem := []
  line : Nat := 0
  depsLine : Nat := 0

/-- babfile/task.go 39 `TaskMap` -/
abbrev TaskMap := GoMap Task

/-- babfile/env.go 24-32 `MergeEnvMaps`: later maps override earlier ones -/
def mergeEnvMaps (maps : List (GoMap Str)) : GoMap Str :=
  maps.foldl (fun acc m => m.foldl (fun a p => a.set p.1 p.2) acc) []

end Bab
