import Verif.Model.Runner
import Mathlib.Data.List.Forall2
/-
C119: Babfiles that differ only in where settings are written down. Settings of the Babfile hold for all tasks, `dir` of a task for
its commands.
-/

namespace Bab.Spec

/-- the first text that is not empty -/
def firstText : List Str → Str
  | [] => []
  | [] :: r => firstText r
  | x :: _ => x

/-- an item that is not a block: commands may say otherwise where their directory is given, if it is the same in the end -/
inductive AlikeOne (c c' : Cfg) (T T' : Task) : RunItem → RunItem → Prop
  | other {x} (h : ∀ v, x ≠ .command v) : AlikeOne c c' T T' x x
  | command {v d} (h : firstText [v.dir, T.dir, c.globalDir] = firstText [d, T'.dir, c'.globalDir]) :
      AlikeOne c c' T T' (.command v) (.command { v with dir := d })

/-- an item of a task -/
inductive AlikeItem (c c' : Cfg) (T T' : Task) : RunItem → RunItem → Prop
  | one {x y} (hx : ∀ items labels mode lim color bs bo pl w ln, x ≠ .parallel items labels mode lim color bs bo pl w ln)
      (h : AlikeOne c c' T T' x y) : AlikeItem c c' T T' x y
  | block {items items' labels mode lim color bs bo pl w ln} (h : List.Forall₂ (AlikeOne c c' T T') items items') :
      AlikeItem c c' T T' (.parallel items labels mode lim color bs bo pl w ln) (.parallel items' labels mode lim color bs bo pl w ln)

/-- two tasks with the same settings: what the task does not say is as the Babfile says -/
structure AlikeTask (c c' : Cfg) (T T' : Task) : Prop where
  name : T'.name = T.name
  source : T'.sourcePath = T.sourcePath
  vars : T'.vars = T.vars
  cond : T'.cond = T.cond
  deps : T'.deps = T.deps
  line : T'.line = T.line
  silent : T'.silent.or c'.globalSilent = T.silent.or c.globalSilent
  output : T'.output.or c'.globalOutput = T.output.or c.globalOutput
  env : mergeEnvMaps [c'.globalEnv, T'.env] = mergeEnvMaps [c.globalEnv, T.env]
  run : List.Forall₂ (AlikeItem c c' T T') T.run T'.run

/-- the surroundings are the same, and the tasks have the same settings -/
structure AlikeSettings (c c' : Cfg) (tasks tasks' : TaskMap) : Prop where
  rest : c' = { c with globalEnv := c'.globalEnv, globalSilent := c'.globalSilent, globalOutput := c'.globalOutput, globalDir := c'.globalDir }
  tasks : List.Forall₂ (fun q q' => q'.1 = q.1 ∧ AlikeTask c c' q.2 q'.2) tasks tasks'

/-- the directory of a command, written at the command -/
def pushOne (c : Cfg) (T : Task) : RunItem → RunItem
  | .command v => .command { v with dir := firstText [v.dir, T.dir, c.globalDir] }
  | x => x

/-- the same in blocks -/
def pushItem (c : Cfg) (T : Task) : RunItem → RunItem
  | .parallel items labels mode lim color bs bo pl w ln => .parallel (items.map (pushOne c T)) labels mode lim color bs bo pl w ln
  | x => pushOne c T x

/-- the settings of the Babfile, written at the task, and `dir` at the commands -/
def pushTask (c : Cfg) (T : Task) : Task :=
  { T with env := mergeEnvMaps [c.globalEnv, T.env], silent := T.silent.or c.globalSilent, output := T.output.or c.globalOutput,
           dir := [], run := T.run.map (pushItem c T) }

/-- all tasks with the settings of the Babfile written at the tasks and commands -/
def pushTasks (c : Cfg) (tasks : TaskMap) : TaskMap := tasks.map fun q => (q.1, pushTask c q.2)

/-- a Babfile without settings -/
def bare (c : Cfg) : Cfg := { c with globalEnv := [], globalSilent := none, globalOutput := none, globalDir := [] }

end Bab.Spec
