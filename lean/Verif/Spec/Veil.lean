import Verif.Model.Runner
/-
C121: what remains when the settings `output` and `color` and the descriptions are taken away, and what remains of a run without what they are about.
-/

namespace Bab.Spec

/-- an item that is not a block, without its setting `output` -/
def veilOne : RunItem → RunItem
  | .command v => .command { v with output := none }
  | .task t => .task { t with output := none }
  | x => x

/-- an item without its settings `output` and `color` and those inside -/
def veilItem : RunItem → RunItem
  | .parallel items labels mode lim _ bs _ pl w ln => .parallel (items.map veilOne) labels mode lim none bs none pl w ln
  | x => veilOne x

/-- a task without settings `output` and `color` and without its description -/
def veilTask (T : Task) : Task := { T with desc := [], output := none, run := T.run.map veilItem }

/-- all tasks without them -/
def veilTasks (tasks : TaskMap) : TaskMap := tasks.map fun q => (q.1, veilTask q.2)

/-- the Babfile as a whole without it -/
def veil (c : Cfg) : Cfg := { c with globalOutput := none }

/-- two Babfiles that are the same without settings `output` and `color` and without descriptions -/
def UpToOutput (c c' : Cfg) (tasks tasks' : TaskMap) : Prop := veil c = veil c' ∧ veilTasks tasks = veilTasks tasks'

/-- not one of the variables that tell programs whether to use colours -/
def plain (p : Str × Str) : Bool := decide (p.1 ∉ ["TERM".toList, "NO_COLOR".toList, "FORCE_COLOR".toList])

/-- a process without the places its output goes to and its input comes from, and without the variables about colours; the environment
is written out if it is inherited -/
def hidden (environ : List (Str × Str)) (p : ProcSpec) : ProcSpec :=
  { p with out := .discard, stdin := false, env := some ((p.env.getD environ).filter plain) }

/-- an event without what depends on `output` and `color` -/
def veiled (environ : List (Str × Str)) : Ev → Ev
  | .procStart loc p => .procStart loc (hidden environ p)
  | .taskVars n g m call => .taskVars n g m { call with output := none, noColor := false }
  | e => e

end Bab.Spec
