import Verif.Model.Runner
/-
C120: what remains when the settings `silent` are taken away, and what remains of a run without announcements.
-/

namespace Bab.Spec

/-- an item that is not a block, without its setting `silent` -/
def hushOne : RunItem → RunItem
  | .command v => .command { v with silent := none }
  | .task t => .task { t with silent := none }
  | x => x

/-- an item without its setting `silent` and those inside -/
def hushItem : RunItem → RunItem
  | .parallel items labels mode lim color _ bo pl w ln => .parallel (items.map hushOne) labels mode lim color none bo pl w ln
  | x => hushOne x

/-- a task without settings `silent` -/
def hushTask (T : Task) : Task := { T with silent := none, run := T.run.map hushItem }

/-- all tasks without settings `silent` -/
def hushTasks (tasks : TaskMap) : TaskMap := tasks.map fun q => (q.1, hushTask q.2)

/-- the Babfile as a whole is silent -/
def hush (c : Cfg) : Cfg := { c with globalSilent := some true }

/-- two Babfiles that are the same when only the Babfile as a whole says something about `silent`, and the same -/
def UpToSilent (c c' : Cfg) (tasks tasks' : TaskMap) : Prop := hush c = hush c' ∧ hushTasks tasks = hushTasks tasks'

/-- an event without what depends on `silent`: announcements are left out, and so is what the call of a task says about it -/
def unsaid : Ev → Option Ev
  | .echoTask _ _ _ => none
  | .echoCmd _ _ _ => none
  | .taskVars n g m call => some (.taskVars n g m { call with silent := none })
  | e => some e

/-- what happened, without announcements -/
def besides (t : List Ev) : List Ev := t.filterMap unsaid

end Bab.Spec
