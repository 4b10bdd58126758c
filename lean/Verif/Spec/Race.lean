import Verif.Spec.Cycle
/-
C92 and C93: what goroutines of parallel blocks do at the same time, and which tasks the items of a block may run while
the block runs.
-/

namespace Bab.Spec.Conc
open Bab.Spec

/-- some goroutine of the program can perform the action as its next one -/
inductive Next : Prog → Act → Prop
  | here {a : Act} {k : a.Resp → Prog} : Next (.act a k) a
  | sub {lim ctx t it n st ps k} {a : Act} (i : Fin n) (h : st.tag i = .running) (hn : Next (ps i) a) :
      Next (.par lim ctx t it n st ps k) a

/-- an item of a parallel block can perform the action as its next one -/
inductive Within : Prog → Act → Prop
  | sub {lim ctx t it n st ps k} {a : Act} (i : Fin n) (h : st.tag i = .running) (hn : Next (ps i) a) :
      Within (.par lim ctx t it n st ps k) a

/-- two goroutines can perform these actions, in either order -/
inductive Together : Prog → Act → Act → Prop
  | here {lim ctx t it n st ps k} {a b : Act} (i j : Fin n) (hij : i ≠ j) (hi : st.tag i = .running) (hj : st.tag j = .running)
      (ha : Next (ps i) a) (hb : Next (ps j) b) : Together (.par lim ctx t it n st ps k) a b
  | sub {lim ctx t it n st ps k} {a b : Act} (i : Fin n) (hi : st.tag i = .running) (h : Together (ps i) a b) :
      Together (.par lim ctx t it n st ps k) a b

/-- the action changes the map of the global variables -/
def IsWrite (a : Act) : Prop := ∃ k v, a = .setGlobal k v
/-- the action reads or changes the map of the global variables -/
def IsAccess (a : Act) : Prop := a = .globals ∨ IsWrite a
/-- the action asks the user -/
def IsQuestion (a : Act) : Prop := ∃ l p, a = .prompt l p

/-- nothing orders a write of the map of the global variables and another access to it -/
def DataRace (p : Prog) : Prop := ∃ a b, Together p a b ∧ IsWrite a ∧ IsAccess b

/-- the task has a prompt for this platform -/
def Asks (platform : Str) (tasks : TaskMap) (n : Str) : Prop :=
  ∃ T p, tasks.get? n = some T ∧ .prompt p ∈ T.run ∧ (RunItem.prompt p).onPlatform platform = true

/-- the task has such a prompt and no variables of its own -/
def Writes (platform : Str) (tasks : TaskMap) (n : Str) : Prop :=
  ∃ T p, tasks.get? n = some T ∧ T.vars = none ∧ .prompt p ∈ T.run ∧ (RunItem.prompt p).onPlatform platform = true

/-- the task has a condition or something to run -/
def UsesVars (tasks : TaskMap) (n : Str) : Prop := ∃ T, tasks.get? n = some T ∧ (T.cond ≠ [] ∨ T.run ≠ [])

/-- The item of a block calls a task which may run a task of the kind `P` while the block runs: the dependencies of the
called tasks are run before. -/
def May (tasks : TaskMap) (items : List RunItem) (P : Str → Prop) (item : RunItem) : Prop :=
  ∃ t x, item = .task t ∧ Leads tasks (Prior tasks items) t.task x ∧ ¬ Prior tasks items x ∧ P x

/-- the items of a parallel block that may run when `main` does -/
def BlockOf (tasks : TaskMap) (main : Str) (items : List RunItem) : Prop :=
  ∃ n T labels mode lim color s o pl w ln, Leads tasks (fun _ => False) main n ∧ tasks.get? n = some T ∧
    .parallel items labels mode lim color s o pl w ln ∈ T.run

/-- no two items of a block may run a `P` task and a `Q` task -/
def Apart (tasks : TaskMap) (main : Str) (P Q : Str → Prop) : Prop :=
  ∀ items, BlockOf tasks main items → ∀ (i j : Nat) (a b : RunItem), i ≠ j → items[i]? = some a → items[j]? = some b →
    May tasks items P a → ¬ May tasks items Q b

end Bab.Spec.Conc
