import Verif.Spec.Runner
/-
C96, C97: which messages a user should see, and what the signs in the summary of a block mean.
-/

namespace Bab.Spec

/-- a message of this level should be printed: those of level `debug` only with `--verbose` -/
def Wanted (verbose : Bool) (level : Str) : Prop := level = "debug".toList → verbose = true

/-- the task may be run by an item of a parallel block -/
inductive InBlocks (tasks : TaskMap) : Str → Prop
  | item {n T items labels mode lim color bs bo pl w ln} {t : TaskRun} (hT : tasks.get? n = some T)
      (hi : .parallel items labels mode lim color bs bo pl w ln ∈ T.run) (ht : .task t ∈ items) : InBlocks tasks t.task
  | dep {n T d} (h : InBlocks tasks n) (hT : tasks.get? n = some T) (hd : d ∈ T.deps) : InBlocks tasks d
  | call {n T} {t : TaskRun} (h : InBlocks tasks n) (hT : tasks.get? n = some T) (hi : .task t ∈ T.run) : InBlocks tasks t.task

/-- there is no message of level `debug` in a parallel block or in a task that may run in one -/
def NoDebugInBlocks (tasks : TaskMap) : Prop :=
  (∀ n T l, InBlocks tasks n → tasks.get? n = some T → .log l ∈ T.run → l.level ≠ "debug".toList) ∧
  ∀ n T items labels mode lim color bs bo pl w ln l, tasks.get? n = some T →
    .parallel items labels mode lim color bs bo pl w ln ∈ T.run → .log l ∈ items → l.level ≠ "debug".toList

/-- the error says, at its root, that something was cancelled -/
inductive Cancels : Err → Prop
  | root : Cancels .canceled
  | wrap {w e} (h : Cancels e) : Cancels (.wrap w e)

/-- what a sign says about item `j` of a block -/
inductive Marked (t : List Ev) (n : Str) (i j : Nat) : Char → Prop
  | ok (h : .subEnd n i j none ∈ t) : Marked t n i j '✓'
  | dropped (h : .subAbort n i j ∈ t) : Marked t n i j '⊘'
  | cancelled {e} (h : .subEnd n i j (some e) ∈ t) (hc : Cancels e) : Marked t n i j '⊘'
  | failed {e} (h : .subEnd n i j (some e) ∈ t) (hc : ¬ Cancels e) : Marked t n i j '✗'

end Bab.Spec
