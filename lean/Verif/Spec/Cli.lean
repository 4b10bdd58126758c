import Verif.Model.Cli
import Verif.Spec.Parser
import Verif.Spec.Validate
/-
What an invocation should do: which file it reads, which files it accepts, and when two invocations do the same.
-/

namespace Bab.Spec
open Bab.Cli

/-- the task named `a`, seen from file `p`, refers to `b`, seen from there too -/
def FileRefers (files : Files) (p a b : Str) : Prop :=
  ∃ nss bs n f T x, Provides files p nss bs n f T ∧ a = fullName nss n ∧ (x ∈ T.deps ∨ CallsIn x T.run) ∧ b = fullName nss x

/-- there is a task named `a`, seen from file `p` -/
def FileHas (files : Files) (p a : Str) : Prop := ∃ nss bs n f T, Provides files p nss bs n f T ∧ a = fullName nss n

/-- the other names of a task that is seen through namespaces. In `aliases` an empty name counts there, as `ns:`. -/
def otherNames (nss : List Str) (T : Task) : List Str :=
  ((if T.alias = [] then [] else fullName nss T.alias) :: T.aliases.map (fullName nss)).filter (· ≠ [])

/-- `x` is another name of the task `a`, seen from file `p` -/
def FileAlias (files : Files) (p x a : Str) : Prop :=
  ∃ nss bs n f T, Provides files p nss bs n f T ∧ a = fullName nss n ∧ x ∈ otherNames nss T

/-- A Babfile is accepted: it and what it includes can be loaded, all references lead to tasks, no task is reached from
itself, and every other name belongs to one task, which has it once. -/
structure Accepted (files : Files) (p : Str) : Prop where
  loads : Loads files p
  refs : ∀ a b, FileRefers files p a b → FileHas files p b
  acyclic : ¬ ∃ a, Relation.TransGen (FileRefers files p) a a
  notName : ∀ x a, FileAlias files p x a → ¬ FileHas files p x
  oneTask : ∀ x a b, FileAlias files p x a → FileAlias files p x b → a = b
  once : ∀ nss bs n f T, Provides files p nss bs n f T → (otherNames nss T).Nodup

/-- the path from the root for a path as it is written -/
def absolute (cwd path : Str) : Str := if isAbs (cleanPath path) then cleanPath path else joinPath cwd (cleanPath path)

/-- the file an invocation reads: the one named by `--babfile`, without it the one that is found -/
def Chosen (w : World) (babfile p : Str) : Prop :=
  ∃ path, (if babfile = [] then findBabfile w.ex w.cwd = some path else path = babfile) ∧ trimSpace path ≠ [] ∧
    p = absolute w.cwd path

/-- the orders are orders of the maps -/
structure VisitOK (v : Visit) : Prop where
  orders : OrdersOK v.orders
  v1 : ∀ m, (v.v1 m).Perm m
  v2 : ∀ m, (v.v2 m).Perm m
  v3 : ∀ m, (v.v3 m).Perm m
  v4 : ∀ m, (v.v4 m).Perm m

/-- two invocations do the same; if loading fails, the messages may differ -/
inductive SameOutcome : Outcome → Outcome → Prop
  | same (o) : SameOutcome o o
  | load (e e') : SameOutcome (.failed (.load e)) (.failed (.load e'))
  | run (c tasks tasks' gvars name) (h : tasks.Perm tasks') : SameOutcome (.run c tasks gvars name) (.run c tasks' gvars name)

end Bab.Spec
