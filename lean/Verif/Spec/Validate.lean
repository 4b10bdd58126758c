import Verif.Model.Babfile
/-
References between tasks, and what a cycle is.
-/

namespace Bab.Spec

/-- a task with this name is called in a list of items, possibly inside parallel blocks -/
inductive CallsIn (n : Str) : List RunItem → Prop
  | here {t rest} (h : t.task = n) : CallsIn n (.task t :: rest)
  | block {items labels mode lim color s o pl w ln rest} (h : CallsIn n items) :
      CallsIn n (.parallel items labels mode lim color s o pl w ln :: rest)
  | later {item rest} (h : CallsIn n rest) : CallsIn n (item :: rest)

/-- task `a` refers to `b`, as dependency or in its items -/
def Refers (tasks : TaskMap) (a b : Str) : Prop :=
  ∃ T, tasks.get? a = some T ∧ (b ∈ T.deps ∨ CallsIn b T.run)

/-- `b` can be reached from `a` by one or more references -/
inductive Reaches (tasks : TaskMap) : Str → Str → Prop
  | one {a b} (h : Refers tasks a b) : Reaches tasks a b
  | more {a b c} (h : Refers tasks a b) (hr : Reaches tasks b c) : Reaches tasks a c

/-- every name in the list refers to the next one -/
def IsPath (tasks : TaskMap) : List Str → Prop
  | [] => True
  | [_] => True
  | a :: b :: r => Refers tasks a b ∧ IsPath tasks (b :: r)

/-- a path of references whose last name occurs earlier in it -/
def IsLasso (tasks : TaskMap) (chain : List Str) : Prop :=
  IsPath tasks chain ∧ ∃ before n, chain = before ++ [n] ∧ n ∈ before

/-- the aliases a task declares, `alias` first; empty ones do not count -/
def declared (T : Task) : List Str := (T.alias :: T.aliases).filter (· ≠ [])

/-- aliases are unambiguous: none is the name of a task, none is declared by two tasks or twice by one -/
structure Unambiguous (tasks : TaskMap) : Prop where
  notName : ∀ n T a, tasks.get? n = some T → a ∈ declared T → tasks.get? a = none
  oneTask : ∀ n m T U a, tasks.get? n = some T → tasks.get? m = some U → a ∈ declared T → a ∈ declared U → n = m
  once : ∀ n T, tasks.get? n = some T → (declared T).Nodup

end Bab.Spec
