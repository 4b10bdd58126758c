import Verif.Model.Babfile
/-
Model of internal/parser/validate.go. Paths, line numbers and the lists of available names inside the
errors are left out. Each loop over a Go map gets the map in the order in which it is visited, so that
theorems cover every order.
-/

namespace Bab

/-- the errors collected by validation (validate.go 31, 41, 65, 88, 115, 145) -/
inductive VErr
  /-- errs.TaskNotFoundError: name, and the task that refers to it -/
  | notFound (name by_ : Str)
  /-- errs.CircularDepError -/
  | cycle (chain : List Str)
  /-- errs.AliasConflictError: the alias of this task is the name of a task -/
  | aliasConflict (alias task : Str)
  /-- errs.DuplicateAliasError: the alias of this task is already one of the original task -/
  | aliasTwice (alias task original : Str)
  deriving DecidableEq, Repr

/-- babfile/task.go 28-37 `GetAllAliases` -/
def Task.allAliases (T : Task) : List Str := if T.alias ≠ [] then T.alias :: T.aliases else T.aliases

/-- validate.go 57-75 `validateDependencies` -/
def validateDependencies (order tasks : TaskMap) : List VErr :=
  order.flatMap fun (name, T) =>
    T.deps.flatMap fun dep => if tasks.has dep then [] else [.notFound dep name]

mutual
/-- validate.go 84-99: one iteration of the loop of `validateRunItemTaskRefs` -/
def validateRunItemTaskRef (by_ : Str) (tasks : TaskMap) : RunItem → List VErr
  | .task t => if tasks.has t.task then [] else [.notFound t.task by_]
  | .parallel items _ _ _ _ _ _ _ _ _ => validateRunItemTaskRefs by_ tasks items
  | .command _ => []
  | .log _ => []
  | .prompt _ => []
/-- validate.go 83-100 `validateRunItemTaskRefs` -/
def validateRunItemTaskRefs (by_ : Str) (tasks : TaskMap) : List RunItem → List VErr
  | [] => []
  | item :: items => validateRunItemTaskRef by_ tasks item ++ validateRunItemTaskRefs by_ tasks items
end

/-- validate.go 77-81 `validateRunTaskRefs` -/
def validateRunTaskRefs (order tasks : TaskMap) : List VErr :=
  order.flatMap fun (name, T) => validateRunItemTaskRefs name tasks T.run

/-- validate.go 25-54: the inner loop of `validateAliases`; `seen` is `aliasToTask` -/
def aliasLoop (tasks : TaskMap) (name : Str) : List Str → GoMap Str → List VErr × GoMap Str
  | [], seen => ([], seen)
  | alias :: rest, seen =>
    if alias = [] then aliasLoop tasks name rest seen
    else if tasks.has alias then
      let r := aliasLoop tasks name rest seen
      (.aliasConflict alias name :: r.1, r.2)
    else match seen.get? alias with
      | some original =>
        let r := aliasLoop tasks name rest seen
        (.aliasTwice alias name original :: r.1, r.2)
      | none => aliasLoop tasks name rest (seen.set alias name)

/-- validate.go 24-54: the outer loop of `validateAliases` -/
def aliasesLoop (tasks : TaskMap) : TaskMap → GoMap Str → List VErr
  | [], _ => []
  | (name, T) :: rest, seen =>
    let r := aliasLoop tasks name T.allAliases seen
    r.1 ++ aliasesLoop tasks rest r.2

/-- validate.go 17-55 `validateAliases` -/
def validateAliases (order tasks : TaskMap) : List VErr := aliasesLoop tasks order []

/-! ### Go slices of strings

A slice shares its array with other slices; `append` writes into the array when there is room. -/

/-- the arrays allocated so far, each with its full capacity (for the `append`s of validate.go 114, 134, 144) -/
abbrev Heap := List (List Str)

/-- a slice `[]string`: array and length (all slices here start at the beginning of their array)
(`chain`, validate.go 106-107) -/
structure Slice where
  arr : Nat
  len : Nat
  deriving DecidableEq, Repr

/-- the nil slice; array 0 has capacity 0 -/
def Slice.nil : Slice := ⟨0, 0⟩

/-- the heap with only the empty array (`nil`, validate.go 163) -/
def Heap.init : Heap := [[]]

/-- the elements of a slice (`chain`, validate.go 118, 148) -/
def Slice.read (s : Slice) (h : Heap) : List Str := ((h[s.arr]?).getD []).take s.len

/-- the built-in `append(s, x)`: in place if the capacity suffices, else into a new array whose capacity
is given by `grow` (Go's `growslice`; doubling for small slices) (validate.go 114, 134, 144) -/
def Slice.append (grow : Nat → Nat) (s : Slice) (x : Str) (h : Heap) : Slice × Heap :=
  let a := (h[s.arr]?).getD []
  if s.len < a.length then (⟨s.arr, s.len + 1⟩, h.set s.arr (a.set s.len x))
  else (⟨h.length, s.len + 1⟩, h ++ [a.take s.len ++ x :: List.replicate (grow a.length - s.len - 1) []])

/-- a reported cycle: the slice in the error, and what it contained when it was reported
(validate.go 115-119, 145-149) -/
structure Report where
  slice : Slice
  atReport : List Str
  deriving DecidableEq, Repr

/-- validate.go 103-104: the captured maps (names mapped to true), the errors reported so far; the heap.
`fuel` says that the recursion bound of the model was exceeded, which is proved not to happen. -/
structure CycleState where
  visited : List Str
  recStack : List Str
  heap : Heap
  reports : List Report
  fuel : Bool := false
  deriving DecidableEq, Repr

/-- validate.go 114-120, 141-147: report a cycle. `chain = append(chain, name)` -/
def CycleState.report (grow : Nat → Nat) (st : CycleState) (chain : Slice) (name : Str) : CycleState :=
  let r := chain.append grow name st.heap
  { st with heap := r.2, reports := st.reports ++ [⟨r.1, r.1.read r.2⟩] }

mutual
/-- validate.go 110-128: one iteration of the loop of `checkItems`; `true` stands for `return` -/
def checkItem (tasks : TaskMap) (grow : Nat → Nat) (dfs : Str → Slice → CycleState → CycleState) (chain : Slice) :
    RunItem → CycleState → Bool × CycleState
  | .task t, st =>
    if t.task ∈ st.recStack then (true, st.report grow chain t.task)
    else if t.task ∉ st.visited ∧ tasks.has t.task = true then (false, dfs t.task chain st)
    else (false, st)
  | .parallel items _ _ _ _ _ _ _ _ _, st => (false, checkItems tasks grow dfs chain items st)
  | .command _, st => (false, st)
  | .log _, st => (false, st)
  | .prompt _, st => (false, st)
/-- validate.go 109-130 `checkItems` -/
def checkItems (tasks : TaskMap) (grow : Nat → Nat) (dfs : Str → Slice → CycleState → CycleState) (chain : Slice) :
    List RunItem → CycleState → CycleState
  | [], st => st
  | item :: items, st =>
    let r := checkItem tasks grow dfs chain item st
    if r.1 then r.2 else checkItems tasks grow dfs chain items r.2
end

/-- validate.go 143-156: the loop over the dependencies; `true` stands for `return` -/
def checkDeps (tasks : TaskMap) (grow : Nat → Nat) (dfs : Str → Slice → CycleState → CycleState) (chain : Slice) :
    List Str → CycleState → Bool × CycleState
  | [], st => (false, st)
  | dep :: deps, st =>
    if dep ∈ st.recStack then (true, st.report grow chain dep)
    else if dep ∉ st.visited ∧ tasks.has dep = true then
      checkDeps tasks grow dfs chain deps (dfs dep chain st)
    else checkDeps tasks grow dfs chain deps st

/-- validate.go 132-159 `dfs`. The first argument bounds the recursion depth. -/
def cycleDfs (tasks : TaskMap) (grow : Nat → Nat) : Nat → Str → Slice → CycleState → CycleState
  | 0, _, _, st => { st with fuel := true }
  | fuel + 1, name, chain, st =>
    let r := chain.append grow name st.heap
    let st := { st with visited := name :: st.visited, recStack := name :: st.recStack, heap := r.2 }
    let chain := r.1
    match tasks.get? name with
    | none => { st with recStack := st.recStack.filter (· ≠ name) }
    | some T =>
      let d := checkDeps tasks grow (cycleDfs tasks grow fuel) chain T.deps st
      if d.1 then d.2
      else
        let st := checkItems tasks grow (cycleDfs tasks grow fuel) chain T.run d.2
        { st with recStack := st.recStack.filter (· ≠ name) }

/-- validate.go 161-165: the loop over all tasks -/
def cycleLoop (tasks : TaskMap) (grow : Nat → Nat) : TaskMap → CycleState → CycleState
  | [], st => st
  | (name, _) :: rest, st =>
    cycleLoop tasks grow rest
      (if name ∈ st.visited then st else cycleDfs tasks grow (tasks.length + 1) name .nil st)

/-- validate.go 102-166 `validateRunCycles`: the final state -/
def cycleRun (grow : Nat → Nat) (order tasks : TaskMap) : CycleState :=
  cycleLoop tasks grow order { visited := [], recStack := [], heap := .init, reports := [] }

/-- validate.go 102-166 `validateRunCycles`: the errors as they look when validation is over -/
def validateRunCycles (grow : Nat → Nat) (order tasks : TaskMap) : List VErr :=
  let st := cycleRun grow order tasks
  st.reports.map fun r => .cycle (r.slice.read st.heap)

/-- Go's growth of slices of strings while the capacity is below 256 -/
def doubling (cap : Nat) : Nat := if cap = 0 then 1 else 2 * cap

/-- validate.go 8-15 `validateAll`; no error is `nil`. The four arguments are the orders in which the
four loops visit the map. -/
def validateAll (grow : Nat → Nat) (o1 o2 o3 o4 tasks : TaskMap) : List VErr :=
  validateDependencies o1 tasks ++ validateRunTaskRefs o2 tasks ++ validateRunCycles grow o3 tasks ++
    validateAliases o4 tasks

/-- parser.go 116-126 `buildAliasMap` -/
def buildAliasMap (order : TaskMap) : GoMap Str :=
  order.foldl (fun acc (name, T) =>
    T.allAliases.foldl (fun acc alias => if alias ≠ [] then acc.set alias name else acc) acc) []

/-- runner.go 87-95 `resolveTaskName` -/
def resolveTaskName (aliases : GoMap Str) (name : Str) : Str := (aliases.get? name).getD name

end Bab
