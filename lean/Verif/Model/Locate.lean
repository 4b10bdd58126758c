import Verif.Model.Path
import Verif.Model.Validate
/-
Model of the places shown in messages: internal/errs/location.go, and internal/parser/validate.go again, this time with
the places of the errors. Message texts are left out.
-/

namespace Bab

/-- where an error is said to be; line 0 is no line -/
structure Place where
  path : Str
  line : Nat := 0
  column : Nat := 0
  deriving DecidableEq, Repr

/-! ### errs/location.go -/

/-- the elements after a common beginning (used for `filepath.Rel`, errs/location.go 12) -/
def dropCommon : List Str → List Str → List Str × List Str
  | a :: as, b :: bs => if a = b then dropCommon as bs else (a :: as, b :: bs)
  | as, bs => (as, bs)

/-- the elements of a cleaned path (used for `filepath.Rel`, errs/location.go 12) -/
def pathElems (p : Str) : List Str := cleanElems (isAbs p) [] (splitSlash [] p)

/-- `filepath.Rel` on Unix, by its rules on elements; `none` is an error (used in errs/location.go 12) -/
def relPath (base targ : Str) : Option Str :=
  if cleanPath targ = cleanPath base then some ".".toList
  else if isAbs base ≠ isAbs targ then none
  else
    let r := dropCommon (pathElems base) (pathElems targ)
    if r.1.head? = some "..".toList then none
    else some (joinSlash (List.replicate r.1.length "..".toList ++ r.2))

/-- location.go 10-17 `RelativePath`; `cwd = none` if `os.Getwd` fails -/
def relativePath (cwd : Option Str) (path : Str) : Str :=
  match cwd with
  | none => path
  | some c =>
    match relPath c path with
    | some rel => if "..".toList.isPrefixOf rel then path else rel
    | none => path

/-- location.go 19-28 `FormatLocation` -/
def formatLocation (cwd : Option Str) (at_ : Place) : Str :=
  let path := relativePath cwd at_.path
  if at_.line > 0 then
    if at_.column > 0 then path ++ ':' :: (Nat.repr at_.line).toList ++ ':' :: (Nat.repr at_.column).toList
    else path ++ ':' :: (Nat.repr at_.line).toList
  else path

/-! ### validate.go -/

/-- an error with its place; for a duplicate alias also the line where the alias was seen first
(parser/validate.go 31-36, 41-48, 65-71, 88-94, 115-119, 145-149) -/
structure PlacedErr where
  err : VErr
  at_ : Place
  first : Nat := 0
  deriving DecidableEq, Repr

/-- validate.go 57-75 `validateDependencies` -/
def depsAt (root : Str) (order tasks : TaskMap) : List PlacedErr :=
  order.flatMap fun (name, T) =>
    T.deps.flatMap fun dep =>
      if tasks.has dep then []
      else [{ err := .notFound dep name, at_ := { path := root, line := if T.depsLine = 0 then T.line else T.depsLine } }]

mutual
/-- validate.go 84-99: one iteration of the loop of `validateRunItemTaskRefs` -/
def refAt (root by_ : Str) (tasks : TaskMap) : RunItem → List PlacedErr
  | .task t => if tasks.has t.task then [] else [{ err := .notFound t.task by_, at_ := { path := root, line := t.line } }]
  | .parallel items _ _ _ _ _ _ _ _ _ => refsAt root by_ tasks items
  | .command _ => []
  | .log _ => []
  | .prompt _ => []
/-- validate.go 83-100 `validateRunItemTaskRefs` -/
def refsAt (root by_ : Str) (tasks : TaskMap) : List RunItem → List PlacedErr
  | [] => []
  | item :: items => refAt root by_ tasks item ++ refsAt root by_ tasks items
end

/-- validate.go 77-81 `validateRunTaskRefs` -/
def callsAt (root : Str) (order tasks : TaskMap) : List PlacedErr :=
  order.flatMap fun (name, T) => refsAt root name tasks T.run

/-- validate.go 112-120, 143-151: cycles are reported without a line -/
def cyclesAt (root : Str) (grow : Nat → Nat) (order tasks : TaskMap) : List PlacedErr :=
  (validateRunCycles grow order tasks).map fun e => { err := e, at_ := { path := root } }

/-- validate.go 25-54: the inner loop of `validateAliases`; `seen` is `aliasToTask` with the lines -/
def aliasAt (root : Str) (tasks : TaskMap) (name : Str) (T : Task) : List Str → GoMap (Str × Nat) → List PlacedErr × GoMap (Str × Nat)
  | [], seen => ([], seen)
  | a :: rest, seen =>
    if a = [] then aliasAt root tasks name T rest seen
    else if tasks.has a then
      let r := aliasAt root tasks name T rest seen
      ({ err := .aliasConflict a name, at_ := { path := root, line := T.line } } :: r.1, r.2)
    else match seen.get? a with
      | some original =>
        let r := aliasAt root tasks name T rest seen
        ({ err := .aliasTwice a name original.1, at_ := { path := root, line := T.line }, first := original.2 } :: r.1, r.2)
      | none => aliasAt root tasks name T rest (seen.set a (name, T.line))

/-- validate.go 24-54: the outer loop of `validateAliases` -/
def aliasesAt (root : Str) (tasks : TaskMap) : TaskMap → GoMap (Str × Nat) → List PlacedErr
  | [], _ => []
  | (name, T) :: rest, seen =>
    let r := aliasAt root tasks name T T.allAliases seen
    r.1 ++ aliasesAt root tasks rest r.2

/-- validate.go 8-15 `validateAll`, called with the path of the main file (parser.go 42) -/
def validateAt (root : Str) (grow : Nat → Nat) (o1 o2 o3 o4 tasks : TaskMap) : List PlacedErr :=
  depsAt root o1 tasks ++ callsAt root o2 tasks ++ cyclesAt root grow o3 tasks ++ aliasesAt root tasks o4 []

end Bab
