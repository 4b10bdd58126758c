import Verif.Spec.Runner
/-
What a command is supposed to get: environment, directory, and whether it is echoed and its output
shown.
-/

namespace Bab.Spec

/-- the value a process finds under a name in a list of settings: the last one wins, since os/exec
removes earlier duplicates -/
def lastEntry (k : Str) : List (Str × Str) → Option Str
  | [] => none
  | p :: l => (lastEntry k l).or (if p.1 = k then some p.2 else none)

/-- the environment variables of a process; without settings of its own it inherits bab's -/
def procEnv (c : Cfg) (spec : ProcSpec) (k : Str) : Option Str := lastEntry k (spec.env.getD c.environ)

/-- the environment variables that control colours -/
def colourNames : List Str := ["TERM".toList, "NO_COLOR".toList, "FORCE_COLOR".toList]

/-- the elements of a path between slashes -/
def elems : Str → List Str
  | [] => [[]]
  | c :: r =>
    if c = '/' then [] :: elems r
    else match elems r with
      | [] => [[c]]
      | e :: es => (c :: e) :: es

/-- following one element from a directory; a directory is given by the names that lead to it from the
root, last one first -/
def enter (dir : List Str) (e : Str) : List Str :=
  if e = [] ∨ e = ".".toList then dir
  else if e = "..".toList then dir.tail
  else e :: dir

/-- following a path -/
def walk (dir : List Str) (es : List Str) : List Str := es.foldl enter dir

/-- the absolute path of a directory -/
def pathOf (dir : List Str) : Str := if dir = [] then "/".toList else dir.reverse.flatMap ('/' :: ·)

/-- the directory of a file -/
def dirOf (file : Str) : List Str := walk [] (elems file).dropLast

/-- the directory a path names, seen from a directory -/
def seenFrom (dir : List Str) (p : Str) : List Str :=
  walk (if p.head? = some '/' then [] else dir) (elems p)

/-- the most specific of some settings, given in order of precedence, is `b`; `d` is the default -/
def Decides (d : Bool) (settings : List (Option Bool)) (b : Bool) : Prop :=
  (∃ unset rest, settings = unset ++ some b :: rest ∧ ∀ x ∈ unset, x = none) ∨
  ((∀ x ∈ settings, x = none) ∧ b = d)

/-- the parallel block around a place switches colours off -/
def coloursOff (tasks : TaskMap) (loc : Loc) : Bool :=
  match loc.sub, itemAt tasks ⟨loc.task, loc.item, none⟩ with
  | some _, some (.parallel _ _ _ _ color _ _ _ _ _) => color == some false
  | _, _ => false

/-- the `silent` setting of the parallel block around a place -/
def blockSilent (tasks : TaskMap) (loc : Loc) : Option Bool :=
  match loc.sub, itemAt tasks ⟨loc.task, loc.item, none⟩ with
  | some _, some (.parallel _ _ _ _ _ s _ _ _ _) => s
  | _, _ => none

/-- the `output` setting of the parallel block around a place -/
def blockOutput (tasks : TaskMap) (loc : Loc) : Option Bool :=
  match loc.sub, itemAt tasks ⟨loc.task, loc.item, none⟩ with
  | some _, some (.parallel _ _ _ _ _ _ o _ _ _) => o
  | _, _ => none

/-- the most specific of some directories that are set; the empty text means not set -/
def DirSetting (dirs : List Str) (d : Str) : Prop :=
  ∃ unset rest, dirs = unset ++ d :: rest ∧ d ≠ [] ∧ ∀ x ∈ unset, x = []

end Bab.Spec
