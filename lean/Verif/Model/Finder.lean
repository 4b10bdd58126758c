import Verif.Model.Path
/-
Model of internal/finder/finder.go.
-/

namespace Bab

/-- finder.go 12-18 `babfileNames` -/
def babfileNames : List Str :=
  ["Babfile".toList, "Babfile.yaml".toList, "Babfile.yml".toList, "babfile.yaml".toList, "babfile.yml".toList]

/-- finder.go 26-41: the loop of `FindBabfile`. `ex` tells for which paths `os.Stat` succeeds, which includes directories.
The first argument bounds the number of iterations. -/
def findFrom (ex : Str → Bool) : Nat → Str → Option Str
  | 0, _ => none
  | fuel + 1, dir =>
    match babfileNames.find? (fun n => ex (joinPath dir n)) with
    | some n => some (joinPath dir n)
    | none =>
      let parent := dirPath dir
      if parent = dir then none else findFrom ex fuel parent

/-- finder.go 20-45 `FindBabfile` from the working directory `cwd` -/
def findBabfile (ex : Str → Bool) (cwd : Str) : Option Str := findFrom ex (cwd.length + 1) cwd

end Bab
