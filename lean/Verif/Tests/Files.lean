import Verif.Model.Finder
import Verif.Model.Update
import Verif.Model.Listing
/-
The cases of internal/finder/finder_test.go, internal/update/update_test.go, cmd/complete_test.go and cmd/list_test.go, run
on the model. These are tests of the model, not proofs.
-/

namespace Bab.TestFiles

open Bab.Update

/-! ### internal/finder/finder_test.go -/

/-- `FindBabfile` from a directory, if there are these files -/
private def find (files : List String) (cwd : String) : Option String :=
  (findBabfile (fun p => files.any (fun f => f.toList = p)) cwd.toList).map String.ofList

-- 22-53 TestFindBabfileVariants
example : ["Babfile", "Babfile.yaml", "Babfile.yml", "babfile.yaml", "babfile.yml"].map (fun v => find ["/tmp/d/" ++ v] "/tmp/d") =
    ["Babfile", "Babfile.yaml", "Babfile.yml", "babfile.yaml", "babfile.yml"].map (fun v => some ("/tmp/d/" ++ v)) := by decide +kernel

-- 55-114 TestFindBabfileInParentDirectories
example : find ["/tmp/d/Babfile"] "/tmp/d/subdir" = some "/tmp/d/Babfile" := by decide +kernel
example : find ["/tmp/d/Babfile"] "/tmp/d/subdir/subsubdir" = some "/tmp/d/Babfile" := by decide +kernel

-- 116-135 TestFindBabfileErrors
example : find [] "/tmp/d" = none := by decide +kernel

-- 137-166 TestFindBabfilePriority
example : find ["/tmp/d/Babfile.yaml", "/tmp/d/Babfile"] "/tmp/d" = some "/tmp/d/Babfile" := by decide +kernel

/-! ### internal/update/update_test.go -/

/-- a number without sign -/
private def num (s : Str) : Option Nat :=
  if s = [] || s.any (fun c => !c.isDigit) then none else some (s.foldl (fun n c => n * 10 + (c.toNat - 48)) 0)

/-- three numbers and whether something follows: enough of `goversion.NewVersion` for the cases -/
private def parse (s : Str) : Option (Nat × Nat × Nat × Bool) :=
  let core := s.takeWhile (· ≠ '-')
  let a := core.takeWhile (· ≠ '.')
  let r := (core.dropWhile (· ≠ '.')).drop 1
  let b := r.takeWhile (· ≠ '.')
  let c := (r.dropWhile (· ≠ '.')).drop 1
  match num a, num b, num c with
  | some a, some b, some c => some (a, b, c, s.contains '-')
  | _, _, _ => none

/-- `GreaterThan`: a prerelease comes before its release -/
private def gt (x y : Nat × Nat × Nat × Bool) : Bool :=
  decide (y.1 < x.1) || (x.1 = y.1 && (decide (y.2.1 < x.2.1) || (x.2.1 = y.2.1 && (decide (y.2.2.1 < x.2.2.1) ||
    (x.2.2.1 = y.2.2.1 && !x.2.2.2 && y.2.2.2)))))

private def newer (latest current : String) : Bool := isNewer parse gt latest.toList current.toList

-- 13-43 TestIsNewer
example : newer "v2.0.0" "v1.0.0" = true := by decide +kernel
example : newer "v1.1.0" "v1.0.0" = true := by decide +kernel
example : newer "v1.0.1" "v1.0.0" = true := by decide +kernel
example : newer "v1.0.0" "v1.0.0" = false := by decide +kernel
example : newer "v1.0.0" "v2.0.0" = false := by decide +kernel
example : newer "1.0.1" "1.0.0" = true := by decide +kernel
example : newer "v1.0.1" "1.0.0" = true := by decide +kernel
example : newer "v1.0.0" "v1.0.0-beta" = true := by decide +kernel
example : newer "invalid" "v1.0.0" = false := by decide +kernel
example : newer "v1.0.0" "invalid" = false := by decide +kernel
example : newer "" "v1.0.0" = false := by decide +kernel
example : newer "v1.0.0" "" = false := by decide +kernel
example : newer "" "" = false := by decide +kernel

/-- `os.Getenv` -/
private def getenv (l : List (String × String)) : Str → Str :=
  fun k => ((l.find? fun p => p.1.toList = k).map (·.2.toList)).getD []

-- 45-79 TestShouldSkip
example : shouldSkip (getenv []) "dev".toList = true := by decide +kernel
example : shouldSkip (getenv []) "".toList = true := by decide +kernel
example : shouldSkip (getenv [("BAB_NO_UPDATE_CHECK", "1")]) "v1.0.0".toList = true := by decide +kernel
example : shouldSkip (getenv [("CI", "true")]) "v1.0.0".toList = true := by decide +kernel
example : shouldSkip (getenv [("CI", ""), ("BAB_NO_UPDATE_CHECK", "")]) "v1.0.0".toList = false := by decide +kernel

/-- an hour in nanoseconds -/
private def hour : Int := 60 * 60 * 1000000000

/-- some point in time -/
private def now : Int := 1000 * hour

/-- A stand-in for `json.Unmarshal`: the first byte tells what the file contains. -/
private def decode : List UInt8 → Option Cached
  | 1 :: _ => some ⟨now, "v1.2.3".toList, "abc123".toList⟩
  | 2 :: _ => some ⟨0, [], []⟩
  | 3 :: _ => some ⟨now + 48 * hour, "v1.0.0".toList, []⟩
  | 4 :: _ => some ⟨now, "v2.0.0".toList, []⟩
  | 5 :: _ => some ⟨now, "v1.0.0".toList, []⟩
  | _ => none

-- 81-168 TestCacheOperations
example : loadCache decode (some [1]) (now + 1) = some ⟨now, "v1.2.3".toList, "abc123".toList⟩ := by decide +kernel
example : loadCache decode none now = none := by decide +kernel
example : loadCache decode (some [9]) now = none := by decide +kernel
example : loadCache decode (some [2]) now = none := by decide +kernel
example : loadCache decode (some [3]) now = none := by decide +kernel

-- 170-196 TestCacheIsValid
example : isValid (some ⟨now - 1 * hour, "v1.0.0".toList, []⟩) now = true := by decide +kernel
example : isValid (some ⟨now - 25 * hour, "v1.0.0".toList, []⟩) now = false := by decide +kernel
example : isValid (some ⟨now - 24 * hour, "v1.0.0".toList, []⟩) now = false := by decide +kernel
example : isValid none now = false := by decide +kernel

-- 218-275 TestCheckCached
example : checkCached (getenv [("BAB_NO_UPDATE_CHECK", "1")]) decode parse gt (some [4]) (now + 1) "v1.0.0".toList = none := by decide +kernel
example : checkCached (getenv []) decode parse gt (some [4]) (now + 1) "dev".toList = none := by decide +kernel
example : checkCached (getenv []) decode parse gt none (now + 1) "v1.0.0".toList = none := by decide +kernel
example : checkCached (getenv []) decode parse gt (some [4]) (now + 1) "v1.0.0".toList = some ⟨"v1.0.0".toList, "v2.0.0".toList⟩ := by
  decide +kernel
example : checkCached (getenv []) decode parse gt (some [5]) (now + 1) "v1.0.0".toList = none := by decide +kernel

-- 277-308 TestForceCheck
example : (forceCheck (getenv [("BAB_NO_UPDATE_CHECK", "1")]) parse gt (.response 200 (some "v2.0.0".toList) []) now "v1.0.0".toList).2 = none := by
  decide +kernel
example : (forceCheck (getenv []) parse gt (.response 200 (some "v2.0.0".toList) []) now "dev".toList).2 = none := by decide +kernel
example : (forceCheck (getenv []) parse gt (.response 200 (some "v2.0.0".toList) []) now "".toList).2 = none := by decide +kernel
example : (forceCheck (getenv [("CI", "true")]) parse gt (.response 200 (some "v2.0.0".toList) []) now "v1.0.0".toList).2 = none := by
  decide +kernel

/-! ### cmd/complete_test.go -/

private def tasks (l : List (String × String)) : TaskMap := l.map fun p => (p.1.toList, { name := p.1.toList, desc := p.2.toList })

private def offered (l : List (String × String)) (toComplete : String) : List String :=
  (completeTaskNames (tasks l) [] toComplete.toList).map String.ofList

-- 12-154 TestCompleteTaskNames, the cases in which there is a file and no argument
example : offered [("build", "Build the project"), ("test", "Run tests")] "" = ["build\tBuild the project", "test\tRun tests"] := by
  decide +kernel
example : offered [("build", ""), ("test", ""), ("testrace", "")] "te" = ["test", "testrace"] := by decide +kernel
example : offered [("deploy", "Deploy to production")] "" = ["deploy\tDeploy to production"] := by decide +kernel
example : offered [("test:unit", "Run unit tests"), ("test:integration", "Run integration tests")] "test:" =
    ["test:integration\tRun integration tests", "test:unit\tRun unit tests"] := by decide +kernel

-- 156-197 TestCompleteTaskNames_CompletionsAreSorted
example : offered [("zebra", ""), ("alpha", ""), ("middle", "")] "" = ["alpha", "middle", "zebra"] := by decide +kernel

/-! ### cmd/list_test.go -/

private def sorted (l : List String) : List String := (sortBy strLe (l.map String.toList)).map String.ofList

-- 121-184 TestSortedKeys
example : sorted ["z", "a", "m"] = ["a", "m", "z"] := by decide +kernel
example : sorted [] = [] := by decide +kernel
example : sorted ["test"] = ["test"] := by decide +kernel
example : sorted ["3", "1", "2"] = ["1", "2", "3"] := by decide +kernel
example : sorted ["Zulu", "alpha", "Bravo"] = ["Bravo", "Zulu", "alpha"] := by decide +kernel

-- 34-49, the case with colons in names of TestCLI_runList: what is listed
example : (listTasks (tasks [("ci:test", ""), ("ci:lint", ""), ("dev:start", "Start dev server")])).map
      (fun r => (r.path.map String.ofList, String.ofList r.desc)) =
    [(["ci"], ""), (["ci", "lint"], ""), (["ci", "test"], ""), (["dev"], ""), (["dev", "start"], "Start dev server")] := by decide +kernel

end Bab.TestFiles
