import Verif.Model.ResolveVars
import Verif.Model.Condition
import Verif.Model.Suggest
import Verif.Model.Babfile
import Verif.Model.Unmarshal
import Verif.Model.LoadMessage
import Verif.Model.ReadMessage
/-
The cases of the repository's own tests about texts, run on the model. These are tests of the model, not proofs: where the
model and the code disagree on a case that the authors wrote down, this file does not build.
-/

open Bab.Yaml

namespace Bab.TestText

/-- a Go map of strings -/
private def m (l : List (String × String)) : GoMap Str := l.map fun p => (p.1.toList, p.2.toList)

/-- an environment (`os.LookupEnv`) -/
private def env (l : List (String × String)) : Str → Option Str := fun k => (m l).get? k

/-- `interpolate.Interpolate`, the text or nothing -/
private def interp (vars e : List (String × String)) (s : String) : Option String :=
  match interpolate s.toList ⟨m vars, env e⟩ with
  | .ok r => some (String.ofList r)
  | .error _ => none

/-! ### internal/interpolate/interpolate_test.go -/

-- 11-42 TestInterpolate_BasicVariable
private def nameVersion : List (String × String) := [("name", "bab"), ("version", "1.0.0")]

example : interp nameVersion [] "Hello ${{ name }}" = some "Hello bab" := by decide +kernel
example : interp nameVersion [] "${{ name }} v${{ version }}" = some "bab v1.0.0" := by decide +kernel
example : interp nameVersion [] "${{name}}" = some "bab" := by decide +kernel
example : interp nameVersion [] "${{  name  }}" = some "bab" := by decide +kernel
example : interp nameVersion [] "hello world" = some "hello world" := by decide +kernel
example : interp nameVersion [] "" = some "" := by decide +kernel
example : interp nameVersion [] "app-${{ name }}-test" = some "app-bab-test" := by decide +kernel

-- 44-70 TestInterpolate_EnvAccess
example : interp [] [("BAB_TEST_VAR", "test_value")] "${{ env.BAB_TEST_VAR }}" = some "test_value" := by decide +kernel
example : interp [] [("BAB_TEST_VAR", "test_value")] "${{ env.BAB_NONEXISTENT }}" = some "" := by decide +kernel
example : interp [] [("BAB_TEST_VAR", "test_value")] "${{ env.BAB_TEST_VAR }} rocks" = some "test_value rocks" := by decide +kernel

-- 72-89 TestInterpolate_MixedVarsAndEnv
example : interp [("app", "myapp")] [("BAB_ENV", "production")] "${{ app }} running in ${{ env.BAB_ENV }}" =
    some "myapp running in production" := by decide +kernel

-- 91-117 TestInterpolate_Escaping
example : interp [("name", "bab")] [] "Use $${{ var }} syntax" = some "Use ${{ var }} syntax" := by decide +kernel
example : interp [("name", "bab")] [] "$${{ escaped }} and ${{ name }}" = some "${{ escaped }} and bab" := by decide +kernel
example : interp [("name", "bab")] [] "$${{ a }} $${{ b }}" = some "${{ a }} ${{ b }}" := by decide +kernel

-- 119-141 TestInterpolate_UndefinedVar
example : interpolate "Hello ${{ undefined }}".toList ⟨m [("name", "bab")], env []⟩ = .error (.varNotFound "undefined".toList) := by
  rfl

-- 164-172 TestInterpolate_NilContext: a nil context has no variables
example : interp [] [] "hello world" = some "hello world" := by decide +kernel

/-- `ResolveVars` and then one variable -/
private def resolved (vars parent e : List (String × String)) (k : String) : Option String :=
  match resolveVars (some (m vars)) (m parent) (env e) with
  | .ok r => (r.get? k.toList).map String.ofList
  | .error _ => none

-- 174-191 TestResolveVars_Basic
example : resolved nameVersion [] [] "name" = some "bab" := by decide +kernel
example : resolved nameVersion [] [] "version" = some "1.0.0" := by decide +kernel

-- 193-214 TestResolveVars_References, in two of the orders in which Go may go through the map
private def refs : List (String × String) := [("base", "/app"), ("build", "${{ base }}/build"), ("output", "${{ build }}/bin")]

example : resolved refs [] [] "base" = some "/app" := by decide +kernel
example : resolved refs [] [] "build" = some "/app/build" := by decide +kernel
example : resolved refs [] [] "output" = some "/app/build/bin" := by decide +kernel
example : resolved refs.reverse [] [] "base" = some "/app" := by decide +kernel
example : resolved refs.reverse [] [] "build" = some "/app/build" := by decide +kernel
example : resolved refs.reverse [] [] "output" = some "/app/build/bin" := by decide +kernel

-- 216-236 TestResolveVars_WithParent
example : resolved [("local", "${{ global }}_child")] [("global", "parent_value")] [] "global" = some "parent_value" := by decide +kernel
example : resolved [("local", "${{ global }}_child")] [("global", "parent_value")] [] "local" = some "parent_value_child" := by
  decide +kernel

-- 238-257 TestResolveVars_EnvReference
private def homeData : List (String × String) := [("home", "${{ env.BAB_HOME }}"), ("data", "${{ home }}/data")]

example : resolved homeData [] [("BAB_HOME", "/home/bab")] "home" = some "/home/bab" := by decide +kernel
example : resolved homeData [] [("BAB_HOME", "/home/bab")] "data" = some "/home/bab/data" := by decide +kernel

/-- whether `ResolveVars` reports a cycle, and its chain -/
private def cycle (vars : List (String × String)) : Option (List String) :=
  match resolveVars (some (m vars)) [] (env []) with
  | .error (.varCycle _ chain) => some (chain.map String.ofList)
  | _ => none

-- 259-283 TestResolveVars_CycleDetection, 285-298 TestResolveVars_SelfReference
example : cycle [("a", "${{ b }}"), ("b", "${{ a }}")] = some ["a", "b", "a"] := by decide +kernel
example : cycle [("b", "${{ a }}"), ("a", "${{ b }}")] = some ["b", "a", "b"] := by decide +kernel
example : cycle [("a", "${{ a }}")] = some ["a", "a"] := by decide +kernel

-- 300-320 TestContainsVarRef
example : containsVarRef "${{ var }}".toList = true := by decide +kernel
example : containsVarRef "hello ${{ name }}".toList = true := by decide +kernel
example : containsVarRef "no vars here".toList = false := by decide +kernel
example : containsVarRef "$var".toList = false := by decide +kernel
example : containsVarRef "${var}".toList = false := by decide +kernel
example : containsVarRef "$${{ escaped }}".toList = true := by decide +kernel

-- 322-347 TestExtractVarRefs
example : (extractVarRefs 0 "${{ var }}".toList).map String.ofList = ["var"] := by decide +kernel
example : (extractVarRefs 0 "${{ a }} ${{ b }}".toList).map String.ofList = ["a", "b"] := by decide +kernel
example : (extractVarRefs 0 "${{ env.HOME }}".toList).map String.ofList = ["env.HOME"] := by decide +kernel
example : (extractVarRefs 0 "no vars".toList).map String.ofList = [] := by decide +kernel

-- 369-375 TestVarCycleError_ChainFormat
example : joinArrow ["a".toList, "b".toList, "c".toList] = "a → b → c".toList := by decide +kernel

/-- the bytes of a text of ASCII characters -/
private def bytes (s : String) : Bytes := s.toList.map fun c => UInt8.ofNat c.toNat

/-- `strings.ToLower` on such texts -/
private def lower (b : Bytes) : Bytes := b.map fun x => if 65 ≤ x && x ≤ 90 then x + 32 else x

private def similar (target : String) (candidates : List String) : Bytes := findSimilar lower (bytes target) (candidates.map bytes)

-- 377-398 TestFindSimilar
example : similar "app_nam" ["app_name", "app_version", "build_dir"] = bytes "app_name" := by decide +kernel
example : similar "app_versio" ["app_name", "app_version", "build_dir"] = bytes "app_version" := by decide +kernel
example : similar "build" ["app_name", "app_version", "build_dir"] = bytes "build_dir" := by decide +kernel
example : similar "xyz" ["app_name", "app_version", "build_dir"] = bytes "" := by decide +kernel

/-! ### internal/parser/errors_test.go -/

-- 317-370 TestFindSimilar
example : similar "build" ["build", "test", "lint"] = bytes "build" := by decide +kernel
example : similar "biuld" ["build", "test", "lint"] = bytes "build" := by decide +kernel
example : similar "bui" ["build", "test", "lint"] = bytes "build" := by decide +kernel
example : similar "BUILD" ["build", "test"] = bytes "build" := by decide +kernel
example : similar "xyz" ["build", "test", "lint"] = bytes "" := by decide +kernel
example : similar "build" [] = bytes "" := by decide +kernel

-- 372-391 TestExtractYAMLLocation
example : extractYAMLLocation "yaml: line 10: error".toList = 10 := by decide +kernel
example : extractYAMLLocation "line 5: something".toList = 5 := by decide +kernel
example : extractYAMLLocation "some error".toList = 0 := by decide +kernel

-- 393-413 TestCleanYAMLError
example : cleanYAMLError "yaml: mapping error".toList = "mapping error".toList := by decide +kernel
example : cleanYAMLError "line 10: syntax error".toList = "syntax error".toList := by decide +kernel
example : cleanYAMLError "unmarshal errors:\n  line 5: error".toList = "error".toList := by decide +kernel

-- 415-436 TestRelativePath
example : relativePath (some "/work/here".toList) (joinPath "/work/here".toList "test.yml".toList) = "test.yml".toList := by decide +kernel
example : relativePath (some "/work/here".toList) "/some/absolute/path.yml".toList = "/some/absolute/path.yml".toList := by decide +kernel

-- 14-52 TestParseError_Error
example : formatLocation (some "/work".toList) ⟨"/work/test.yml".toList, 10, 5⟩ = "test.yml:10:5".toList := by decide +kernel
example : formatLocation (some "/work".toList) ⟨"/work/test.yml".toList, 10, 0⟩ = "test.yml:10".toList := by decide +kernel
example : formatLocation (some "/work".toList) ⟨"/work/test.yml".toList, 0, 0⟩ = "test.yml".toList := by decide +kernel

/-- the surroundings of messages; `strconv.IsPrint` on ASCII -/
private def texts (similar : String) : LoadTexts where
  isPrint := fun c => 32 ≤ c.toNat && c.toNat < 127
  cwd := some "/work".toList
  arg := "/work/test.yml".toList
  read := fun _ => "no such file".toList
  invalid := fun _ => .plain []
  similar := fun _ => similar.toList

-- 110-138 TestCircularDepError_Error
example : ((⟨.cycle ["a".toList, "b".toList, "a".toList], ⟨"/work/test.yml".toList, 0, 0⟩, 0⟩ : PlacedErr).text (texts "")) =
    "test.yml: circular dependency: a → b → a".toList := by decide +kernel

-- 152-190 TestTaskNotFoundError_Error
example : ((⟨.notFound "build".toList "x".toList, ⟨"/work/test.yml".toList, 5, 0⟩, 0⟩ : PlacedErr).text (texts "")) =
    "test.yml:5: task \"build\" not found".toList := by decide +kernel
example : ((⟨.notFound "build".toList "x".toList, ⟨"/work/test.yml".toList, 0, 0⟩, 0⟩ : PlacedErr).text (texts "")) =
    "test.yml: task \"build\" not found".toList := by decide +kernel
example : ((⟨.notFound "build".toList "x".toList, ⟨[], 0, 0⟩, 0⟩ : PlacedErr).text (texts "")) =
    "task \"build\" not found".toList := by decide +kernel
example : similar "biuld" ["build", "test"] = bytes "build" := by decide +kernel
example : ((⟨.notFound "biuld".toList "x".toList, ⟨[], 0, 0⟩, 0⟩ : PlacedErr).text (texts "build")) =
    "task \"biuld\" not found (did you mean \"build\"?)".toList := by decide +kernel

/-! ### internal/condition/condition_test.go -/

/-- whether the item runs, unless there is an error -/
private def runs (vars : List (String × String)) (s : String) : Option Bool :=
  match evaluate s.toList ⟨m vars, env []⟩ with
  | .ok b => some b
  | .error _ => none

-- 9-20 TestEvaluate_EmptyCondition
example : runs [] "" = some true := by decide +kernel

-- 22-51 TestEvaluate_Equality
private def envName : List (String × String) := [("env", "prod"), ("name", "test")]

example : runs envName "${{ env }} == 'prod'" = some true := by decide +kernel
example : runs envName "${{ env }} == 'dev'" = some false := by decide +kernel
example : runs envName "${{ env }} != 'dev'" = some true := by decide +kernel
example : runs envName "${{ env }} != 'prod'" = some false := by decide +kernel
example : runs envName "${{ env }} == \"prod\"" = some true := by decide +kernel
example : runs envName "${{ env }} != \"prod\"" = some false := by decide +kernel
example : runs envName "${{ name }} == 'missing'" = some false := by decide +kernel
example : runs envName "${{ env }}  ==  'prod'" = some true := by decide +kernel

-- 53-89 TestEvaluate_Truthy
private def truths : List (String × String) :=
  [("hasValue", "yes"), ("isEmpty", ""), ("isFalse", "false"), ("isFALSE", "FALSE"), ("isTrue", "true"), ("isZero", "0"), ("isOne", "1")]

example : runs truths "${{ hasValue }}" = some true := by decide +kernel
example : runs truths "${{ isEmpty }}" = some false := by decide +kernel
example : runs truths "${{ isFalse }}" = some false := by decide +kernel
example : runs truths "${{ isFALSE }}" = some false := by decide +kernel
example : runs truths "${{ isTrue }}" = some true := by decide +kernel
example : runs truths "${{ isZero }}" = some true := by decide +kernel
example : runs truths "${{ isOne }}" = some true := by decide +kernel

-- 91-98 TestEvaluate_UndefinedVariable
example : runs [] "${{ undefined }}" = none := by decide +kernel

-- 100-127 TestEvaluate_ConfirmPromptPattern
example : runs [("confirm", "true")] "${{ confirm }} == 'true'" = some true := by decide +kernel
example : runs [("confirm", "true")] "${{ confirm }} == 'false'" = some false := by decide +kernel
example : runs [("confirm", "false")] "${{ confirm }} == 'true'" = some false := by decide +kernel
example : runs [("confirm", "false")] "${{ confirm }} == 'false'" = some true := by decide +kernel
example : runs [("confirm", "true")] "${{ confirm }}" = some true := by decide +kernel
example : runs [("confirm", "false")] "${{ confirm }}" = some false := by decide +kernel

-- 129-154 TestEvaluate_SelectPromptPattern
example : runs [("environment", "staging")] "${{ environment }} == 'staging'" = some true := by decide +kernel
example : runs [("environment", "staging")] "${{ environment }} == 'prod'" = some false := by decide +kernel
example : runs [("environment", "staging")] "${{ environment }} != 'dev'" = some true := by decide +kernel
example : runs [("environment", "staging")] "${{ environment }} != 'staging'" = some false := by decide +kernel

-- 156-183 TestEvaluateTruthy
example : ["", "false", "FALSE", "False", "true", "TRUE", "yes", "no", "0", "1", "hello", "  "].map (fun s => evaluateTruthy s.toList) =
    [false, false, false, false, true, true, true, true, true, true, true, false] := by decide +kernel

-- 185-211 TestEvaluateComparison
example : ["prod == 'prod'", "prod == 'dev'", "prod != 'dev'", "prod != 'prod'", "'prod' == 'prod'", "\"prod\" == \"prod\"",
      "just a value"].map (fun s => evaluateComparison s.toList) =
    [some true, some false, some true, some false, some true, some true, none] := by decide +kernel

/-! ### internal/babfile/env_test.go and types_test.go -/

-- env_test.go 8-75 TestMergeEnvMaps (the same function as `MergeVarMaps`, types_test.go 130-175); a nil map is an empty one
example : mergeEnvMaps [] = m [] := by decide +kernel
example : mergeEnvMaps [m [("FOO", "bar"), ("BAZ", "qux")]] = m [("FOO", "bar"), ("BAZ", "qux")] := by decide +kernel
example : mergeEnvMaps [m [("FOO", "bar")], m [("BAZ", "qux")]] = m [("FOO", "bar"), ("BAZ", "qux")] := by decide +kernel
example : mergeEnvMaps [m [("FOO", "original")], m [("FOO", "override")]] = m [("FOO", "override")] := by decide +kernel
example : mergeEnvMaps [m [("A", "global"), ("B", "global")], m [("B", "task"), ("C", "task")], m [("C", "cmd")]] =
    m [("A", "global"), ("B", "task"), ("C", "cmd")] := by decide +kernel
example : mergeEnvMaps [m [("FOO", "bar")], m [], m [("BAZ", "qux")]] = m [("FOO", "bar"), ("BAZ", "qux")] := by decide +kernel

-- types_test.go 65-107 TestPromptTypeValid, TestPromptTypeRequiresOptions
example : ["confirm", "input", "select", "multiselect", "password", "number", "invalid", ""].map (fun s => promptTypeOf s.toList) =
    [.confirm, .input, .select, .multiselect, .password, .number, .other, .other] := by decide +kernel
example : [PromptType.select, .multiselect, .confirm, .input, .password, .number].map requiresOptions =
    [true, true, false, false, false, false] := by decide +kernel

-- types_test.go 177-197 TestMatchesPlatform
example : matchesPlatform [] "linux".toList = true := by decide +kernel
example : matchesPlatform ["linux".toList] "linux".toList = true := by decide +kernel
example : matchesPlatform ["linux".toList] "darwin".toList = false := by decide +kernel
example : matchesPlatform ["linux".toList, "darwin".toList] "darwin".toList = true := by decide +kernel
example : matchesPlatform ["linux".toList, "windows".toList] "darwin".toList = false := by decide +kernel

-- types_test.go 199-230 TestTaskGetAllAliases
example : ({ name := [] } : Task).allAliases = [] := by decide +kernel
example : ({ name := [], alias := ['a'] } : Task).allAliases = [['a']] := by decide +kernel
example : ({ name := [], aliases := [['b'], ['c']] } : Task).allAliases = [['b'], ['c']] := by decide +kernel
example : ({ name := [], alias := ['a'], aliases := [['b'], ['c']] } : Task).allAliases = [['a'], ['b'], ['c']] := by decide +kernel

-- types_test.go 285-323 TestParallelRunItemLabel, TestParallelRunItemLabelTaskRun
private def labelled : List RunItem :=
  [.task { task := "build".toList }, .command { cmd := "echo hello world".toList }, .log { log := "this is a log message".toList }]

example : [0, 1, 2, 5].map (itemLabel labelled ["custom".toList, [], []]) =
    ["custom".toList, "echo hello world".toList, "this is a log messag".toList, []] := by decide +kernel
example : itemLabel [.task { task := "deploy".toList }] [[]] 0 = "deploy".toList := by decide +kernel

-- types_test.go 325-344 TestTruncateRunes
example : ("hi".toList.take 10, "hello".toList.take 5, "hello world".toList.take 5, "héllo wörld".toList.take 5) =
    ("hi".toList, "hello".toList, "hello".toList, "héllo".toList) := by decide +kernel

end Bab.TestText
