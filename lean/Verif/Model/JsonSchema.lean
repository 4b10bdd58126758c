import Verif.Model.Unmarshal
/-
Model of the JSON schema that bab publishes for Babfiles (internal/babfile, internal/schema; the file
schema/babfile.schema.json is generated from them), and of what it means for a YAML tree to satisfy it
(JSON Schema draft 7, the keywords that are used). `$ref` is replaced by the definition it names. Titles and
descriptions are left out; `default` has no meaning for validation.
-/

namespace Bab.Json
open Bab Bab.Yaml

/-- the schemas that are used (babfile/*.go, the `JSONSchema` methods and `…Schema` functions, e.g. task.go 54-116) -/
inductive JS where
  /-- type "string" with minLength, pattern and enum (`[]`: no enum) -/
  | str (minLength : Nat) (pattern : Option (Str → Bool)) (enum : List Str)
  /-- type "boolean" -/
  | bool
  /-- type "integer" with minimum -/
  | int (minimum : Option Int)
  /-- type "array" with minItems, uniqueItems and items -/
  | arr (minItems : Nat) (unique : Bool) (items : JS)
  /-- type "object" with required, properties and `additionalProperties: false` -/
  | obj (required : List Str) (props : List (Str × JS))
  /-- type "object" with propertyNames, minProperties and a schema for all values -/
  | dict (names : Option (Str → Bool)) (minProperties : Nat) (values : JS)
  /-- exactly one of these -/
  | oneOf (alts : List JS)

/-- the texts of booleans in YAML 1.2 -/
def boolTexts : List Str :=
  ["true".toList, "false".toList, "True".toList, "False".toList, "TRUE".toList, "FALSE".toList]

/-- a node that can be the key of a JSON object
(the validator of schema/babfile.schema.json, schema/generate.go 1-23) -/
def isText : Node → Bool
  | .scalar _ t _ => t = "!!str".toList
  | _ => false

/-- a mapping that is a JSON object: the keys are texts and different
(the validator, for the objects of task.go 54-95) -/
def isObject (es : List (Node × Node)) : Bool :=
  es.all (fun e => isText e.1) && decide ((es.map (fun e => e.1.value)).Nodup)

mutual
/-- a YAML tree satisfies a schema. `num` reads the text of an integer
(the validator, for the schemas of babfile/*.go). -/
def valid (num : Str → Option Int) : JS → Node → Bool
  | .str m p enum, n =>
    match n with
    | .scalar _ t v => t = "!!str".toList && m ≤ v.length && (match p with | some q => q v | none => true) && (enum = [] || v ∈ enum)
    | _ => false
  | .bool, n =>
    match n with
    | .scalar _ t v => t = "!!bool".toList && v ∈ boolTexts
    | _ => false
  | .int lo, n =>
    match n with
    | .scalar _ t v => t = "!!int".toList && (match num v with | some i => (match lo with | some a => decide (a ≤ i) | none => true) | none => false)
    | _ => false
  | .arr m u s, n =>
    match n with
    | .seq _ ns => m ≤ ns.length && (!u || decide ((ns.map Node.value).Nodup)) && ns.all (fun x => valid num s x)
    | _ => false
  | .obj req props, n =>
    match n with
    | .map _ es => isObject es && req.all (fun k => es.any (fun e => e.1.value = k)) && es.all (fun e => validProp num props e.1.value e.2)
    | _ => false
  | .dict names m s, n =>
    match n with
    | .map _ es => isObject es && m ≤ es.length && es.all (fun e => (match names with | some q => q e.1.value | none => true) && valid num s e.2)
    | _ => false
  | .oneOf alts, n => exactlyOne num alts n
/-- the value of a property (`Properties` and `AdditionalProperties`, e.g. run_prompt.go 144-151) -/
def validProp (num : Str → Option Int) : List (Str × JS) → Str → Node → Bool
  | [], _, _ => false
  | (k, s) :: ps, key, n => if k = key then valid num s n else validProp num ps key n
/-- none of the alternatives (`OneOf`, e.g. run_prompt.go 104) -/
def noneOf (num : Str → Option Int) : List JS → Node → Bool
  | [], _ => true
  | s :: ss, n => !valid num s n && noneOf num ss n
/-- exactly one of the alternatives (`OneOf`, e.g. run_prompt.go 104) -/
def exactlyOne (num : Str → Option Int) : List JS → Node → Bool
  | [], _ => false
  | s :: ss, n => (valid num s n && noneOf num ss n) || (!valid num s n && exactlyOne num ss n)
end

/-- a letter, a digit, `_` or `-` (`TaskNamePattern`, babfile/task.go 8) -/
def nameChar (c : Char) : Bool :=
  ('a' ≤ c ∧ c ≤ 'z') ∨ ('A' ≤ c ∧ c ≤ 'Z') ∨ ('0' ≤ c ∧ c ≤ '9') ∨ c = '_' ∨ c = '-'

/-- the rest of a name; `start`: a part begins here (`TaskNamePattern`, babfile/task.go 8) -/
def nameFrom : Bool → Str → Bool
  | start, [] => !start
  | start, c :: r => if nameChar c then nameFrom false r else c = ':' && !start && nameFrom true r

/-- babfile/task.go 8 `TaskNamePattern`: `^[a-zA-Z0-9_-]+(:[a-zA-Z0-9_-]+)*$` -/
def isTaskName (s : Str) : Bool := nameFrom true s

/-- what may follow `babfile` in the path of an include: `(\..*)?\.(ya?ml)$` (babfile/include.go 12-29) -/
def isExtension (r : Str) : Bool :=
  r = ".yml".toList || r = ".yaml".toList ||
  (match r with
   | '.' :: x => (".yml".toList.isSuffixOf x || ".yaml".toList.isSuffixOf x) && !x.contains '\n'
   | _ => false)

/-- babfile/include.go 17: `.*[Bb]abfile(\..*)?\.(ya?ml)$`, anywhere in the path -/
def isBabfilePath : Str → Bool
  | [] => false
  | c :: r => ((c = 'B' || c = 'b') && "abfile".toList.isPrefixOf r && isExtension (r.drop 6)) || isBabfilePath r

/-- a text without conditions: babfile/dir.go 5-10, when.go 5-10, label.go 5-10 -/
def anyText : JS := .str 0 none []

/-- a text that is not empty (`MinLength`, e.g. run_prompt.go 98-102) -/
def someText : JS := .str 1 none []

/-- babfile/env.go 5-13 `EnvSchema` -/
def envSchema : JS := .dict none 0 anyText

/-- babfile/variable.go 19-31 `VarsSchema` -/
def varsSchema : JS := .dict (some isVarName) 0 anyText

/-- babfile/platform.go 28-38 `JSONSchema` -/
def platformSchema : JS := .str 0 none ["linux".toList, "darwin".toList, "windows".toList]

/-- babfile/platform.go 40-47 `PlatformsArraySchema` -/
def platformsSchema : JS := .arr 0 true platformSchema

/-- babfile/run_cmd.go 31-54 `CommandRunSchema`; silent.go 5-10, output.go 5-10 -/
def commandSchema : JS := .obj ["cmd".toList]
  [("cmd".toList, someText), ("dir".toList, anyText), ("env".toList, envSchema), ("silent".toList, .bool), ("output".toList, .bool),
   ("platforms".toList, platformsSchema), ("when".toList, anyText), ("label".toList, anyText)]

/-- babfile/run_task.go 29-51 `TaskRunSchema` -/
def taskRunSchema : JS := .obj ["task".toList]
  [("task".toList, .str 1 (some isTaskName) []), ("silent".toList, .bool), ("output".toList, .bool),
   ("platforms".toList, platformsSchema), ("when".toList, anyText), ("label".toList, anyText)]

/-- babfile/run_log.go 32-43 `LogLevelSchema` -/
def levelSchema : JS := .str 0 none ["debug".toList, "info".toList, "warn".toList, "error".toList]

/-- babfile/run_log.go 65-85 `LogRunSchema` -/
def logSchema : JS := .obj ["log".toList]
  [("log".toList, someText), ("level".toList, levelSchema), ("platforms".toList, platformsSchema), ("when".toList, anyText),
   ("label".toList, anyText)]

/-- babfile/run_prompt.go 45-55 `PromptTypeSchema` -/
def promptTypeSchema : JS := .str 0 none
  ["confirm".toList, "input".toList, "select".toList, "multiselect".toList, "password".toList, "number".toList]

/-- babfile/run_prompt.go 86-151 `PromptRunSchema` -/
def promptSchema : JS := .obj ["prompt".toList, "type".toList, "message".toList]
  [("prompt".toList, .str 1 (some isVarName) []), ("type".toList, promptTypeSchema), ("message".toList, someText),
   ("default".toList, .oneOf [anyText, .bool]), ("defaults".toList, .arr 0 false anyText), ("options".toList, .arr 1 false someText),
   ("placeholder".toList, anyText), ("validate".toList, anyText), ("min".toList, .int none), ("max".toList, .int none),
   ("confirm".toList, .bool), ("platforms".toList, platformsSchema), ("when".toList, anyText)]

/-- babfile/run.go 24-32 `ParallelChildItemSchema` -/
def childSchema : JS := .oneOf [commandSchema, taskRunSchema, logSchema]

/-- babfile/run_parallel.go 119-130 `ParallelModeSchema` -/
def modeSchema : JS := .str 0 none ["interleaved".toList, "grouped".toList, "tabs".toList]

/-- babfile/run_parallel.go 85-117 `ParallelRunSchema` -/
def parallelSchema : JS := .obj ["parallel".toList]
  [("parallel".toList, .arr 1 false childSchema), ("mode".toList, modeSchema), ("limit".toList, .int (some 0)), ("color".toList, .bool),
   ("silent".toList, .bool), ("output".toList, .bool), ("platforms".toList, platformsSchema), ("when".toList, anyText)]

/-- babfile/run.go 12-22 `RunItemSchema` -/
def runItemSchema : JS := .oneOf [commandSchema, taskRunSchema, logSchema, promptSchema, parallelSchema]

/-- a list of different task names: babfile/task.go 65-73 and 97-108 `DepsSchema` -/
def taskNamesSchema : JS := .arr 0 true (.str 0 (some isTaskName) [])

/-- babfile/task.go 54-95 `JSONSchema` -/
def taskSchema : JS := .obj []
  [("desc".toList, anyText), ("alias".toList, .str 0 (some isTaskName) []), ("aliases".toList, taskNamesSchema), ("vars".toList, varsSchema),
   ("env".toList, envSchema), ("silent".toList, .bool), ("output".toList, .bool), ("dir".toList, anyText), ("when".toList, anyText),
   ("deps".toList, taskNamesSchema), ("run".toList, .arr 1 false runItemSchema)]

/-- babfile/include.go 12-29 `JSONSchema` -/
def includeSchema : JS := .obj ["babfile".toList] [("babfile".toList, .str 1 (some isBabfilePath) [])]

/-- babfile/babfile.go 18-59 `JSONSchema`, schema/schema.go 14-21 `GenerateSchema` -/
def babfileSchema : JS := .obj []
  [("vars".toList, varsSchema), ("env".toList, envSchema), ("silent".toList, .bool), ("output".toList, .bool), ("dir".toList, anyText),
   ("includes".toList, .dict (some isTaskName) 0 includeSchema), ("tasks".toList, .dict (some isTaskName) 1 taskSchema)]

end Bab.Json
