import Verif.Model.Parser
/-
Model of internal/parser/unmarshal.go: from the YAML tree to the schema. Reading the YAML text and decoding a
single node into a Go value are parameters (gopkg.in/yaml.v3). The errors are kept in the order in which they are added,
each with its line, the task and the item its message names, and what it says; columns are left out.
-/

namespace Bab.Yaml
open Bab

/-- `yaml.Node`. An alias (`*name`) has the name of the anchor as its value; what it stands for is only seen by
decoders (`target` tells aliases of the same name apart) (used in parser/unmarshal.go 140-838). -/
inductive Node where
  | scalar (line : Nat) (tag value : Str)
  | seq (line : Nat) (items : List Node)
  | map (line : Nat) (entries : List (Node × Node))
  | ref (line : Nat) (name : Str) (target : Nat)

/-- the field `Value` of a node (e.g. parser/unmarshal.go 89) -/
def Node.value : Node → Str
  | .scalar _ _ v => v
  | .seq _ _ => []
  | .map _ _ => []
  | .ref _ n _ => n

/-- the field `Line` of a node (e.g. parser/unmarshal.go 68) -/
def Node.line : Node → Nat
  | .scalar l _ _ => l
  | .seq l _ => l
  | .map l _ => l
  | .ref l _ _ => l

/-- the types `node.Decode` is used with (parser/unmarshal.go 131, 249, 280, 332, 343, 626, 832) -/
inductive Target
  | strings | int | bool | inc
  deriving DecidableEq

/-- `node.Decode` for the types it is used with, and `regexp.Compile`
(parser/unmarshal.go 131, 249, 280, 332, 343, 626, 730, 832) -/
structure Decoders where
  strs : Node → Option (List Str)
  int : Node → Option Int
  bool : Node → Option Bool
  /-- babfile/include.go 8-10 `Include` -/
  inc : Node → Option Str
  compiles : Str → Bool
  /-- the text of the error of `node.Decode` -/
  why : Target → Node → Str
  /-- the text of the error of `regexp.Compile` -/
  complaint : Str → Str

/-- what is wrong with a prompt (parser/unmarshal.go 666-774) -/
inductive PromptFault
  | badName
  | noType
  | badType (type : Str)
  | noMessage
  | noOptions (type : Str)
  | notAnOption (value : Str)
  | range (min max : Int)
  | badPattern (why : Str)
  | options
  | defaults
  | validate
  | confirm
  | notANumber (value : Str)
  deriving DecidableEq, Repr

/-- the errors, by the place that adds them (parser/unmarshal.go 66-838) -/
inductive UErr
  | notMapping (what : Str)
  | badEntry (what key : Str)
  | badBool
  | badDir
  /-- decoding failed: what is shown is the error of the decoder -/
  | invalid (what why : Str)
  | badPlatform (name : Str)
  | notSequence
  | itemNotMapping
  | tooMany
  | noKind
  | badLevel (level : Str)
  | badMode (mode : Str)
  | modeNotText
  | badLimit
  | parallelNotSequence
  | unknownKey (key : Str)
  | parallelEmpty
  | promptInParallel
  | nestedParallel
  | prompt (name : Str) (fault : PromptFault)
  | duplicateTask (name : Str) (first : Nat)
  | badInclude (name why : Str)
  | noDocument
  deriving DecidableEq, Repr

/-- what a message names besides the line: nothing, a task, or an item of a task (parser/unmarshal.go 232, 382) -/
inductive Part
  | file
  | task (name : Str)
  | item (task : Str) (index : Nat)
  deriving DecidableEq, Repr

/-- an error as it is added to the list (`verrs.Add`, e.g. parser/unmarshal.go 68) -/
structure Report where
  line : Nat
  part : Part
  err : UErr
  deriving DecidableEq, Repr

/-- a value, unless there were errors, and the errors that were added
(the results of the functions of parser/unmarshal.go 66-838) -/
abbrev Res (α : Type) := Option α × List Report

/-- unmarshal.go 75-90 and 104-119: one iteration of the loop of `parseEnvMap` and `parseVarMap` -/
def strMapField (what : Str) (acc : GoMap Str × List Report) (e : Node × Node) : GoMap Str × List Report :=
  match e.2 with
  | .scalar _ _ v => (acc.1.set e.1.value v, acc.2)
  | n => (acc.1, acc.2 ++ [⟨n.line, .file, .badEntry what e.1.value⟩])

/-- unmarshal.go 66-93 `parseEnvMap` and 95-122 `parseVarMap`, which differ in the texts of errors only -/
def parseStrMap (what : Str) : Node → Res (GoMap Str)
  | .map _ es =>
    let r := es.foldl (strMapField what) ([], [])
    (if r.2 = [] then some r.1 else none, r.2)
  | n => (none, [⟨n.line, .file, .notMapping what⟩])

/-- unmarshal.go 124-138 `parseBool` -/
def parseBool (d : Decoders) : Node → Res Bool
  | .scalar l t v =>
    match d.bool (.scalar l t v) with
    | some b => (some b, [])
    | none => (none, [⟨l, .file, .invalid "bool".toList (d.why .bool (.scalar l t v))⟩])
  | n => (none, [⟨n.line, .file, .badBool⟩])

/-- unmarshal.go 177-182, 269-275 and 439-445: the key `dir` -/
def parseDir (part : Part) : Node → Res Str
  | .scalar _ _ v => (some v, [])
  | n => (none, [⟨n.line, part, .badDir⟩])

/-- `val.Decode(&strings)` with its error (parser/unmarshal.go 249, 280, 332, 337) -/
def parseStrs (d : Decoders) (what : Str) (line : Nat) (part : Part) (n : Node) : Res (List Str) :=
  match d.strs n with
  | some l => (some l, [])
  | none => (none, [⟨line, part, .invalid what (d.why .strings n)⟩])

/-- `val.Decode(&int)` with its error (parser/unmarshal.go 342-346, 349-353, 513-517) -/
def parseInt (d : Decoders) (what : Str) (line : Nat) (part : Part) (n : Node) : Res Int :=
  match d.int n with
  | some v => (some v, [])
  | none => (none, [⟨line, part, .invalid what (d.why .int n)⟩])

/-- babfile/platform.go 14-16 `ValidPlatforms` -/
def validPlatforms : List Str := ["linux".toList, "darwin".toList, "windows".toList]

/-- unmarshal.go 624-637 `parsePlatforms` -/
def parsePlatforms (d : Decoders) (line : Nat) (part : Part) (n : Node) : Res (List Str) :=
  match d.strs n with
  | none => (none, [⟨line, part, .invalid "platforms".toList (d.why .strings n)⟩])
  | some ps =>
    match ps.find? (fun p => p ∉ validPlatforms) with
    | some p => (none, [⟨line, part, .badPlatform p⟩])
    | none => (some ps, [])

/-- unmarshal.go 50-62 `promptFields` -/
structure PromptFields where
  name : Str := []
  type : Str := []
  message : Str := []
  dflt : Str := []
  placeholder : Str := []
  validate : Str := []
  options : List Str := []
  defaults : List Str := []
  min : Option Int := none
  max : Option Int := none
  confirm : Option Bool := none

/-- the keys of prompts (parser/unmarshal.go 318-359) -/
inductive PKey
  | prompt | type | message | default | placeholder | validate | options | defaults | min | max | confirm | other
  deriving DecidableEq

/-- the strings of the keys (unmarshal.go 13-48) -/
def pKeys : GoMap PKey :=
  [("prompt".toList, .prompt), ("type".toList, .type), ("message".toList, .message), ("default".toList, .default),
   ("placeholder".toList, .placeholder), ("validate".toList, .validate), ("options".toList, .options),
   ("defaults".toList, .defaults), ("min".toList, .min), ("max".toList, .max), ("confirm".toList, .confirm)]

/-- the case of the switch that is taken (parser/unmarshal.go 318) -/
def pKeyOf (s : Str) : PKey := (pKeys.get? s).getD .other

/-- unmarshal.go 317-361 `parsePromptKey`; on an error the fields stay as they are -/
def parsePromptKey (d : Decoders) (part : Part) (k v : Node) (pf : PromptFields) : Res PromptFields :=
  match pKeyOf k.value with
  | .prompt => (some { pf with name := v.value }, [])
  | .type => (some { pf with type := v.value }, [])
  | .message => (some { pf with message := v.value }, [])
  | .default => (some { pf with dflt := v.value }, [])
  | .placeholder => (some { pf with placeholder := v.value }, [])
  | .validate => (some { pf with validate := v.value }, [])
  | .options => let r := parseStrs d "options".toList k.line part v; (r.1.map (fun l => { pf with options := l }), r.2)
  | .defaults => let r := parseStrs d "defaults".toList k.line part v; (r.1.map (fun l => { pf with defaults := l }), r.2)
  | .min => let r := parseInt d "min".toList k.line part v; (r.1.map (fun i => { pf with min := some i }), r.2)
  | .max => let r := parseInt d "max".toList k.line part v; (r.1.map (fun i => { pf with max := some i }), r.2)
  | .confirm => let r := parseBool d v; (r.1.map (fun b => { pf with confirm := some b }), r.2)
  | .other => (some pf, [])

/-- unmarshal.go 363-378 `countRunTypes` -/
def countRunTypes (cmd task log prompt : Str) : Nat :=
  (if cmd = [] then 0 else 1) + (if task = [] then 0 else 1) + (if log = [] then 0 else 1) + (if prompt = [] then 0 else 1)

/-- unmarshal.go 418-427 `runFields`; `errs` are the errors added so far; the field `line` is an argument of `simpleItem` -/
structure RunFields where
  cmd : Str := []
  task : Str := []
  log : Str := []
  dir : Str := []
  cond : Str := []
  env : GoMap Str := []
  platforms : List Str := []
  level : Str := []
  silent : Option Bool := none
  output : Option Bool := none
  bad : Bool := false
  pf : PromptFields := {}
  errs : List Report := []

/-- the keys of run items (parser/unmarshal.go 436-477) -/
inductive RKey
  | cmd | dir | cond | task | log | level | env | silent | output | platforms | label | other
  deriving DecidableEq

/-- the strings of the keys (unmarshal.go 13-48) -/
def rKeys : GoMap RKey :=
  [("cmd".toList, .cmd), ("dir".toList, .dir), ("when".toList, .cond), ("task".toList, .task), ("log".toList, .log),
   ("level".toList, .level), ("env".toList, .env), ("silent".toList, .silent), ("output".toList, .output),
   ("platforms".toList, .platforms), ("label".toList, .label)]

/-- the case of the switch that is taken (parser/unmarshal.go 436) -/
def rKeyOf (s : Str) : RKey := (rKeys.get? s).getD .other

/-- keep a parsed value, or note that there was an error (parser/unmarshal.go 454-471) -/
def RunFields.keep {α : Type} (rf : RunFields) (r : Res α) (f : RunFields → α → RunFields) : RunFields :=
  match r.1 with
  | some a => { f rf a with errs := rf.errs ++ r.2 }
  | none => { rf with bad := true, errs := rf.errs ++ r.2 }

/-- unmarshal.go 432-478: one iteration of the loop of `parseRunFields` -/
def runField (d : Decoders) (part : Part) (rf : RunFields) (e : Node × Node) : RunFields :=
  match rKeyOf e.1.value with
  | .cmd => { rf with cmd := e.2.value }
  | .dir => rf.keep (parseDir part e.2) (fun rf v => { rf with dir := v })
  | .cond => { rf with cond := e.2.value }
  | .task => { rf with task := e.2.value }
  | .log => { rf with log := e.2.value }
  | .level => { rf with level := e.2.value }
  | .env => rf.keep (parseStrMap "env".toList e.2) (fun rf v => { rf with env := v })
  | .silent => rf.keep (parseBool d e.2) (fun rf v => { rf with silent := some v })
  | .output => rf.keep (parseBool d e.2) (fun rf v => { rf with output := some v })
  | .platforms => rf.keep (parsePlatforms d e.1.line part e.2) (fun rf v => { rf with platforms := v })
  | .label => rf
  | .other => rf.keep (parsePromptKey d part e.1 e.2 rf.pf) (fun rf v => { rf with pf := v })

/-- unmarshal.go 429-481 `parseRunFields` -/
def parseRunFields (d : Decoders) (part : Part) (es : List (Node × Node)) : RunFields := es.foldl (runField d part) {}

/-- babfile/run_log.go 17 `ValidLogLevels` -/
def validLevels : List Str := ["debug".toList, "info".toList, "warn".toList, "error".toList]

/-- unmarshal.go 639-652 `buildLogRun` -/
def buildLogRun (line : Nat) (part : Part) (log level : Str) (platforms : List Str) (cond : Str) : Res RunItem :=
  let level := if level = [] then "info".toList else level
  if level ∉ validLevels then (none, [⟨line, part, .badLevel level⟩])
  else (some (.log { log := log, level := level, platforms := platforms, cond := cond, line := line }), [])

/-- `VarNamePattern` (babfile/variable.go 5): `^[a-zA-Z_][a-zA-Z0-9_]*$` -/
def isVarName : Str → Bool
  | [] => false
  | c :: r =>
    let letter (c : Char) : Bool := ('a' ≤ c ∧ c ≤ 'z') ∨ ('A' ≤ c ∧ c ≤ 'Z') ∨ c = '_'
    letter c && r.all (fun c => letter c || ('0' ≤ c ∧ c ≤ '9'))

/-- `strconv.Atoi`: a sign or none, then digits, in the range of 64 bits -/
def atoi (s : Str) : Option Int :=
  let (neg, ds) : Bool × Str := match s with
    | '-' :: r => (true, r)
    | '+' :: r => (false, r)
    | r => (false, r)
  if ds = [] ∨ ¬ ds.all (fun c => '0' ≤ c ∧ c ≤ '9') then none
  else
    let n : Int := ds.foldl (fun a c => a * 10 + (c.toNat - '0'.toNat : Nat)) 0
    let v := if neg then -n else n
    if v < -9223372036854775808 ∨ v > 9223372036854775807 then none else some v

/-- the six names of prompt types (babfile/run_prompt.go 10-17) -/
def promptTypes : GoMap PromptType :=
  [("confirm".toList, .confirm), ("input".toList, .input), ("select".toList, .select), ("multiselect".toList, .multiselect),
   ("password".toList, .password), ("number".toList, .number)]

/-- babfile/run_prompt.go 28-35 `Valid` and the conversion of the text to a type -/
def promptTypeOf (s : Str) : PromptType := (promptTypes.get? s).getD .other

/-- babfile/run_prompt.go 41-43 `RequiresOptions` -/
def requiresOptions (t : PromptType) : Bool := t = .select ∨ t = .multiselect

/-- `if cond { addError; hasErrors = true }` (e.g. parser/unmarshal.go 669-672) -/
def failIf (b : Bool) (r : Report) : List Report := if b then [r] else []

/-- unmarshal.go 666-688 `validatePromptBasics`; `add` is the method `addError` (unmarshal.go 662-664) -/
def validatePromptBasics (add : PromptFault → Report) (pf : PromptFields) : List Report :=
  failIf (!isVarName pf.name) (add .badName) ++
  (if pf.type = [] then failIf true (add .noType) else failIf (promptTypeOf pf.type = .other) (add (.badType pf.type))) ++
  failIf (pf.message = []) (add .noMessage)

/-- unmarshal.go 690-719 `validatePromptOptions` -/
def validatePromptOptions (add : PromptFault → Report) (pf : PromptFields) : List Report :=
  let t := promptTypeOf pf.type
  failIf (requiresOptions t && pf.options = []) (add (.noOptions pf.type)) ++
  failIf (t = .select && pf.dflt ≠ [] && pf.options ≠ [] && pf.dflt ∉ pf.options) (add (.notAnOption pf.dflt)) ++
  (if t = .multiselect && pf.defaults ≠ [] && pf.options ≠ [] then
    pf.defaults.flatMap (fun x => failIf (x ∉ pf.options) (add (.notAnOption x))) else [])

/-- unmarshal.go 721-737 `validatePromptConstraints` -/
def validatePromptConstraints (d : Decoders) (add : PromptFault → Report) (pf : PromptFields) : List Report :=
  (match pf.min, pf.max with
   | some a, some b => failIf (a > b) (add (.range a b))
   | _, _ => []) ++
  failIf (pf.validate ≠ [] && !d.compiles pf.validate) (add (.badPattern (d.complaint pf.validate)))

/-- unmarshal.go 739-774 `validatePromptTypeSpecific` -/
def validatePromptTypeSpecific (add : PromptFault → Report) (pf : PromptFields) : List Report :=
  let t := promptTypeOf pf.type
  if t = .other then []
  else
    failIf (pf.options ≠ [] && !requiresOptions t) (add .options) ++
    failIf (pf.defaults ≠ [] && t ≠ .multiselect) (add .defaults) ++
    failIf (pf.validate ≠ [] && t ≠ .input) (add .validate) ++
    failIf (pf.confirm ≠ none && t ≠ .password) (add .confirm) ++
    failIf (t = .number && pf.dflt ≠ [] && atoi pf.dflt = none) (add (.notANumber pf.dflt))

/-- unmarshal.go 785-819 `validatePromptRun` -/
def validatePromptRun (d : Decoders) (line : Nat) (part : Part) (pf : PromptFields) (platforms : List Str) (cond : Str) : Res RunItem :=
  let add := fun f => Report.mk line part (.prompt pf.name f)
  let errs := validatePromptBasics add pf ++ validatePromptOptions add pf ++ validatePromptConstraints d add pf ++ validatePromptTypeSpecific add pf
  if errs ≠ [] then (none, errs)
  else
    (some (.prompt { prompt := pf.name, type := promptTypeOf pf.type, message := pf.message, platforms := platforms,
                     default := pf.dflt, defaults := pf.defaults, options := pf.options, placeholder := pf.placeholder,
                     validate := pf.validate, min := pf.min, max := pf.max, confirm := pf.confirm, cond := cond, line := line }), [])

/-- unmarshal.go 296-315 `parseRunItems`, given the function for one item, which gets its index -/
def parseRunItems (task : Str) (item : Nat → Node → Res RunItem) : Node → Res (List RunItem)
  | .seq _ ns =>
    let rs := ns.mapIdx item
    (if rs.all (fun r => r.1.isSome) then some (rs.filterMap (·.1)) else none, rs.flatMap (·.2))
  | n => (none, [⟨n.line, .task task, .notSequence⟩])

/-- unmarshal.go 483-492 `parallelFields`; `mode = none` is the empty string -/
structure ParFields where
  items : Option (Nat × List Node) := none
  mode : Option ParallelMode := none
  limit : Nat := 0
  color : Option Bool := none
  silent : Option Bool := none
  output : Option Bool := none
  platforms : List Str := []
  cond : Str := []
  bad : Bool := false
  errs : List Report := []

/-- babfile/run_parallel.go 12-18 -/
def modes : GoMap ParallelMode :=
  [("interleaved".toList, .interleaved), ("grouped".toList, .grouped), ("tabs".toList, .tabs)]

/-- the keys of parallel blocks (parser/unmarshal.go 495-538) -/
inductive BKey
  | parallel | mode | limit | color | silent | output | platforms | cond | other
  deriving DecidableEq

/-- the strings of the keys (unmarshal.go 13-48) -/
def bKeys : GoMap BKey :=
  [("parallel".toList, .parallel), ("mode".toList, .mode), ("limit".toList, .limit), ("color".toList, .color),
   ("silent".toList, .silent), ("output".toList, .output), ("platforms".toList, .platforms), ("when".toList, .cond)]

/-- the case of the switch that is taken (parser/unmarshal.go 495) -/
def bKeyOf (s : Str) : BKey := (bKeys.get? s).getD .other

/-- keep a parsed value, or note that there was an error (parser/unmarshal.go 583-585) -/
def ParFields.keep {α : Type} (pf : ParFields) (r : Res α) (f : ParFields → α → ParFields) : ParFields :=
  match r.1 with
  | some a => { f pf a with errs := pf.errs ++ r.2 }
  | none => { pf with bad := true, errs := pf.errs ++ r.2 }

/-- unmarshal.go 496-501: the items of the block, with the line of the list -/
def parItems (part : Part) : Node → Res (Nat × List Node)
  | .seq l ns => (some (l, ns), [])
  | n => (none, [⟨n.line, part, .parallelNotSequence⟩])

/-- unmarshal.go 502-511: the mode -/
def parMode (part : Part) : Node → Res ParallelMode
  | .scalar l _ v =>
    match modes.get? v with
    | some m => (some m, [])
    | none => (none, [⟨l, part, .badMode v⟩])
  | n => (none, [⟨n.line, part, .modeNotText⟩])

/-- unmarshal.go 512-522: the limit -/
def parLimit (d : Decoders) (part : Part) (n : Node) : Res Nat :=
  match d.int n with
  | none => (none, [⟨n.line, part, .invalid "limit".toList (d.why .int n)⟩])
  | some v => if v < 0 then (none, [⟨n.line, part, .badLimit⟩]) else (some v.toNat, [])

/-- unmarshal.go 494-540 `parseParallelKey` -/
def parField (d : Decoders) (part : Part) (pf : ParFields) (e : Node × Node) : ParFields :=
  match bKeyOf e.1.value with
  | .parallel => pf.keep (parItems part e.2) (fun pf v => { pf with items := some v })
  | .mode => pf.keep (parMode part e.2) (fun pf v => { pf with mode := some v })
  | .limit => pf.keep (parLimit d part e.2) (fun pf v => { pf with limit := v })
  | .color => pf.keep (parseBool d e.2) (fun pf v => { pf with color := some v })
  | .silent => pf.keep (parseBool d e.2) (fun pf v => { pf with silent := some v })
  | .output => pf.keep (parseBool d e.2) (fun pf v => { pf with output := some v })
  | .platforms => pf.keep (parsePlatforms d e.1.line part e.2) (fun pf v => { pf with platforms := v })
  | .cond => { pf with cond := e.2.value }
  | .other => { pf with bad := true, errs := pf.errs ++ [⟨e.1.line, part, .unknownKey e.1.value⟩] }

/-- unmarshal.go 542-555 `validateParallelItems`. There is an item for every node (`parseRunItems` succeeded). -/
def validateParallelItems (part : Part) (ns : List Node) (items : List RunItem) : List Report :=
  (ns.zip items).flatMap fun e => match e.2 with
    | .prompt _ => [⟨e.1.line, part, .promptInParallel⟩]
    | .parallel .. => [⟨e.1.line, part, .nestedParallel⟩]
    | _ => []

/-- the value of the first entry with a key (parser/unmarshal.go 564-569) -/
def firstOf (key : Str) : List (Node × Node) → Option Node
  | [] => none
  | (k, v) :: es => if k.value = key then some v else firstOf key es

/-- unmarshal.go 557-573 `extractParallelLabels`. There is an item for every node (`parseRunItems` succeeded). -/
def extractParallelLabels (ns : List Node) (items : List RunItem) : List Str :=
  (List.range items.length).map fun j =>
    match ns[j]? with
    | some (Node.map _ es) => ((firstOf "label".toList es).map Node.value).getD []
    | _ => []

/-- unmarshal.go 575-622 `parseParallelRun`, given the function for one item -/
def parseParallelRun (d : Decoders) (line : Nat) (task : Str) (index : Nat) (item : Nat → Node → Res RunItem) (es : List (Node × Node)) : Res RunItem :=
  let part := Part.item task index
  let pf := es.foldl (parField d part) {}
  match pf.items with
  | none => (none, pf.errs)
  | some (l, ns) =>
    if pf.bad then (none, pf.errs)
    else if ns = [] then (none, pf.errs ++ [⟨l, part, .parallelEmpty⟩])
    else
      match parseRunItems task item (.seq l ns) with
      | (none, errs) => (none, pf.errs ++ errs)
      | (some items, errs) =>
        let verrs := validateParallelItems part ns items
        if verrs ≠ [] then (none, pf.errs ++ errs ++ verrs)
        else
          (some (.parallel items (extractParallelLabels ns items) (pf.mode.getD .interleaved) pf.limit pf.color pf.silent pf.output
            pf.platforms pf.cond line), pf.errs ++ errs)

/-- unmarshal.go 386-390: there is a key `parallel` -/
def hasParallel (es : List (Node × Node)) : Bool := es.any (fun e => e.1.value = "parallel".toList)

/-- unmarshal.go 394-416: a run item that is not a parallel block -/
def simpleItem (d : Decoders) (line : Nat) (part : Part) (es : List (Node × Node)) : Res RunItem :=
  let rf := parseRunFields d part es
  let count := countRunTypes rf.cmd rf.task rf.log rf.pf.name
  if count > 1 then (none, rf.errs ++ [⟨line, part, .tooMany⟩])
  else if count = 0 then (none, rf.errs ++ [⟨line, part, .noKind⟩])
  else if rf.bad then (none, rf.errs)
  else if rf.cmd ≠ [] then
    (some (.command { cmd := rf.cmd, dir := rf.dir, env := rf.env, silent := rf.silent, output := rf.output, platforms := rf.platforms, cond := rf.cond, line := line }), rf.errs)
  else if rf.task ≠ [] then
    (some (.task { task := rf.task, silent := rf.silent, output := rf.output, platforms := rf.platforms, cond := rf.cond, line := line }), rf.errs)
  else if rf.log ≠ [] then
    let r := buildLogRun line part rf.log rf.level rf.platforms rf.cond
    (r.1, rf.errs ++ r.2)
  else if rf.pf.name ≠ [] then
    let r := validatePromptRun d line part rf.pf rf.platforms rf.cond
    (r.1, rf.errs ++ r.2)
  else (none, rf.errs)

/-- unmarshal.go 380-416 `parseRunItem`. The number after the name of the task bounds the depth; `depth` below suffices. -/
def parseRunItem (d : Decoders) (task : Str) : Nat → Nat → Node → Res RunItem
  | 0, _, _ => (none, [])
  | fuel + 1, index, .map line es =>
    if hasParallel es then parseParallelRun d line task index (parseRunItem d task fuel) es else simpleItem d line (.item task index) es
  | _ + 1, index, n => (none, [⟨n.line, .item task index, .itemNotMapping⟩])

mutual
/-- how deep sequences and mappings are nested (bounds the recursion of parser/unmarshal.go 380-416, 575-622) -/
def depth : Node → Nat
  | .scalar _ _ _ => 1
  | .seq _ ns => depthList ns + 1
  | .map _ es => depthEntries es + 1
  | .ref _ _ _ => 1
/-- see `depth`; parser/unmarshal.go 305 -/
def depthList : List Node → Nat
  | [] => 0
  | n :: ns => max (depth n) (depthList ns)
/-- see `depth`; parser/unmarshal.go 582 -/
def depthEntries : List (Node × Node) → Nat
  | [] => 0
  | (_, v) :: es => max (depth v) (depthEntries es)
end

/-- the keys of tasks (parser/unmarshal.go 243-290) -/
inductive TKey
  | desc | nick | aliases | vars | env | silent | output | dir | cond | deps | run | other
  deriving DecidableEq

/-- the strings of the keys (unmarshal.go 13-48) -/
def tKeys : GoMap TKey :=
  [("desc".toList, .desc), ("alias".toList, .nick), ("aliases".toList, .aliases), ("vars".toList, .vars), ("env".toList, .env),
   ("silent".toList, .silent), ("output".toList, .output), ("dir".toList, .dir), ("when".toList, .cond), ("deps".toList, .deps),
   ("run".toList, .run)]

/-- the case of the switch that is taken (parser/unmarshal.go 243) -/
def tKeyOf (s : Str) : TKey := (tKeys.get? s).getD .other

/-- the variables of the loop of `parseTask` (parser/unmarshal.go 236-237) -/
structure TaskState where
  task : Task
  bad : Bool := false
  errs : List Report := []

/-- keep a parsed value, or note that there was an error (parser/unmarshal.go 254-256) -/
def TaskState.keep {α : Type} (st : TaskState) (r : Res α) (f : Task → α → Task) : TaskState :=
  match r.1 with
  | some a => { st with task := f st.task a, errs := st.errs ++ r.2 }
  | none => { st with bad := true, errs := st.errs ++ r.2 }

/-- unmarshal.go 239-291: one iteration of the loop of `parseTask` -/
def taskField (d : Decoders) (name : Str) (st : TaskState) (e : Node × Node) : TaskState :=
  match tKeyOf e.1.value with
  | .desc => { st with task := { st.task with desc := e.2.value } }
  | .nick => { st with task := { st.task with «alias» := e.2.value } }
  | .aliases => st.keep (parseStrs d "aliases".toList e.1.line (.task name) e.2) (fun t v => { t with aliases := v })
  | .vars => st.keep (parseStrMap "vars".toList e.2) (fun t v => { t with vars := some v })
  | .env => st.keep (parseStrMap "env".toList e.2) (fun t v => { t with env := v })
  | .silent => st.keep (parseBool d e.2) (fun t v => { t with silent := some v })
  | .output => st.keep (parseBool d e.2) (fun t v => { t with output := some v })
  | .dir => st.keep (parseDir (.task name) e.2) (fun t v => { t with dir := v })
  | .cond => { st with task := { st.task with cond := e.2.value } }
  | .deps => st.keep (parseStrs d "deps".toList e.1.line (.task name) e.2) (fun t v => { t with deps := v, depsLine := e.1.line })
  | .run => st.keep (parseRunItems name (parseRunItem d name (depth e.2)) e.2) (fun t v => { t with run := v })
  | .other => st

/-- unmarshal.go 230-294 `parseTask`. The name is given to the task by the caller (parser.go 91). -/
def parseTask (d : Decoders) (name : Str) : Node → Res Task
  | .map _ es =>
    let st := es.foldl (taskField d name) { task := { name := name } }
    (if st.bad then none else some st.task, st.errs)
  | n => (none, [⟨n.line, .task name, .notMapping "task".toList⟩])

/-- the variables of the loop of `parseTasks` (parser/unmarshal.go 203) -/
structure TasksState where
  tasks : TaskMap
  /-- `taskLines` -/
  seen : GoMap Nat := []
  errs : List Report := []

/-- unmarshal.go 205-227: one iteration of the loop of `parseTasks` -/
def tasksField (d : Decoders) (st : TasksState) (e : Node × Node) : TasksState :=
  let name := e.1.value
  match st.seen.get? name with
  | some first => { st with errs := st.errs ++ [⟨e.1.line, .file, .duplicateTask name first⟩] }
  | none =>
    let st := { st with seen := st.seen.set name e.1.line }
    match parseTask d name e.2 with
    | (some t, errs) => { st with tasks := st.tasks.set name { t with line := e.1.line }, errs := st.errs ++ errs }
    | (none, errs) => { st with errs := st.errs ++ errs }

/-- unmarshal.go 197-228 `parseTasks` -/
def parseTasks (d : Decoders) (n : Node) (tasks : TaskMap) : TaskMap × List Report :=
  match n with
  | .map _ es =>
    let st := es.foldl (tasksField d) { tasks := tasks }
    (st.tasks, st.errs)
  | n => (tasks, [⟨n.line, .file, .notMapping "tasks".toList⟩])

/-- unmarshal.go 827-837: one iteration of the loop of `parseIncludes` -/
def includeField (d : Decoders) (acc : GoMap Str × List Report) (e : Node × Node) : GoMap Str × List Report :=
  match d.inc e.2 with
  | some p => (acc.1.set e.1.value p, acc.2)
  | none => (acc.1, acc.2 ++ [⟨e.1.line, .file, .badInclude e.1.value (d.why .inc e.2)⟩])

/-- unmarshal.go 821-838 `parseIncludes` -/
def parseIncludes (d : Decoders) (n : Node) (incs : GoMap Str) : GoMap Str × List Report :=
  match n with
  | .map _ es => es.foldl (includeField d) (incs, [])
  | n => (incs, [⟨n.line, .file, .notMapping "includes".toList⟩])

/-- the keys of a Babfile (parser/unmarshal.go 168-187) -/
inductive FKey
  | vars | env | silent | output | dir | tasks | includes | other
  deriving DecidableEq

/-- the strings of the keys (unmarshal.go 13-48) -/
def fKeys : GoMap FKey :=
  [("vars".toList, .vars), ("env".toList, .env), ("silent".toList, .silent), ("output".toList, .output), ("dir".toList, .dir),
   ("tasks".toList, .tasks), ("includes".toList, .includes)]

/-- the case of the switch that is taken (parser/unmarshal.go 168) -/
def fKeyOf (s : Str) : FKey := (fKeys.get? s).getD .other

/-- the variables of the loop of `unmarshalBabfile` (parser/unmarshal.go 155-162) -/
structure FileState where
  schema : Schema := { vars := some [] }
  errs : List Report := []

/-- keep a parsed value; errors are looked at in the end (parser/unmarshal.go 170, 190) -/
def FileState.keep {α : Type} (st : FileState) (r : Res α) (f : Schema → α → Schema) : FileState :=
  match r.1 with
  | some a => { schema := f st.schema a, errs := st.errs ++ r.2 }
  | none => { st with errs := st.errs ++ r.2 }

/-- unmarshal.go 164-188: one iteration of the loop of `unmarshalBabfile` -/
def fileField (d : Decoders) (st : FileState) (e : Node × Node) : FileState :=
  match fKeyOf e.1.value with
  | .vars => st.keep (parseStrMap "vars".toList e.2) (fun s v => { s with vars := some v })
  | .env => st.keep (parseStrMap "env".toList e.2) (fun s v => { s with env := v })
  | .silent => st.keep (parseBool d e.2) (fun s v => { s with silent := some v })
  | .output => st.keep (parseBool d e.2) (fun s v => { s with output := some v })
  | .dir => st.keep (parseDir .file e.2) (fun s v => { s with dir := v })
  | .tasks => let r := parseTasks d e.2 st.schema.tasks; { schema := { st.schema with tasks := r.1 }, errs := st.errs ++ r.2 }
  | .includes => let r := parseIncludes d e.2 st.schema.includes; { schema := { st.schema with includes := r.1 }, errs := st.errs ++ r.2 }
  | .other => st

/-- unmarshal.go 150-195: the part of `unmarshalBabfile` after the YAML text was read; `doc` is the content of the
document, if there is one -/
def unmarshalDoc (d : Decoders) (doc : Option Node) : Except (List Report) Schema :=
  match doc with
  | none => .error [⟨0, .file, .noDocument⟩]
  | some (Node.map _ es) =>
    let st := es.foldl (fileField d) {}
    if st.errs = [] then .ok st.schema else .error st.errs
  | some n => .error [⟨n.line, .file, .notMapping "root".toList⟩]

end Bab.Yaml
