import Verif.Model.Unmarshal
import Verif.Model.LoadMessage
import Verif.Model.Condition
/-
The texts of the errors about a Babfile that cannot be read: the messages given in internal/parser/unmarshal.go, their places
(internal/errs/parse.go), and the errors of the YAML library (internal/errs/yaml.go, parser.go 62-88).
-/

namespace Bab.Yaml

/-- what the messages depend on besides the error (errs/parse.go 16-22, errs/location.go 10-28) -/
structure ReadTexts where
  /-- `strconv.IsPrint` -/
  isPrint : Char → Bool
  /-- `os.Getwd`, unless it fails -/
  cwd : Option Str
  /-- the Babfile -/
  path : Str

/-- the beginnings of the messages: `task %q: ` and `task %q: run[%d]: ` (parser/unmarshal.go 232, 382) -/
def Part.text (isPrint : Char → Bool) : Part → Str
  | .file => []
  | .task t => "task ".toList ++ quote isPrint t ++ ": ".toList
  | .item t i => "task ".toList ++ quote isPrint t ++ ": run[".toList ++ Nat.toDigits 10 i ++ "]: ".toList

/-- babfile/variable.go 5 `VarNamePattern` -/
def varNamePattern : Str := "^[a-zA-Z_][a-zA-Z0-9_]*$".toList

/-- `%d` (parser/unmarshal.go 725) -/
def showInt : Int → Str
  | .ofNat n => Nat.toDigits 10 n
  | .negSucc n => '-' :: Nat.toDigits 10 (n + 1)

/-- unmarshal.go 666-774: the messages about prompts, without the beginning -/
def PromptFault.text (q : Str → Str) (name : Str) : PromptFault → Str
  | .badName => "invalid prompt variable name ".toList ++ q name ++ ", must match pattern ".toList ++ varNamePattern
  | .noType => "prompt ".toList ++ q name ++ ": 'type' is required".toList
  | .badType t => "prompt ".toList ++ q name ++ ": invalid type ".toList ++ q t ++
      ", must be one of: confirm, input, select, multiselect, password, number".toList
  | .noMessage => "prompt ".toList ++ q name ++ ": 'message' is required".toList
  | .noOptions t => "prompt ".toList ++ q name ++ ": 'options' is required for type ".toList ++ q t
  | .notAnOption v => "prompt ".toList ++ q name ++ ": default value ".toList ++ q v ++ " is not in options".toList
  | .range a b => "prompt ".toList ++ q name ++ ": min (".toList ++ showInt a ++ ") cannot be greater than max (".toList ++ showInt b ++ ")".toList
  | .badPattern why => "prompt ".toList ++ q name ++ ": invalid validate regex: ".toList ++ why
  | .options => "prompt ".toList ++ q name ++ ": 'options' is only valid for select/multiselect types".toList
  | .defaults => "prompt ".toList ++ q name ++ ": 'defaults' is only valid for multiselect type".toList
  | .validate => "prompt ".toList ++ q name ++ ": 'validate' is only valid for input type".toList
  | .confirm => "prompt ".toList ++ q name ++ ": 'confirm' is only valid for password type".toList
  | .notANumber v => "prompt ".toList ++ q name ++ ": default value ".toList ++ q v ++ " must be a valid integer for number type".toList

/-- the `Message`s of unmarshal.go without the beginning. Where a decoder failed, the cause is shown instead of the message
(parse.go 16-22). -/
def UErr.text (q : Str → Str) : UErr → Str
  | .notMapping what => if what = "root".toList then "expected mapping at root".toList else what ++ " must be a mapping".toList
  | .badEntry what key => what ++ " value for ".toList ++ q key ++ " must be a string".toList
  | .badBool => "expected boolean value".toList
  | .badDir => "dir must be a string".toList
  | .invalid _ why => why
  | .badPlatform p => "invalid platform ".toList ++ q p ++ ", must be one of: linux, darwin, windows".toList
  | .notSequence => "run must be a sequence".toList
  | .itemNotMapping => "run item must be a mapping".toList
  | .tooMany => "run item can only have one of 'cmd', 'task', 'log', or 'prompt'".toList
  | .noKind => "run item must have 'cmd', 'task', 'log', 'prompt', or 'parallel'".toList
  | .badLevel l => "invalid log level ".toList ++ q l ++ ", must be one of: debug, info, warn, error".toList
  | .badMode m => "invalid mode ".toList ++ q m ++ ", must be one of: interleaved, grouped".toList
  | .modeNotText => "mode must be a string".toList
  | .badLimit => "limit must be >= 0".toList
  | .parallelNotSequence => "parallel must be a sequence".toList
  | .unknownKey k => "unknown key ".toList ++ q k ++ " in parallel block".toList
  | .parallelEmpty => "parallel must have at least one item".toList
  | .promptInParallel => "prompt items cannot be used inside parallel blocks".toList
  | .nestedParallel => "parallel items cannot be nested".toList
  | .prompt name f => f.text q name
  | .duplicateTask name first => "duplicate task ".toList ++ q name ++ " (first defined at line ".toList ++ (Nat.repr first).toList ++ ")".toList
  | .badInclude _ why => why
  | .noDocument => "invalid document".toList

/-- a decoder failed (`Cause` is set) (errs/parse.go 16-22) -/
def UErr.hasCause : UErr → Bool
  | .invalid _ _ => true
  | .badInclude _ _ => true
  | _ => false

/-- errs/parse.go 16-22 and 97-100: the text of an error. A duplicate task shows its line even if it is 0. -/
def Report.text (x : ReadTexts) (r : Report) : Str :=
  match r.err with
  | .duplicateTask _ _ => relativePath x.cwd x.path ++ ':' :: (Nat.repr r.line).toList ++ ": ".toList ++ r.err.text (quote x.isPrint)
  | _ => formatLocation x.cwd { path := x.path, line := r.line } ++ ": ".toList ++
      (if r.err.hasCause then [] else r.part.text x.isPrint) ++ r.err.text (quote x.isPrint)

/-- errs/yaml.go 9: `line (\d+):?` at the beginning of a text: the digits, and what follows -/
def lineHere (s : Str) : Option (Str × Str) :=
  if "line ".toList.isPrefixOf s then
    let rest := s.drop 5
    let ds := rest.takeWhile Char.isDigit
    let rest := rest.dropWhile Char.isDigit
    if ds = [] then none else some (ds, if rest.head? = some ':' then rest.tail else rest)
  else none

/-- the digits of the first match (errs/yaml.go 11-22) -/
def firstLine : Str → Option Str
  | [] => none
  | c :: s => match lineHere (c :: s) with
    | some (ds, _) => some ds
    | none => firstLine s

/-- errs/yaml.go 11-22 `ExtractYAMLLocation` -/
def extractYAMLLocation (msg : Str) : Nat :=
  match (firstLine msg).bind atoi with
  | some n => n.toNat
  | none => 0

/-- `yamlLineRegex.ReplaceAllString(msg, "")`. The number bounds the length of the text (errs/yaml.go 31). -/
def removeLines : Nat → Str → Str
  | 0, s => s
  | _ + 1, [] => []
  | f + 1, c :: s => match lineHere (c :: s) with
    | some (_, rest) => removeLines f rest
    | none => c :: removeLines f s

/-- `strings.TrimPrefix` (errs/yaml.go 29-30) -/
def trimPrefix (p s : Str) : Str := if p.isPrefixOf s then s.drop p.length else s

/-- errs/yaml.go 24-34 `CleanYAMLError` -/
def cleanYAMLError (msg : Str) : Str :=
  let msg := trimPrefix "unmarshal errors:\n  ".toList (trimPrefix "yaml: ".toList msg)
  trimSpace (removeLines msg.length msg)

/-- parser.go 75-87: an error of the YAML library -/
def syntaxError (x : ReadTexts) (msg : Str) : GoErr :=
  let clean := cleanYAMLError msg
  .wrap (formatLocation x.cwd { path := x.path, line := extractYAMLLocation msg } ++ ": ".toList) (.plain (if clean = [] then msg else clean))

/-- the errors of `unmarshalBabfile`. Before the loop an error is returned by itself (unmarshal.go 146-153), after it all
of them together (190-193). -/
def readErrors (x : ReadTexts) (doc : Option Node) (errs : List Report) : GoErr :=
  match doc with
  | some (.map _ _) => .many (errs.map fun r => .plain (r.text x))
  | _ => match errs with
    | r :: _ => .plain (r.text x)
    | [] => .plain []

/-- parser.go 62-88, with unmarshal.go 140-195: what becomes of the content of a file. It is the error of the YAML library,
or the document, if there is one. -/
def readFile (x : ReadTexts) (d : Decoders) : Except Str (Option Node) → Except GoErr Schema
  | .error msg => .error (syntaxError x msg)
  | .ok doc =>
    match unmarshalDoc d doc with
    | .ok s => .ok s
    | .error errs => .error (readErrors x doc errs)

/-- parser.go 57-88: what the loader finds in the files, if their contents are given -/
def filesOf (x : LoadTexts) (d : Decoders) (src : GoMap (Except Str (Option Node))) : Files :=
  src.map fun e => (e.1, match readFile { isPrint := x.isPrint, cwd := x.cwd, path := e.1 } d e.2 with | .ok s => some s | .error _ => none)

/-- the texts of the errors of loading, if the contents of the files are given (parser.go 64-87) -/
def withSources (x : LoadTexts) (d : Decoders) (src : GoMap (Except Str (Option Node))) : LoadTexts :=
  { x with invalid := fun q =>
      match (src.get? q).map (readFile { isPrint := x.isPrint, cwd := x.cwd, path := q } d) with
      | some (.error g) => g
      | _ => .plain [] }

end Bab.Yaml
