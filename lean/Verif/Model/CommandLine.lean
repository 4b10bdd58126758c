import Verif.Model.Cli
/-
Model of how the arguments of bab become flags and words: cmd/root.go 60-89 declares the flags, the library spf13/pflag reads
them, and spf13/cobra answers `--help` and `--version` before `run` is called. What the libraries do follows their
documentation and source (pflag 1.0.10: `parseArgs`, `parseLongArg`, `parseSingleShortArg`; cobra 1.10.2: `execute`). Left out:
the hidden commands `__complete` and `__completeNoDesc`, by which shells ask for completions, and arguments that begin with
`-test.`, which pflag passes over.
-/

namespace Bab.CmdLine
open Bab

/-- the flags declared in cmd/root.go 80-85, and the two that cobra adds -/
inductive Flag
  | verbose | dryRun | babfile | list | validate | completion | help | version
  deriving DecidableEq, Repr

/-- `BoolVarP` or `StringVarP` (root.go 80-85) -/
def Flag.takesValue : Flag → Bool
  | .babfile => true
  | .completion => true
  | _ => false

/-- the names (root.go 80-85; cobra's `InitDefaultHelpFlag` and `InitDefaultVersionFlag`) -/
def Flag.name : Flag → Str
  | .verbose => ['v', 'e', 'r', 'b', 'o', 's', 'e']
  | .dryRun => ['d', 'r', 'y', '-', 'r', 'u', 'n']
  | .babfile => ['b', 'a', 'b', 'f', 'i', 'l', 'e']
  | .list => ['l', 'i', 's', 't']
  | .validate => ['v', 'a', 'l', 'i', 'd', 'a', 't', 'e']
  | .completion => ['c', 'o', 'm', 'p', 'l', 'e', 't', 'i', 'o', 'n']
  | .help => ['h', 'e', 'l', 'p']
  | .version => ['v', 'e', 'r', 's', 'i', 'o', 'n']

/-- all flags (root.go 80-85) -/
def Flag.all : List Flag := [.verbose, .dryRun, .babfile, .list, .validate, .completion, .help, .version]

/-- the shorthands (root.go 80-85). `--version` would have `-v`, if that were not taken. -/
def shortFlag : Char → Option Flag
  | 'v' => some .verbose
  | 'n' => some .dryRun
  | 'b' => some .babfile
  | 'l' => some .list
  | 'c' => some .completion
  | 'h' => some .help
  | _ => none

/-- the variables behind the flags (root.go 26-34; those of help and version are cobra's) -/
structure Settings where
  verbose : Bool := false
  dryRun : Bool := false
  babfile : Str := []
  list : Bool := false
  validate : Bool := false
  completion : Str := []
  help : Bool := false
  version : Bool := false
  deriving DecidableEq, Repr

/-- `strconv.ParseBool`, which reads the values of the flags in root.go 80-84 -/
def parseBool (s : Str) : Option Bool :=
  if s ∈ [['1'], ['t'], ['T'], ['T', 'R', 'U', 'E'], ['t', 'r', 'u', 'e'], ['T', 'r', 'u', 'e']] then some true
  else if s ∈ [['0'], ['f'], ['F'], ['F', 'A', 'L', 'S', 'E'], ['f', 'a', 'l', 's', 'e'], ['F', 'a', 'l', 's', 'e']] then some false
  else none

/-- the value a flag has if none is given: `NoOptDefVal` of a `BoolVarP` (root.go 80) -/
def trueText : Str := ['t', 'r', 'u', 'e']

/-- why arguments cannot be read (the errors `ParseFlags` returns to root.go 49) -/
inductive Bad
  | syntax | unknown (name : Str) | unknownShort (c : Char) | invalid (f : Flag) (v : Str) | noArgument (f : Flag)
  deriving DecidableEq, Repr

/-- pflag's `Set`: storing a value (the variables of root.go 80-85) -/
def set (f : Flag) (v : Str) (s : Settings) : Except Bad Settings :=
  match f with
  | .babfile => .ok { s with babfile := v }
  | .completion => .ok { s with completion := v }
  | f => match parseBool v with
    | none => .error (.invalid f v)
    | some b => .ok (match f with
      | .verbose => { s with verbose := b }
      | .dryRun => { s with dryRun := b }
      | .list => { s with list := b }
      | .validate => { s with validate := b }
      | .help => { s with help := b }
      | .version => { s with version := b }
      | _ => s)

/-- pflag's `parseLongArg` (called for root.go 49): the argument without `--`, the arguments after it -/
def parseLong (name : Str) (args : List Str) (s : Settings) : Except Bad (Settings × List Str) :=
  if name = [] ∨ name.head? = some '-' ∨ name.head? = some '=' then .error .syntax
  else match Flag.all.find? (fun f => f.name = name.takeWhile (· ≠ '=')) with
    | none => .error (.unknown (name.takeWhile (· ≠ '=')))
    | some f =>
      match name.dropWhile (· ≠ '=') with
      | _ :: v => (set f v s).map (·, args)
      | [] =>
        if f.takesValue then
          match args with
          | a :: rest => (set f a s).map (·, rest)
          | [] => .error (.noArgument f)
        else (set f trueText s).map (·, args)

/-- pflag's `parseShortArg` and `parseSingleShortArg` (called for root.go 49): the argument without `-`, the arguments after it -/
def parseShort : Str → List Str → Settings → Except Bad (Settings × List Str)
  | [], args, s => .ok (s, args)
  | c :: rest, args, s =>
    match shortFlag c with
    | none => .error (.unknownShort c)
    | some f =>
      if rest.head? = some '=' ∧ 1 < rest.length then (set f (rest.drop 1) s).map (·, args)
      else if f.takesValue = false then
        match set f trueText s with
        | .error e => .error e
        | .ok s' => parseShort rest args s'
      else if rest ≠ [] then (set f rest s).map (·, args)
      else match args with
        | a :: more => (set f a s).map (·, more)
        | [] => .error (.noArgument f)

/-- pflag's `parseArgs` (called for root.go 49): flags and words in any order, until `--`. The first argument bounds the number of
iterations. -/
def parseArgs : Nat → List Str → Settings → List Str → Except Bad (Settings × List Str)
  | 0, _, s, words => .ok (s, words)
  | _, [], s, words => .ok (s, words)
  | fuel + 1, a :: args, s, words =>
    match a with
    | '-' :: '-' :: [] => .ok (s, words ++ args)
    | '-' :: '-' :: name =>
      match parseLong name args s with
      | .error e => .error e
      | .ok (s', rest) => parseArgs fuel rest s' words
    | '-' :: c :: more =>
      match parseShort (c :: more) args s with
      | .error e => .error e
      | .ok (s', rest) => parseArgs fuel rest s' words
    | a => parseArgs fuel args s (words ++ [a])

/-- reading the arguments of an invocation (root.go 49) -/
def readArgs (args : List Str) : Except Bad (Settings × List Str) := parseArgs args.length args {} []

/-- the part of the variables that `run` uses (root.go 91-105) -/
def Settings.flags (s : Settings) : Cli.Flags :=
  { dryRun := s.dryRun, listTasks := s.list, validate := s.validate, completion := s.completion, babfile := s.babfile }

/-- what an invocation comes to -/
inductive Answer
  /-- the arguments cannot be read: an error, and exit status 1 (main.go 46-51) -/
  | usage (e : Bad)
  | help | version
  /-- `run` was called (root.go 73-75) -/
  | did (o : Cli.Outcome)

/-- cmd/root.go 44-89: `execute` and what cobra does for it, up to `run` -/
def invoke (w w' : Cli.World) (v v' : Cli.Visit) (args : List Str) (pick : Cli.Pick) : Answer :=
  match readArgs args with
  | .error e => .usage e
  | .ok (s, words) =>
    if s.help then .help
    else if s.version then .version
    else .did (Cli.run w w' v v' s.flags words pick)

end Bab.CmdLine
