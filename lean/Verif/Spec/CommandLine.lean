import Verif.Model.CommandLine
/-
How a command line is to be read: which arguments say something about a flag, which are words, and what several statements about
the same flag come to. Independent of the order in which the program goes about it.
-/

namespace Bab.Spec.Words
open Bab.CmdLine

/-- what a command line says: flags with the texts given for them, in order -/
abbrev Said := List (Flag × Str)

/-- the flag has this shorthand -/
def Short (c : Char) (f : Flag) : Prop :=
  (c, f) ∈ [('v', Flag.verbose), ('n', .dryRun), ('b', .babfile), ('l', .list), ('c', .completion), ('h', .help)]

/-- shorthands behind one dash, with the argument that follows if it belongs to them -/
inductive Cluster : Str → List Str → Said → Prop
  | last {c f} (h : Short c f) (hv : f.takesValue = false) : Cluster [c] [] [(f, trueText)]
  | more {c f rest next said} (h : Short c f) (hv : f.takesValue = false) (hr : Cluster rest next said) : Cluster (c :: rest) next ((f, trueText) :: said)
  | equals {c f v} (h : Short c f) (hn : v ≠ []) : Cluster (c :: '=' :: v) [] [(f, v)]
  | joined {c f v} (h : Short c f) (hv : f.takesValue = true) (hn : v ≠ []) (he : ∀ v', v' ≠ [] → v ≠ '=' :: v') : Cluster (c :: v) [] [(f, v)]
  | next {c f v} (h : Short c f) (hv : f.takesValue = true) : Cluster [c] [v] [(f, v)]

/-- arguments that say something about flags -/
inductive Group : List Str → Said → Prop
  | name {f : Flag} (hv : f.takesValue = false) : Group ['-' :: '-' :: f.name] [(f, trueText)]
  | equals (f : Flag) (v : Str) : Group ['-' :: '-' :: f.name ++ '=' :: v] [(f, v)]
  | next {f : Flag} (hv : f.takesValue = true) (v : Str) : Group ['-' :: '-' :: f.name, v] [(f, v)]
  | shorts {cs next said} (h : Cluster cs next said) : Group (('-' :: cs) :: next) said

/-- a word: does not begin with a dash, or is nothing else -/
def IsWord (a : Str) : Prop := a = ['-'] ∨ a.head? ≠ some '-'

/-- arguments without `--`: what they say, and the words among them -/
inductive Part : List Str → Said → List Str → Prop
  | nil : Part [] [] []
  | word {a args said words} (h : IsWord a) (hp : Part args said words) : Part (a :: args) said (a :: words)
  | group {g l args said words} (h : Group g l) (hp : Part args said words) : Part (g ++ args) (l ++ said) words

/-- a command line: after `--` everything is a word -/
inductive Line : List Str → Said → List Str → Prop
  | plain {args said words} (h : Part args said words) : Line args said words
  | dashes {args said words} (h : Part args said words) (more : List Str) : Line (args ++ ['-', '-'] :: more) said (words ++ more)

/-- what is said last about a flag -/
def lastSaid (f : Flag) (said : Said) : Option Str := (said.reverse.find? (·.1 = f)).map (·.2)

/-- every text given for a flag that is on or off says one of the two -/
def Sensible (said : Said) : Prop := ∀ f v, (f, v) ∈ said → f.takesValue = false → parseBool v ≠ none

/-- a flag is on if what is said last about it is so -/
def On (f : Flag) (said : Said) : Bool := (lastSaid f said).bind parseBool == some true

/-- the text given last for a flag, or none -/
def Text (f : Flag) (said : Said) : Str := (lastSaid f said).getD []

/-- what is said comes to these settings -/
def Means (said : Said) (s : Settings) : Prop :=
  s = { verbose := On .verbose said, dryRun := On .dryRun said, babfile := Text .babfile said, list := On .list said,
        validate := On .validate said, completion := Text .completion said, help := On .help said, version := On .version said }

/-! ## The documented spellings (docs and `bab --help`), without the flags of the model. -/

/-- the flags that are on or off, and what each of them turns on -/
def switches : List (String × Settings) :=
  [("verbose", { verbose := true }), ("dry-run", { dryRun := true }), ("list", { list := true }), ("validate", { validate := true }),
   ("help", { help := true }), ("version", { version := true })]

/-- the flags that take a text, and where it goes -/
def texts : List (String × (Str → Settings)) :=
  [("babfile", fun v => { babfile := v }), ("completion", fun v => { completion := v })]

/-- the texts that turn a flag on -/
def yes : List Str := ["1", "t", "T", "true", "True", "TRUE"].map String.toList

/-- the texts that turn a flag off -/
def no : List Str := ["0", "f", "F", "false", "False", "FALSE"].map String.toList

/-- an argument with two dashes -/
def long (n : Str) : Str := '-' :: '-' :: n

end Bab.Spec.Words
