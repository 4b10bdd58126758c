import Verif.Spec.Unmarshal
/-
The problems of a Babfile, stated on the YAML tree (C74): what is wrong, and where. A report is a line, the task and item
that are named, and what is said.
-/

namespace Bab.Yaml.Spec
open Bab Bab.Yaml

/-- not a plain value -/
def NotText (n : Node) : Prop := ∀ l t v, n ≠ .scalar l t v

/-- not a list -/
def NotList (n : Node) : Prop := ∀ l ns, n ≠ .seq l ns

/-- not a mapping -/
def NotMapping (n : Node) : Prop := ∀ l es, n ≠ .map l es

/-- a variable name: letters, digits and `_`, not beginning with a digit -/
def VarName (x : Str) : Prop := ∃ c r, x = c :: r ∧ (c.isAlpha = true ∨ c = '_') ∧ ∀ y ∈ r, y.isAlphanum = true ∨ y = '_'

/-- a yes or no -/
inductive BoolFault (d : Decoders) (n : Node) : Report → Prop
  | kind : NotText n → BoolFault d n ⟨n.line, .file, .badBool⟩
  | value : ¬ NotText n → d.bool n = none → BoolFault d n ⟨n.line, .file, .invalid "bool".toList (d.why .bool n)⟩

/-- variables, or an environment -/
inductive TextsFault (what : Str) (n : Node) : Report → Prop
  | kind : NotMapping n → TextsFault what n ⟨n.line, .file, .notMapping what⟩
  | entry {l es e} : n = .map l es → e ∈ es → NotText e.2 → TextsFault what n ⟨e.2.line, .file, .badEntry what e.1.value⟩

/-- a directory -/
inductive DirFault (part : Part) (n : Node) : Report → Prop
  | kind : NotText n → DirFault part n ⟨n.line, part, .badDir⟩

/-- platforms: the first unknown one counts -/
inductive PlatformsFault (d : Decoders) (line : Nat) (part : Part) (n : Node) : Report → Prop
  | value : d.strs n = none → PlatformsFault d line part n ⟨line, part, .invalid "platforms".toList (d.why .strings n)⟩
  | name {as p bs} : d.strs n = some (as ++ p :: bs) → (∀ a ∈ as, a ∈ ["linux".toList, "darwin".toList, "windows".toList]) →
      p ∉ ["linux".toList, "darwin".toList, "windows".toList] → PlatformsFault d line part n ⟨line, part, .badPlatform p⟩

/-- an entry of an item that is not a parallel block -/
inductive FieldFault (d : Decoders) (part : Part) (k v : Node) : Report → Prop
  | dir {r} : k.value = "dir".toList → DirFault part v r → FieldFault d part k v r
  | env {r} : k.value = "env".toList → TextsFault "env".toList v r → FieldFault d part k v r
  | flag {r} : k.value ∈ ["silent".toList, "output".toList, "confirm".toList] → BoolFault d v r → FieldFault d part k v r
  | platforms {r} : k.value = "platforms".toList → PlatformsFault d k.line part v r → FieldFault d part k v r
  | list : k.value ∈ ["options".toList, "defaults".toList] → d.strs v = none →
      FieldFault d part k v ⟨k.line, part, .invalid k.value (d.why .strings v)⟩
  | number : k.value ∈ ["min".toList, "max".toList] → d.int v = none →
      FieldFault d part k v ⟨k.line, part, .invalid k.value (d.why .int v)⟩

/-- the texts of a list -/
def texts (d : Decoders) (key : Str) (es : List (Node × Node)) : List Str := ((last key es).bind d.strs).getD []

/-- the types of prompts -/
def types : List Str := ["confirm".toList, "input".toList, "select".toList, "multiselect".toList, "password".toList, "number".toList]

/-- a prompt -/
inductive PromptProblem (d : Decoders) (es : List (Node × Node)) : PromptFault → Prop
  | name : ¬ VarName (text "prompt".toList es) → PromptProblem d es .badName
  | noType : text "type".toList es = [] → PromptProblem d es .noType
  | badType : text "type".toList es ≠ [] → text "type".toList es ∉ types → PromptProblem d es (.badType (text "type".toList es))
  | noMessage : text "message".toList es = [] → PromptProblem d es .noMessage
  | noOptions : text "type".toList es ∈ ["select".toList, "multiselect".toList] → texts d "options".toList es = [] →
      PromptProblem d es (.noOptions (text "type".toList es))
  | default : text "type".toList es = "select".toList → text "default".toList es ≠ [] → texts d "options".toList es ≠ [] →
      text "default".toList es ∉ texts d "options".toList es → PromptProblem d es (.notAnOption (text "default".toList es))
  | oneDefault {x} : text "type".toList es = "multiselect".toList → x ∈ texts d "defaults".toList es → texts d "options".toList es ≠ [] →
      x ∉ texts d "options".toList es → PromptProblem d es (.notAnOption x)
  | range {a b} : (last "min".toList es).bind d.int = some a → (last "max".toList es).bind d.int = some b → b < a → PromptProblem d es (.range a b)
  | pattern : text "validate".toList es ≠ [] → d.compiles (text "validate".toList es) = false →
      PromptProblem d es (.badPattern (d.complaint (text "validate".toList es)))
  | options : text "type".toList es ∈ types → text "type".toList es ∉ ["select".toList, "multiselect".toList] → texts d "options".toList es ≠ [] →
      PromptProblem d es .options
  | defaults : text "type".toList es ∈ types → text "type".toList es ≠ "multiselect".toList → texts d "defaults".toList es ≠ [] → PromptProblem d es .defaults
  | validate : text "type".toList es ∈ types → text "type".toList es ≠ "input".toList → text "validate".toList es ≠ [] → PromptProblem d es .validate
  | confirm : text "type".toList es ∈ types → text "type".toList es ≠ "password".toList → flag d "confirm".toList es ≠ none → PromptProblem d es .confirm
  | notANumber : text "type".toList es = "number".toList → text "default".toList es ≠ [] → atoi (text "default".toList es) = none →
      PromptProblem d es (.notANumber (text "default".toList es))

/-- an item that is not a parallel block. What belongs to one kind is looked at when every entry can be read. -/
inductive SimpleFault (d : Decoders) (part : Part) (line : Nat) (es : List (Node × Node)) : Report → Prop
  | field {e r} : e ∈ es → FieldFault d part e.1 e.2 r → SimpleFault d part line es r
  | many : 2 ≤ (kinds es).length → SimpleFault d part line es ⟨line, part, .tooMany⟩
  | none : kinds es = [] → SimpleFault d part line es ⟨line, part, .noKind⟩
  | level : (∀ e ∈ es, ∀ r, ¬ FieldFault d part e.1 e.2 r) → kinds es = ["log".toList] → text "level".toList es ≠ [] →
      text "level".toList es ∉ ["debug".toList, "info".toList, "warn".toList, "error".toList] →
      SimpleFault d part line es ⟨line, part, .badLevel (text "level".toList es)⟩
  | prompt {f} : (∀ e ∈ es, ∀ r, ¬ FieldFault d part e.1 e.2 r) → kinds es = ["prompt".toList] → PromptProblem d es f →
      SimpleFault d part line es ⟨line, part, .prompt (text "prompt".toList es) f⟩

/-- an entry of a parallel block -/
inductive BlockFieldFault (d : Decoders) (part : Part) (k v : Node) : Report → Prop
  | parallel : k.value = "parallel".toList → NotList v → BlockFieldFault d part k v ⟨v.line, part, .parallelNotSequence⟩
  | modeKind : k.value = "mode".toList → NotText v → BlockFieldFault d part k v ⟨v.line, part, .modeNotText⟩
  | mode : k.value = "mode".toList → ¬ NotText v → v.value ∉ ["interleaved".toList, "grouped".toList, "tabs".toList] →
      BlockFieldFault d part k v ⟨v.line, part, .badMode v.value⟩
  | limit : k.value = "limit".toList → d.int v = none → BlockFieldFault d part k v ⟨v.line, part, .invalid "limit".toList (d.why .int v)⟩
  | negative {i} : k.value = "limit".toList → d.int v = some i → i < 0 → BlockFieldFault d part k v ⟨v.line, part, .badLimit⟩
  | flag {r} : k.value ∈ ["color".toList, "silent".toList, "output".toList] → BoolFault d v r → BlockFieldFault d part k v r
  | platforms {r} : k.value = "platforms".toList → PlatformsFault d k.line part v r → BlockFieldFault d part k v r
  | unknown : k.value ∉ ["parallel".toList, "mode".toList, "limit".toList, "color".toList, "silent".toList, "output".toList,
        "platforms".toList, "when".toList] → BlockFieldFault d part k v ⟨k.line, part, .unknownKey k.value⟩

/-- an item without problems, not a parallel block -/
def FineSimple (d : Decoders) (n : Node) : Prop := ∃ l es, n = .map l es ∧ NoKey "parallel".toList es ∧ ∀ r, ¬ SimpleFault d .file l es r

/-- the entries of a parallel block can be read, and its list is `ns` -/
def Block (d : Decoders) (es : List (Node × Node)) (l : Nat) (ns : List Node) : Prop :=
  last "parallel".toList es = some (.seq l ns) ∧ ∀ e ∈ es, ∀ r, ¬ BlockFieldFault d .file e.1 e.2 r

/-- asks something -/
def Asks (n : Node) : Prop := ∃ l es, n = .map l es ∧ kinds es = ["prompt".toList]

/-- a parallel block without problems -/
def FineBlock (d : Decoders) (n : Node) : Prop :=
  ∃ l es l' ns, n = .map l es ∧ Block d es l' ns ∧ ns ≠ [] ∧ ∀ m ∈ ns, FineSimple d m ∧ ¬ Asks m

/-- an item without problems -/
def FineItem (d : Decoders) (n : Node) : Prop := FineSimple d n ∨ FineBlock d n

/-- the item with a number, in a list of items. The items of a parallel block are looked at when its other entries can be
read; whether they may be there, when each of them is fine. -/
inductive ItemFault (d : Decoders) (task : Str) : Nat → Node → Report → Prop
  | kind {index n} : NotMapping n → ItemFault d task index n ⟨n.line, .item task index, .itemNotMapping⟩
  | simple {index l es r} : NoKey "parallel".toList es → SimpleFault d (.item task index) l es r → ItemFault d task index (.map l es) r
  | entry {index l es e r} : ¬ NoKey "parallel".toList es → e ∈ es → BlockFieldFault d (.item task index) e.1 e.2 r →
      ItemFault d task index (.map l es) r
  | empty {index l es l'} : Block d es l' [] → ItemFault d task index (.map l es) ⟨l', .item task index, .parallelEmpty⟩
  | inner {index l es l' ns j n r} : Block d es l' ns → ns[j]? = some n → ItemFault d task j n r → ItemFault d task index (.map l es) r
  | asks {index l es l' ns n} : Block d es l' ns → (∀ m ∈ ns, FineItem d m) → n ∈ ns → FineSimple d n → Asks n →
      ItemFault d task index (.map l es) ⟨n.line, .item task index, .promptInParallel⟩
  | nested {index l es l' ns n} : Block d es l' ns → (∀ m ∈ ns, FineItem d m) → n ∈ ns → FineBlock d n →
      ItemFault d task index (.map l es) ⟨n.line, .item task index, .nestedParallel⟩

/-- an entry of a task -/
inductive TaskFieldFault (d : Decoders) (name : Str) (k v : Node) : Report → Prop
  | list : k.value ∈ ["aliases".toList, "deps".toList] → d.strs v = none →
      TaskFieldFault d name k v ⟨k.line, .task name, .invalid k.value (d.why .strings v)⟩
  | vars {r} : k.value ∈ ["vars".toList, "env".toList] → TextsFault k.value v r → TaskFieldFault d name k v r
  | flag {r} : k.value ∈ ["silent".toList, "output".toList] → BoolFault d v r → TaskFieldFault d name k v r
  | dir {r} : k.value = "dir".toList → DirFault (.task name) v r → TaskFieldFault d name k v r
  | run : k.value = "run".toList → NotList v → TaskFieldFault d name k v ⟨v.line, .task name, .notSequence⟩
  | item {l ns j n r} : k.value = "run".toList → v = .seq l ns → ns[j]? = some n → ItemFault d name j n r → TaskFieldFault d name k v r

/-- a task -/
inductive TaskFault (d : Decoders) (name : Str) (n : Node) : Report → Prop
  | kind : NotMapping n → TaskFault d name n ⟨n.line, .task name, .notMapping "task".toList⟩
  | entry {l es e r} : n = .map l es → e ∈ es → TaskFieldFault d name e.1 e.2 r → TaskFault d name n r

/-- an entry of a Babfile. Of the tasks with one name, only the first is looked at. -/
inductive FileFieldFault (d : Decoders) (k v : Node) : Report → Prop
  | vars {r} : k.value ∈ ["vars".toList, "env".toList] → TextsFault k.value v r → FileFieldFault d k v r
  | flag {r} : k.value ∈ ["silent".toList, "output".toList] → BoolFault d v r → FileFieldFault d k v r
  | dir {r} : k.value = "dir".toList → DirFault .file v r → FileFieldFault d k v r
  | mapping : k.value ∈ ["tasks".toList, "includes".toList] → NotMapping v → FileFieldFault d k v ⟨v.line, .file, .notMapping k.value⟩
  | task {l as e bs r} : k.value = "tasks".toList → v = .map l (as ++ e :: bs) → NoKey e.1.value as → TaskFault d e.1.value e.2 r → FileFieldFault d k v r
  | twice {l as a bs e cs} : k.value = "tasks".toList → v = .map l (as ++ a :: bs ++ e :: cs) → NoKey e.1.value as → a.1.value = e.1.value →
      FileFieldFault d k v ⟨e.1.line, .file, .duplicateTask e.1.value a.1.line⟩
  | inc {l es e} : k.value = "includes".toList → v = .map l es → e ∈ es → d.inc e.2 = none →
      FileFieldFault d k v ⟨e.1.line, .file, .badInclude e.1.value (d.why .inc e.2)⟩

/-- a document -/
inductive DocFault (d : Decoders) : Option Node → Report → Prop
  | none : DocFault d none ⟨0, .file, .noDocument⟩
  | kind {n} : NotMapping n → DocFault d (some n) ⟨n.line, .file, .notMapping "root".toList⟩
  | entry {l es e r} : e ∈ es → FileFieldFault d e.1 e.2 r → DocFault d (some (.map l es)) r

/-- a node of a tree -/
inductive Within : Node → Node → Prop
  | self {n} : Within n n
  | item {n l ns m} : m ∈ ns → Within n m → Within n (.seq l ns)
  | key {n l es e} : e ∈ es → Within n e.1 → Within n (.map l es)
  | value {n l es e} : e ∈ es → Within n e.2 → Within n (.map l es)

end Bab.Yaml.Spec
