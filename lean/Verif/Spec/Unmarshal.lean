import Verif.Model.Unmarshal
import Mathlib.Data.List.Forall2
/-
What a run item, a task and a Babfile mean, stated on the YAML tree (C40 to C42): a key that is given twice counts
the last time, a key that is not given is empty.
-/

namespace Bab.Yaml.Spec
open Bab Bab.Yaml

/-- the value of the last entry with a key -/
def last (key : Str) (es : List (Node × Node)) : Option Node :=
  ((es.filter (fun e => e.1.value = key)).getLast?).map (·.2)

/-- the line of the last entry with a key -/
def keyLine (key : Str) (es : List (Node × Node)) : Nat :=
  (((es.filter (fun e => e.1.value = key)).getLast?).map (fun e => e.1.line)).getD 0

/-- the text of a key -/
def text (key : Str) (es : List (Node × Node)) : Str := ((last key es).map Node.value).getD []

/-- `m` holds the entries of a mapping of texts -/
def EnvIs (n : Option Node) (m : GoMap Str) : Prop :=
  match n with
  | none => m = []
  | some (.map _ kvs) => (∀ e ∈ kvs, ∃ l t v, e.2 = .scalar l t v) ∧ m.WF ∧ ∀ x, m.get? x = (last x kvs).map Node.value
  | some _ => False

/-- the platforms of an item -/
def PlatformsAre (d : Decoders) (es : List (Node × Node)) (ps : List Str) : Prop :=
  ps = ((last "platforms".toList es).bind d.strs).getD [] ∧ ∀ p ∈ ps, p ∈ ["linux".toList, "darwin".toList, "windows".toList]

/-- a yes or no -/
def flag (d : Decoders) (key : Str) (es : List (Node × Node)) : Option Bool := (last key es).bind d.bool

/-- which of the keys cmd, task, log and prompt have a text -/
def kinds (es : List (Node × Node)) : List Str :=
  ["cmd".toList, "task".toList, "log".toList, "prompt".toList].filter (fun k => text k es ≠ [])

/-- an entry of `run` that is not a parallel block, and the item it means; `line` is where the entry begins -/
def Simple (d : Decoders) (line : Nat) (es : List (Node × Node)) : RunItem → Prop
  | .command c =>
    kinds es = ["cmd".toList] ∧ c.cmd = text "cmd".toList es ∧ c.dir = text "dir".toList es ∧ EnvIs (last "env".toList es) c.env ∧
    c.silent = flag d "silent".toList es ∧ c.output = flag d "output".toList es ∧ PlatformsAre d es c.platforms ∧ c.cond = text "when".toList es ∧ c.line = line
  | .task t =>
    kinds es = ["task".toList] ∧ t.task = text "task".toList es ∧
    t.silent = flag d "silent".toList es ∧ t.output = flag d "output".toList es ∧ PlatformsAre d es t.platforms ∧ t.cond = text "when".toList es ∧ t.line = line
  | .log l =>
    kinds es = ["log".toList] ∧ l.log = text "log".toList es ∧
    l.level = (if text "level".toList es = [] then "info".toList else text "level".toList es) ∧
    l.level ∈ ["debug".toList, "info".toList, "warn".toList, "error".toList] ∧
    PlatformsAre d es l.platforms ∧ l.cond = text "when".toList es ∧ l.line = line
  | .prompt p =>
    kinds es = ["prompt".toList] ∧ p.prompt = text "prompt".toList es ∧ p.message = text "message".toList es ∧
    p.default = text "default".toList es ∧ p.placeholder = text "placeholder".toList es ∧ p.validate = text "validate".toList es ∧
    p.options = ((last "options".toList es).bind d.strs).getD [] ∧ p.defaults = ((last "defaults".toList es).bind d.strs).getD [] ∧
    p.min = (last "min".toList es).bind d.int ∧ p.max = (last "max".toList es).bind d.int ∧ p.confirm = flag d "confirm".toList es ∧
    (text "type".toList es, p.type) ∈ [("confirm".toList, PromptType.confirm), ("input".toList, .input), ("select".toList, .select),
      ("multiselect".toList, .multiselect), ("password".toList, .password), ("number".toList, .number)] ∧
    PlatformsAre d es p.platforms ∧ p.cond = text "when".toList es ∧ p.line = line
  | .parallel .. => False

/-- no entry has this key -/
def NoKey (key : Str) (es : List (Node × Node)) : Prop := ∀ e ∈ es, e.1.value ≠ key

/-- the label of an item of a parallel block: the first one given -/
def labelOf : Node → Str
  | .map _ es => (((es.filter (fun e => e.1.value = "label".toList)).head?).map (fun e => e.2.value)).getD []
  | _ => []

/-- an entry of `run` and the item it means -/
def Describes (d : Decoders) (n : Node) : RunItem → Prop
  | .parallel items labels mode limit color silent output platforms cond line =>
    ∃ es l ns, n = .map line es ∧ last "parallel".toList es = some (.seq l ns) ∧ ns ≠ [] ∧
      (∀ e ∈ es, e.1.value ∈ ["parallel".toList, "mode".toList, "limit".toList, "color".toList, "silent".toList, "output".toList,
        "platforms".toList, "when".toList]) ∧
      List.Forall₂ (fun n i => ∃ l' es', n = .map l' es' ∧ NoKey "parallel".toList es' ∧ Simple d l' es' i ∧ ∀ p, i ≠ .prompt p) ns items ∧
      labels = ns.map labelOf ∧
      (match last "mode".toList es with
       | none => mode = .interleaved
       | some m => ∃ l t v, m = .scalar l t v ∧ (v, mode) ∈ [("interleaved".toList, ParallelMode.interleaved), ("grouped".toList, .grouped), ("tabs".toList, .tabs)]) ∧
      (match last "limit".toList es with
       | none => limit = 0
       | some l => d.int l = some (limit : Int)) ∧
      color = flag d "color".toList es ∧ silent = flag d "silent".toList es ∧ output = flag d "output".toList es ∧
      PlatformsAre d es platforms ∧ cond = text "when".toList es
  | i => ∃ line es, n = .map line es ∧ NoKey "parallel".toList es ∧ Simple d line es i

/-- the items of a task -/
def RunIs (d : Decoders) (n : Option Node) (run : List RunItem) : Prop :=
  match n with
  | none => run = []
  | some (.seq _ ns) => List.Forall₂ (Describes d) ns run
  | some _ => False

/-- an entry of `tasks` and the task it means -/
def TaskIs (d : Decoders) (n : Node) (t : Task) : Prop :=
  ∃ l es, n = .map l es ∧ t.desc = text "desc".toList es ∧ t.alias = text "alias".toList es ∧
    t.aliases = ((last "aliases".toList es).bind d.strs).getD [] ∧
    (match last "vars".toList es with | none => t.vars = none | some v => ∃ m, t.vars = some m ∧ EnvIs (some v) m) ∧
    EnvIs (last "env".toList es) t.env ∧ t.silent = flag d "silent".toList es ∧ t.output = flag d "output".toList es ∧
    t.dir = text "dir".toList es ∧ t.cond = text "when".toList es ∧ t.deps = ((last "deps".toList es).bind d.strs).getD [] ∧
    t.depsLine = keyLine "deps".toList es ∧
    RunIs d (last "run".toList es) t.run

/-- the entries of a mapping -/
def pairs : Node → List (Node × Node)
  | .map _ kvs => kvs
  | _ => []

/-- all entries under a key, one mapping after the other if the key is given twice -/
def entriesOf (key : Str) (es : List (Node × Node)) : List (Node × Node) :=
  es.flatMap (fun e => if e.1.value = key then pairs e.2 else [])

/-- a document and the Babfile it means -/
structure FileIs (d : Decoders) (es : List (Node × Node)) (s : Schema) : Prop where
  vars : match last "vars".toList es with | none => s.vars = some [] | some v => ∃ m, s.vars = some m ∧ EnvIs (some v) m
  env : EnvIs (last "env".toList es) s.env
  silent : s.silent = flag d "silent".toList es
  output : s.output = flag d "output".toList es
  dir : s.dir = text "dir".toList es
  /-- tasks are given in a mapping without duplicates -/
  distinct : ∀ e ∈ es, e.1.value = "tasks".toList → ∃ l kvs, e.2 = .map l kvs ∧ (kvs.map (fun e => e.1.value)).Nodup
  /-- there are no other tasks -/
  others : ∀ x, last x (entriesOf "tasks".toList es) = none → s.tasks.get? x = none
  /-- every task of the document is there -/
  tasks : ∀ x n, last x (entriesOf "tasks".toList es) = some n → ∃ t, s.tasks.get? x = some t ∧ TaskIs d n t ∧ t.name = x ∧
    t.line = keyLine x (entriesOf "tasks".toList es)
  includes : ∀ x, s.includes.get? x = (last x (entriesOf "includes".toList es)).bind d.inc
  readable : ∀ e ∈ entriesOf "includes".toList es, d.inc e.2 ≠ none
  wfTasks : s.tasks.WF
  wfIncludes : s.includes.WF

/-- a prompt that can be asked (C42) -/
structure Askable (compiles : Str → Bool) (p : PromptRun) : Prop where
  /-- a letter or underscore, then letters, digits and underscores -/
  name : ∃ c r, p.prompt = c :: r ∧ (c.isAlpha = true ∨ c = '_') ∧ ∀ x ∈ r, x.isAlphanum = true ∨ x = '_'
  message : p.message ≠ []
  type : p.type ≠ .other
  options : p.options ≠ [] ↔ p.type = .select ∨ p.type = .multiselect
  default : p.type = .select → p.default ≠ [] → p.default ∈ p.options
  defaults : p.defaults ≠ [] → p.type = .multiselect ∧ ∀ x ∈ p.defaults, x ∈ p.options
  range : ∀ a b, p.min = some a → p.max = some b → a ≤ b
  pattern : p.validate ≠ [] → p.type = .input ∧ compiles p.validate = true
  confirm : p.confirm ≠ none → p.type = .password

/-- the default of a number prompt is a number in its range -/
def DefaultFits (number : Str → Option Int) (p : PromptRun) : Prop :=
  p.type = .number → p.default ≠ [] → ∃ v, number p.default = some v ∧ (∀ a, p.min = some a → a ≤ v) ∧ ∀ b, p.max = some b → v ≤ b

end Bab.Yaml.Spec
