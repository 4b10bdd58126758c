import Verif.Model.Parser
/-
What including files should do: which tasks a Babfile provides, under which names and with which settings,
and which sets of files can be loaded. Independent of the order and the way in which files are loaded.
-/

namespace Bab.Spec

/-- file `p` includes file `q` under the namespace `ns` -/
def Includes (files : Files) (p ns q : Str) : Prop :=
  ∃ bf inc, files.get? p = some (some bf) ∧ bf.includes.get? ns = some inc ∧ q = includePath (dirPath p) inc

/-- `q` is reached from `p` by the includes with these namespaces -/
inductive IncPath (files : Files) : Str → List Str → Str → Prop
  | refl (p) : IncPath files p [] p
  | step {p ns q nss r} (h : Includes files p ns q) (hr : IncPath files q nss r) : IncPath files p (ns :: nss) r

/-- the name seen from outside of a task found under namespaces -/
def fullName : List Str → Str → Str
  | [], n => n
  | ns :: nss, n => ns ++ ':' :: fullName nss n

/-- Following the includes with the namespaces `nss` from file `p` gives the files with contents `bs` and finally,
in file `f`, the task `T` named `n`. -/
inductive Provides (files : Files) : Str → List Str → List Schema → Str → Str → Task → Prop
  | own {p bf n T} (hf : files.get? p = some (some bf)) (ht : bf.tasks.get? n = some T) : Provides files p [] [] n p T
  | inc {p ns q b nss bs n f T} (hi : Includes files p ns q) (hf : files.get? q = some (some b))
      (hp : Provides files q nss bs n f T) : Provides files p (ns :: nss) (b :: bs) n f T

/-- A file can be loaded: it is a Babfile, so are, without going round in circles, all files it includes, and no
name belongs to two tasks. -/
inductive Loads (files : Files) : Str → Prop
  | mk {p bf} (hf : files.get? p = some (some bf)) (hi : ∀ ns q, Includes files p ns q → Loads files q)
      (hd : ∀ nss bs n f T nss' bs' n' f' T', Provides files p nss bs n f T → Provides files p nss' bs' n' f' T' →
        fullName nss n = fullName nss' n' → nss = nss' ∧ n = n') : Loads files p

mutual
/-- an item with the names of called tasks changed -/
def renameItem (g : Str → Str) : RunItem → RunItem
  | .command v => .command v
  | .task v => .task { v with task := g v.task }
  | .log v => .log v
  | .prompt v => .prompt v
  | .parallel items labels mode limit color silent output platforms cond ln =>
    .parallel (renameItems g items) labels mode limit color silent output platforms cond ln
/-- items with the names of called tasks changed -/
def renameItems (g : Str → Str) : List RunItem → List RunItem
  | [] => []
  | item :: items => renameItem g item :: renameItems g items
end

mutual
/-- an item whose parallel blocks have lost `silent` and `output` -/
def bareItem : RunItem → RunItem
  | .command v => .command v
  | .task v => .task v
  | .log v => .log v
  | .prompt v => .prompt v
  | .parallel items labels mode limit color _ _ platforms cond ln =>
    .parallel (bareItems items) labels mode limit color none none platforms cond ln
/-- items whose parallel blocks have lost `silent` and `output` -/
def bareItems : List RunItem → List RunItem
  | [] => []
  | item :: items => bareItem item :: bareItems items
end

/-- the first of several optional settings -/
def firstOf {α : Type} : List (Option α) → Option α
  | [] => none
  | none :: r => firstOf r
  | some a :: _ => some a

/-- a text, if it is not empty -/
def nonEmpty (t : Str) : Option Str := if t = [] then none else some t

/-- `T'` is the task `T`, named `n` in file `f`, as seen from outside through the namespaces `nss`, the included
files having contents `bs`. Settings that the task does not make come from the included files, the nearest to the
task first. -/
structure AsIncluded (nss : List Str) (bs : List Schema) (n f : Str) (T T' : Task) : Prop where
  name : T'.name = fullName nss n
  source : T'.sourcePath = f
  desc : T'.desc = T.desc
  alias_ : T'.alias = if T.alias = [] then [] else fullName nss T.alias
  aliases : T'.aliases = T.aliases.map (fullName nss)
  vars : ∀ k, (T'.vars.getD []).get? k =
    firstOf ((T.vars.getD []).get? k :: bs.reverse.map fun b => (b.vars.getD []).get? k)
  noVars : T'.vars = none ↔ nss = [] ∧ T.vars = none
  env : ∀ k, T'.env.get? k = firstOf (T.env.get? k :: bs.reverse.map fun b => b.env.get? k)
  silent : T'.silent = firstOf (T.silent :: bs.reverse.map (·.silent))
  output : T'.output = firstOf (T.output :: bs.reverse.map (·.output))
  dir : T'.dir = (firstOf (nonEmpty T.dir :: bs.reverse.map fun b => nonEmpty b.dir)).getD []
  cond : T'.cond = T.cond
  deps : T'.deps = T.deps.map (fullName nss)
  run : T'.run = renameItems (fullName nss) (if nss = [] then T.run else bareItems T.run)
  line : T'.line = T.line
  depsLine : T'.depsLine = T.depsLine

/-- the same task, whatever the order of its maps -/
structure SameTask (T U : Task) : Prop where
  name : T.name = U.name
  source : T.sourcePath = U.sourcePath
  desc : T.desc = U.desc
  alias_ : T.alias = U.alias
  aliases : T.aliases = U.aliases
  vars : ∀ k, (T.vars.getD []).get? k = (U.vars.getD []).get? k
  noVars : T.vars = none ↔ U.vars = none
  env : ∀ k, T.env.get? k = U.env.get? k
  silent : T.silent = U.silent
  output : T.output = U.output
  dir : T.dir = U.dir
  cond : T.cond = U.cond
  deps : T.deps = U.deps
  run : T.run = U.run
  line : T.line = U.line
  depsLine : T.depsLine = U.depsLine

/-- the Go maps in the files hold no key twice -/
def FilesWF (files : Files) : Prop :=
  ∀ p bf, files.get? p = some (some bf) → bf.tasks.WF ∧ bf.includes.WF ∧ GoMap.WF (bf.vars.getD []) ∧ bf.env.WF ∧
    ∀ n T, bf.tasks.get? n = some T → GoMap.WF (T.vars.getD []) ∧ T.env.WF

/-- the orders are orders of the maps -/
def OrdersOK (o : Orders) : Prop :=
  ∀ loc, (∀ m, (o.incs loc m).Perm m) ∧ (∀ m, (o.tasks loc m).Perm m) ∧ ∀ m, (o.aliases loc m).Perm m

/-- where an error arose, without the includes around it -/
def rootCause : PErr → PErr
  | .inInclude _ _ e => rootCause e
  | e => e

end Bab.Spec
