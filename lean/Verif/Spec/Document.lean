import Verif.Spec.Unmarshal
import Verif.Spec.Cli
/-
C80: where in the YAML documents something stands that an invocation does.
-/

namespace Bab.Spec
open Bab.Yaml Bab.Yaml.Spec

/-- `n` is what stands in `run` of the task with the entries `ts` at the index `i`, or at the index `sub` of the parallel block there -/
def EntryAt (ts : List (Node × Node)) (i : Nat) (sub : Option Nat) (n : Node) : Prop :=
  ∃ l ns, last "run".toList ts = some (.seq l ns) ∧
    match sub with
    | none => ns[i]? = some n
    | some j => ∃ l1 es l2 ns', ns[i]? = some (.map l1 es) ∧ last "parallel".toList es = some (.seq l2 ns') ∧ ns'[j]? = some n

/-- In the document of file `f` there is a task `n` with the entries `ts`, and at this place of its `run` stands a mapping with
the entries `es`. -/
def Stands (docs : GoMap (Option Node)) (f n : Str) (i : Nat) (sub : Option Nat) (ts es : List (Node × Node)) : Prop :=
  ∃ l root l1 l2, docs.get? f = some (some (.map l root)) ∧ last n (entriesOf "tasks".toList root) = some (.map l1 ts) ∧
    EntryAt ts i sub (.map l2 es)

/-- the files are what the documents describe -/
def ReadFrom (d : Decoders) (docs : GoMap (Option Node)) (files : Files) : Prop :=
  ∀ p bf, files.get? p = some (some bf) → ∃ doc, docs.get? p = some doc ∧ unmarshalDoc d doc = .ok bf

/-- the text of `dir` of the document of a file -/
def dirSetting (docs : GoMap (Option Node)) (f : Str) : Str :=
  match docs.get? f with
  | some (some (.map _ root)) => text "dir".toList root
  | _ => []

/-- the files that are passed when following the includes with these namespaces, without the first one -/
inductive Passes (files : Files) : Str → List Str → List Str → Prop
  | here (p) : Passes files p [] []
  | step {p ns q nss qs} (h : Includes files p ns q) (hr : Passes files q nss qs) : Passes files p (ns :: nss) (q :: qs)

end Bab.Spec
