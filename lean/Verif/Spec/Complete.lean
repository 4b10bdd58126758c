import Verif.Spec.Document
import Verif.Spec.Runner
/-
C82: what it means that everything that stands in a task of a YAML document has been done.
-/

namespace Bab.Spec
open Bab.Yaml Bab.Yaml.Spec

/-- the entry is for other platforms -/
def Elsewhere (d : Decoders) (platform : Str) (es : List (Node × Node)) : Prop :=
  ((last "platforms".toList es).bind d.strs).getD [] ≠ [] ∧ platform ∉ ((last "platforms".toList es).bind d.strs).getD []

/-- What stands in an entry that is no parallel block has been done: the command was run with the text of the entry, expanded with the
variables the item sees, and ended well; the task it names, seen from its file, is done; the message was logged; the question answered. -/
def EntryDone (H : Ev → Prop) (c : Cfg) (nss : List Str) (loc : Loc) (es : List (Node × Node)) : Prop :=
  (kinds es = ["cmd".toList] ∧ H (.procEnd loc none) ∧ ∃ spec m, H (.procStart loc spec) ∧ H (.sees loc m) ∧
    interpolate (text "cmd".toList es) ⟨m, c.env⟩ = .ok spec.cmd) ∨
  (kinds es = ["task".toList] ∧ H (.done (fullName nss (text "task".toList es)))) ∨
  (kinds es = ["log".toList] ∧ ∃ msg o m, H (.logged loc msg (if text "level".toList es = [] then "info".toList else text "level".toList es) o) ∧
    H (.sees loc m) ∧ interpolate (text "log".toList es) ⟨m, c.env⟩ = .ok msg) ∨
  (kinds es = ["prompt".toList] ∧ ∃ a, H (.answered loc (text "prompt".toList es) (.ok a)))

/-- the entry was passed over for a reason it gives itself: it is for other platforms, or its condition is false -/
def EntrySkipped (H : Ev → Prop) (d : Decoders) (c : Cfg) (a : Str) (i : Nat) (es : List (Node × Node)) : Prop :=
  Elsewhere d c.platform es ∨
  (text "when".toList es ≠ [] ∧ ∃ m, H (.itemSkip a i (.cond m)) ∧ evaluate (text "when".toList es) ⟨m, c.env⟩ = .ok false)

/-- The task with these entries, seen from the main file through these namespaces, has been done: its condition was false; or the
tasks it depends on are done, and each of its entries was passed over for a reason it gives, or has been done; of a parallel block,
each of its entries. -/
def AllDone (H : Ev → Prop) (d : Decoders) (c : Cfg) (tasks : TaskMap) (gvars : GoMap Str) (nss : List Str) (a : Str)
    (ts : List (Node × Node)) : Prop :=
  (text "when".toList ts ≠ [] ∧ ∃ g, GlobalsOk tasks gvars g ∧ evaluate (text "when".toList ts) ⟨g, c.env⟩ = .ok false) ∨
  ((∀ y ∈ ((last "deps".toList ts).bind d.strs).getD [], H (.done (fullName nss y))) ∧
    ∀ i node, EntryAt ts i none node → ∃ l es, node = .map l es ∧
      (EntrySkipped H d c a i es ∨
        (NoKey "parallel".toList es ∧ EntryDone H c nss ⟨a, i, none⟩ es) ∨
        (¬ NoKey "parallel".toList es ∧ (∃ node', EntryAt ts i (some 0) node') ∧
          ∀ j node', EntryAt ts i (some j) node' → ∃ l' es', node' = .map l' es' ∧ EntryDone H c nss ⟨a, i, some j⟩ es')))

end Bab.Spec
