import Verif.Spec.Work
import Verif.Spec.Cycle
/-
C115: the lists of dependencies may be written in other ways.
-/

namespace Bab.Spec

/-- The list brings about the run of `d`: it is in the list, or a task of the list, which is not skipped, brings it about. -/
inductive Brings (c : Cfg) (tasks : TaskMap) (g : GoMap Str) : List Str → Str → Prop
  | here {ds d} (h : d ∈ ds) : Brings c tasks g ds d
  | through {ds e V d} (he : e ∈ ds) (hV : tasks.get? e = some V) (hc : CondTrue c V.cond g) (h : Brings c tasks g V.deps d) : Brings c tasks g ds d

/-- the tasks are the same but for their dependencies, and those that are no longer in a list are brought about by it -/
def Covers (c : Cfg) (g : GoMap Str) (tasks tasks' : TaskMap) : Prop :=
  ∀ k U, tasks.get? k = some U → ∃ ds, tasks'.get? k = some { U with deps := ds } ∧ ∀ d ∈ U.deps, Brings c tasks' g ds d

/-- The lists of dependencies bring about the same: they are in another order, name a task repeatedly, or name, or do not name, what others
in the list depend on anyway. -/
def SameDeps (c : Cfg) (g : GoMap Str) (tasks tasks' : TaskMap) : Prop := Covers c g tasks tasks' ∧ Covers c g tasks' tasks

end Bab.Spec
