import Verif.Model.Prog
/-
What begins and what ends it, for C84.
-/

namespace Bab.Spec

/-- The event is the beginning of something: a process, a task, an item of a task, a parallel block,
an item of a parallel block. -/
def begins : Ev → Bool
  | .procStart _ _ => true
  | .claimed _ => true
  | .itemStart _ _ _ => true
  | .parBegin _ _ _ => true
  | .subStart _ _ _ => true
  | _ => false

/-- the second event is the end of what the first began -/
def endsIt : Ev → Ev → Bool
  | .procStart loc _, .procEnd loc' _ => loc = loc'
  | .claimed n, .taskEnd n' _ => n = n'
  | .itemStart n i _, .itemEnd n' i' _ => n = n' ∧ i = i'
  | .parBegin n i _, .parEnd n' i' _ => n = n' ∧ i = i'
  | .subStart n i j, .subEnd n' i' j' _ => n = n' ∧ i = i' ∧ j = j'
  | _, _ => false

end Bab.Spec
