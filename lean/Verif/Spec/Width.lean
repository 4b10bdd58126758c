import Verif.Model.Prog
/-
How many commands may run at the same time, as far as the Babfile tells.
-/

namespace Bab.Spec.Width

def isStart : Ev → Bool
  | .procStart _ _ => true
  | _ => false

def isEnd : Ev → Bool
  | .procEnd _ _ => true
  | _ => false

/-- the number of processes that run after these events -/
def atOnce (tr : List Ev) : Nat := tr.countP isStart - tr.countP isEnd

/-- what an item needs, if the tasks need `w`: a command one process, a call what the called task needs -/
def need (w : Str → Nat) : RunItem → Nat
  | .command _ => 1
  | .task t => w t.task
  | _ => 0

/-- The number is enough for the item: for a parallel block, if it is enough for any of its items that the limit allows to run together. -/
def Enough (w : Str → Nat) (k : Nat) : RunItem → Prop
  | .parallel items _ _ limit _ _ _ _ _ _ =>
    ∀ together : List RunItem, together.Sublist items → (limit ≠ 0 → together.length ≤ limit) → (together.map (need w)).sum ≤ k
  | item => need w item ≤ k

/-- Numbers for the tasks that are enough for what each of them runs: its items one after the other, and its dependencies before. -/
structure Budget (tasks : TaskMap) (w : Str → Nat) : Prop where
  deps : ∀ n T, tasks.get? n = some T → ∀ d ∈ T.deps, w d ≤ w n
  run : ∀ n T, tasks.get? n = some T → ∀ i ∈ T.run, Enough w (w n) i

def isBlock : RunItem → Bool
  | .parallel .. => true
  | _ => false

/-- the tasks that have a parallel block -/
def withBlocks (tasks : TaskMap) : TaskMap := tasks.filter fun q => q.2.run.any isBlock

end Bab.Spec.Width
