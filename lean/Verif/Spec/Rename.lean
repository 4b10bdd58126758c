import Verif.Spec.Transparent
/-
C111: a Babfile in which tasks have got other names, and when two executions are the same except for these names.
-/

namespace Bab.Spec

/-- the task under its new name, with the new names in its dependencies and calls -/
def renameTask (g : Str → Str) (T : Task) : Task :=
  { T with name := g T.name, deps := T.deps.map g, run := renameItems g T.run }

/-- the tasks under their new names -/
def renameTasks (g : Str → Str) (t : TaskMap) : TaskMap := t.map fun q => (g q.1, renameTask g q.2)

/-- the Babfile with the new names -/
def renameFile (g : Str → Str) (b : Schema) : Schema := { b with tasks := renameTasks g b.tasks }

/-- the name `a` is replaced by `b`; so that nothing gets lost, `b` is replaced by `a` -/
def swapNames (a b x : Str) : Str := if x = a then b else if x = b then a else x

/-- an error that does not contain another one, with other names of tasks -/
def renLeaf (g : Str → Str) : Err → Err
  | .taskNotFound n => .taskNotFound (g n)
  | .circularDep chain => .circularDep (chain.map g)
  | .noItems n => .noItems (g n)
  | .emptyCmd n => .emptyCmd (g n)
  | .parallelUnknown n => .parallelUnknown (g n)
  | e => e

/-- the same error, apart from names of tasks -/
inductive ErrIs (g : Str → Str) : Err → Err → Prop
  | leaf (e) (h : ∀ w e', e ≠ .wrap w e') : ErrIs g e (renLeaf g e)
  | wrap (w) {e e'} (h : ErrIs g e e') : ErrIs g (.wrap w e) (.wrap (renWhere g w) e')
  /-- an item of a block that runs a task has the name of the task as its label, unless it is given another one -/
  | label (n) {e e'} (h : ErrIs g e e') : ErrIs g (.wrap (.item n) e) (.wrap (.item (g n)) e')

/-- both succeed, or both fail with the same error -/
inductive EndIs (g : Str → Str) : Option Err → Option Err → Prop
  | ok : EndIs g none none
  | fail {e e'} (h : ErrIs g e e') : EndIs g (some e) (some e')

/-- the event with other names of tasks -/
def renEv (g : Str → Str) : Ev → Ev
  | .claimed n => .claimed (g n)
  | .done n => .done (g n)
  | .taskEnd n r => .taskEnd (g n) r
  | .taskSkip n v => .taskSkip (g n) v
  | .taskRuns n v => .taskRuns (g n) v
  | .depOk n k => .depOk (g n) k
  | .depFail n k e => .depFail (g n) k e
  | .taskVars n v m c => .taskVars (g n) v m c
  | .itemSkip n i w => .itemSkip (g n) i w
  | .itemStart n i v => .itemStart (g n) i v
  | .itemEnd n i r => .itemEnd (g n) i r
  | .subStart n i j => .subStart (g n) i j
  | .subEnd n i j r => .subEnd (g n) i j r
  | .subAbort n i j => .subAbort (g n) i j
  | .parBegin n i v => .parBegin (g n) i v
  | .parEnd n i r => .parEnd (g n) i r
  | .sees l v => .sees (renLoc g l) v
  | .echoTask n b o => .echoTask (g n) b o
  | .echoCmd l t o => .echoCmd (renLoc g l) t o
  | .procStart l p => .procStart (renLoc g l) p
  | .procEnd l c => .procEnd (renLoc g l) c
  | .procFail l => .procFail (renLoc g l)
  | .answered l n r => .answered (renLoc g l) n r
  | .logged l t v o => .logged (renLoc g l) t v o
  | .wouldRun l t => .wouldRun (renLoc g l) t
  | .wouldTask l n => .wouldTask (renLoc g l) (g n)
  | .wouldLog l t v => .wouldLog (renLoc g l) t v
  | .wouldPrompt l n => .wouldPrompt (renLoc g l) n
  | .wouldParallel l => .wouldParallel (renLoc g l)
  | .tuiStart b => .tuiStart b
  | .cancel i => .cancel i

/-- the same event, apart from names of tasks -/
inductive EvIs (g : Str → Str) : Ev → Ev → Prop
  | taskEnd (n) {r r'} (h : EndIs g r r') : EvIs g (.taskEnd n r) (.taskEnd (g n) r')
  | depFail (n k) {e e'} (h : ErrIs g e e') : EvIs g (.depFail n k e) (.depFail (g n) k e')
  | itemEnd (n i) {r r'} (h : EndIs g r r') : EvIs g (.itemEnd n i r) (.itemEnd (g n) i r')
  | subEnd (n i j) {r r'} (h : EndIs g r r') : EvIs g (.subEnd n i j r) (.subEnd (g n) i j r')
  | parEnd (n i) {r r'} (h : EndIs g r r') : EvIs g (.parEnd n i r) (.parEnd (g n) i r')
  /-- events without an error of the runner -/
  | other (e) (h1 : ∀ n r, e ≠ .taskEnd n r) (h2 : ∀ n k x, e ≠ .depFail n k x) (h3 : ∀ n i r, e ≠ .itemEnd n i r)
      (h4 : ∀ n i j r, e ≠ .subEnd n i j r) (h5 : ∀ n i r, e ≠ .parEnd n i r) : EvIs g e (renEv g e)

/-- `s'` is where the one execution is when the other one is at `s`: the same has happened, apart from names of tasks,
the variables are the same, and when one of them is at its end then so is the other one, with the same result -/
structure Twin (g : Str → Str) (s s' : State) : Prop where
  trace : List.Forall₂ (EvIs g) s.sh.trace s'.sh.trace
  gvars : s.sh.gvars = s'.sh.gvars
  ends : ∀ r, s.prog = .ret r → ∃ r', s'.prog = .ret r' ∧ EndIs g r r'
  ends' : ∀ r', s'.prog = .ret r' → ∃ r, s.prog = .ret r ∧ EndIs g r r'

end Bab.Spec
