import Verif.Spec.Parser
import Verif.Spec.ResolveVars
import Verif.Model.Runner
import Mathlib.Data.List.Forall2
/-
C67: when two executions are the same except that tasks have other names.
-/

namespace Bab.Spec

/-- maps with the same entries -/
def MapEq (m m' : GoMap Str) : Prop := ∀ k, m.get? k = m'.get? k

/-- an error about the definitions of variables: a circle, or a name without a value -/
def VarErr (e : Err) : Prop := (∃ n c, e = .varCycle n c) ∨ ∃ n, e = .varNotFound n

/-- what is put in front of an error, with other names of tasks -/
def renWhere (g : Str → Str) : Where → Where
  | .taskCond t => .taskCond (g t)
  | .dep d => .dep (g d)
  | .prompt t p => .prompt (g t) p
  | .dirOf t x => .dirOf (g t) x
  | .command t x => .command (g t) x
  | .itemCond t i => .itemCond (g t) i
  | .preDep d => .preDep (g d)
  | w => w

/-- an error that names no task -/
def Nameless : Err → Prop
  | .taskNotFound _ => False
  | .parallelUnknown _ => False
  | .noItems _ => False
  | .emptyCmd _ => False
  | .circularDep _ => False
  | .wrap .condition e => Nameless e
  | .wrap .cancelled e => Nameless e
  | .wrap .dirText e => Nameless e
  | .wrap .view e => Nameless e
  | .wrap (.place _) e => Nameless e
  | .wrap _ _ => False
  | _ => True

/-- the same error with the same texts around it, apart from names of tasks; for a circular dependency the chain that is
shown is not compared, and if something is wrong with the definitions of variables, not which one is reported -/
inductive ErrRel (g : Str → Str) : Err → Err → Prop
  | same (e) (h : Nameless e) : ErrRel g e e
  | notFound (n) : ErrRel g (.taskNotFound n) (.taskNotFound (g n))
  | unknown (n) : ErrRel g (.parallelUnknown n) (.parallelUnknown (g n))
  | noItems (n) : ErrRel g (.noItems n) (.noItems (g n))
  | emptyCmd (n) : ErrRel g (.emptyCmd n) (.emptyCmd (g n))
  | defs {e e'} (h : VarErr e) (h' : VarErr e') : ErrRel g e e'
  | circular (c c') : ErrRel g (.circularDep c) (.circularDep c')
  | wrap (w) {e e'} (h : ErrRel g e e') : ErrRel g (.wrap w e) (.wrap (renWhere g w) e')
  /-- an item of a block that runs a task has the name of the task as its label, unless it is given another one -/
  | label (l) {e e'} (h : ErrRel g e e') : ErrRel g (.wrap (.item l) e) (.wrap (.item (g l)) e')
  /-- the error of a prompt comes from outside -/
  | asked (t p e) : ErrRel g (.wrap (.prompt t p) e) (.wrap (.prompt (g t) p) e)

/-- both succeed, or both fail with the same error -/
inductive EndRel (g : Str → Str) : Option Err → Option Err → Prop
  | ok : EndRel g none none
  | fail {e e'} (h : ErrRel g e e') : EndRel g (some e) (some e')

/-- the place with another name of the task -/
def renLoc (g : Str → Str) (l : Loc) : Loc := { l with task := g l.task }

/-- the same event, apart from names of tasks -/
inductive EvRel (g : Str → Str) : Ev → Ev → Prop
  | claimed (n) : EvRel g (.claimed n) (.claimed (g n))
  | done (n) : EvRel g (.done n) (.done (g n))
  | taskEnd (n) {r r'} (h : EndRel g r r') : EvRel g (.taskEnd n r) (.taskEnd (g n) r')
  | taskSkip (n v v') : EvRel g (.taskSkip n v) (.taskSkip (g n) v')
  | taskRuns (n v v') : EvRel g (.taskRuns n v) (.taskRuns (g n) v')
  | depOk (n k) : EvRel g (.depOk n k) (.depOk (g n) k)
  | depFail (n k) {e e'} (h : ErrRel g e e') : EvRel g (.depFail n k e) (.depFail (g n) k e')
  | taskVars (n v v') {m m'} (h : MapEq m m') (c) : EvRel g (.taskVars n v m c) (.taskVars (g n) v' m' c)
  | platform (n i) : EvRel g (.itemSkip n i .platform) (.itemSkip (g n) i .platform)
  | cond (n i) {m m'} (h : MapEq m m') : EvRel g (.itemSkip n i (.cond m)) (.itemSkip (g n) i (.cond m'))
  | item (n i) : EvRel g (.itemStart n i none) (.itemStart (g n) i none)
  | itemIf (n i) {m m'} (h : MapEq m m') : EvRel g (.itemStart n i (some m)) (.itemStart (g n) i (some m'))
  | itemEnd (n i) {r r'} (h : EndRel g r r') : EvRel g (.itemEnd n i r) (.itemEnd (g n) i r')
  | subStart (n i j) : EvRel g (.subStart n i j) (.subStart (g n) i j)
  | subEnd (n i j) {r r'} (h : EndRel g r r') : EvRel g (.subEnd n i j r) (.subEnd (g n) i j r')
  | subAbort (n i j) : EvRel g (.subAbort n i j) (.subAbort (g n) i j)
  | parBegin (n i) {m m'} (h : MapEq m m') : EvRel g (.parBegin n i m) (.parBegin (g n) i m')
  | parEnd (n i) {r r'} (h : EndRel g r r') : EvRel g (.parEnd n i r) (.parEnd (g n) i r')
  | sees (l) {m m'} (h : MapEq m m') : EvRel g (.sees l m) (.sees (renLoc g l) m')
  | echoTask (n b o) : EvRel g (.echoTask n b o) (.echoTask (g n) b o)
  | echoCmd (l t o) : EvRel g (.echoCmd l t o) (.echoCmd (renLoc g l) t o)
  | procStart (l p) : EvRel g (.procStart l p) (.procStart (renLoc g l) p)
  | procEnd (l c) : EvRel g (.procEnd l c) (.procEnd (renLoc g l) c)
  | procFail (l) : EvRel g (.procFail l) (.procFail (renLoc g l))
  | answered (l n r) : EvRel g (.answered l n r) (.answered (renLoc g l) n r)
  | logged (l t v o) : EvRel g (.logged l t v o) (.logged (renLoc g l) t v o)
  | wouldRun (l t) : EvRel g (.wouldRun l t) (.wouldRun (renLoc g l) t)
  | wouldTask (l n) : EvRel g (.wouldTask l n) (.wouldTask (renLoc g l) (g n))
  | wouldLog (l t v) : EvRel g (.wouldLog l t v) (.wouldLog (renLoc g l) t v)
  | wouldPrompt (l n) : EvRel g (.wouldPrompt l n) (.wouldPrompt (renLoc g l) n)
  | wouldParallel (l) : EvRel g (.wouldParallel l) (.wouldParallel (renLoc g l))
  | tuiStart (b) : EvRel g (.tuiStart b) (.tuiStart b)
  | cancel (i) : EvRel g (.cancel i) (.cancel i)

/-- something the outside world notices, without names of tasks -/
inductive Effect
  | start (spec : ProcSpec)
  | notStarted
  | ended (code : Option Nat)
  | echo (text : Str) (out : Option Sink)
  | log (text level : Str) (out : Option Sink)
  | asked (name : Str) (r : Except Err Str)
  | view (ok : Bool)

/-- what the outside world notices of an event -/
def effect : Ev → Option Effect
  | .procStart _ p => some (.start p)
  | .procFail _ => some .notStarted
  | .procEnd _ c => some (.ended c)
  | .echoCmd _ t o => some (.echo t o)
  | .logged _ t v o => some (.log t v o)
  | .answered _ n r => some (.asked n r)
  | .tuiStart b => some (.view b)
  | _ => none

/-- `s'` is where the one execution is when the other one is at `s`: the same has happened, apart from names of tasks,
and when `s` is the end then so is `s'`, with the same result -/
def Mirrors (g : Str → Str) (s s' : State) : Prop :=
  List.Forall₂ (EvRel g) s.sh.trace s'.sh.trace ∧ ∀ r, s.prog = .ret r → ∃ r', s'.prog = .ret r' ∧ EndRel g r r'

/-- Conditions under which a task does not notice that its file, with contents `b`, is included: its blocks make no
settings for output; its condition uses no variable of the file; if it has no variables of its own it asks no questions;
and no variable of the file is defined by means of a variable of the task. -/
structure Portable (b : Schema) (T : Task) : Prop where
  blocks : bareItems T.run = T.run
  cond : ∀ x, Mentions T.cond x → ¬ IsEnv x → (b.vars.getD []).get? x = none
  asks : T.vars = none → ∀ p, .prompt p ∉ T.run
  free : ∀ k raw x, (b.vars.getD []).get? k = some raw → (T.vars.getD []).get? k = none → Mentions raw x → ¬ IsEnv x →
    (T.vars.getD []).get? x = none

/-- a Babfile that makes no settings -/
structure NoSettings (b : Schema) : Prop where
  vars : b.vars.getD [] = []
  env : b.env = []
  silent : b.silent = none
  output : b.output = none
  dir : b.dir = []

end Bab.Spec
