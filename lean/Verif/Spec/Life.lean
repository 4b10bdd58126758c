import Verif.Model.Runner
/-
The life cycle of a task and of an item of a parallel block: which of its events may follow which.
This is the specification used for the properties of the runner; it does not mention programs,
goroutines or the claim table.
-/

namespace Bab.Spec

/-- the task an event belongs to, and the position inside a parallel block if it is inside one.
Claims, cancellations and the start of the parallel view belong to no task. -/
def key : Ev → Option (Str × Option (Nat × Nat))
  | .claimed _ => none
  | .done n => some (n, none)
  | .taskEnd n _ => some (n, none)
  | .taskSkip n _ => some (n, none)
  | .taskRuns n _ => some (n, none)
  | .depOk n _ => some (n, none)
  | .depFail n _ _ => some (n, none)
  | .taskVars n _ _ _ => some (n, none)
  | .itemSkip n _ _ => some (n, none)
  | .itemStart n _ _ => some (n, none)
  | .itemEnd n _ _ => some (n, none)
  | .subStart n i j => some (n, some (i, j))
  | .subEnd n i j _ => some (n, some (i, j))
  | .subAbort n i j => some (n, some (i, j))
  | .parBegin n _ _ => some (n, none)
  | .parEnd n _ _ => some (n, none)
  | .sees loc _ => some (loc.task, loc.sub.map (loc.item, ·))
  | .echoTask n _ _ => some (n, none)
  | .echoCmd loc _ _ => some (loc.task, loc.sub.map (loc.item, ·))
  | .procStart loc _ => some (loc.task, loc.sub.map (loc.item, ·))
  | .procEnd loc _ => some (loc.task, loc.sub.map (loc.item, ·))
  | .procFail loc => some (loc.task, loc.sub.map (loc.item, ·))
  | .answered loc _ _ => some (loc.task, loc.sub.map (loc.item, ·))
  | .logged loc _ _ _ => some (loc.task, loc.sub.map (loc.item, ·))
  | .wouldRun loc _ => some (loc.task, loc.sub.map (loc.item, ·))
  | .wouldTask loc _ => some (loc.task, loc.sub.map (loc.item, ·))
  | .wouldLog loc _ _ => some (loc.task, loc.sub.map (loc.item, ·))
  | .wouldPrompt loc _ => some (loc.task, loc.sub.map (loc.item, ·))
  | .wouldParallel loc => some (loc.task, loc.sub.map (loc.item, ·))
  | .tuiStart _ => none
  | .cancel _ => none

/-- how far an item has got: nothing yet; its texts are being expanded; its process runs; it has
succeeded; it has failed; its parallel block runs; its parallel block has failed -/
inductive Phase
  | before | saw | running | ok | bad | inPar | parBad (e : Err)
  deriving DecidableEq

/-- the steps inside one item; `own` are the variables of the task if it has its own -/
inductive PhaseStep (loc : Loc) : Phase → Option (GoMap Str) → Ev → Phase → Option (GoMap Str) → Prop
  | sees {own} (m) (h : ∀ o, own = some o → m = o) : PhaseStep loc .before own (.sees loc m) .saw own
  | echo {own} (t o) : PhaseStep loc .saw own (.echoCmd loc t o) .saw own
  | start {own} (s) : PhaseStep loc .saw own (.procStart loc s) .running own
  | startFail {own} : PhaseStep loc .saw own (.procFail loc) .bad own
  | exit0 {own} : PhaseStep loc .running own (.procEnd loc none) .ok own
  | exit {own} (c) : PhaseStep loc .running own (.procEnd loc (some c)) .bad own
  | answer {own} (x a) : PhaseStep loc .saw own (.answered loc x (.ok a)) .ok (own.map (fun m => m.set x a))
  | noAnswer {own} (x e) : PhaseStep loc .saw own (.answered loc x (.error e)) .bad own
  | log {own} (t l o) : PhaseStep loc .saw own (.logged loc t l o) .ok own
  | wouldRun {own} (t) : PhaseStep loc .saw own (.wouldRun loc t) .ok own
  | wouldLog {own} (t l) : PhaseStep loc .saw own (.wouldLog loc t l) .ok own
  | wouldPrompt {own} (x) : PhaseStep loc .saw own (.wouldPrompt loc x) .ok own
  | wouldTask {own} (t) : PhaseStep loc .before own (.wouldTask loc t) .ok own
  | wouldParallel {own} : PhaseStep loc .before own (.wouldParallel loc) .ok own
  | parBegin {own} (m) (h : ∀ o, own = some o → m = o) :
      PhaseStep loc .before own (.parBegin loc.task loc.item m) .inPar own
  | parOk {own} : PhaseStep loc .inPar own (.parEnd loc.task loc.item none) .ok own
  | parBad {own} (e) : PhaseStep loc .inPar own (.parEnd loc.task loc.item (some e)) (.parBad e) own

/-- an item in this phase may end successfully -/
def MayEndOk (c : Cfg) (item : RunItem) (ph : Phase) : Prop :=
  ph = .ok ∨ (ph = .before ∧ c.dry = false ∧ ∃ t, item = .task t)

/-- the error does not say that there is nothing to do on this platform -/
def Other (e : Err) : Prop := ∀ t, e ≠ .noItems t

/-- an item in this phase may end with this error; only an inline task can end with an error about
platforms -/
def MayEndBad (item : RunItem) (ph : Phase) (e : Err) : Prop :=
  ((ph = .before ∨ ph = .saw ∨ ph = .bad) ∧ (Other e ∨ ∃ t, item = .task t)) ∨ ph = .parBad e

/-- the variables a condition is evaluated with are the task's own ones if it has its own -/
def OwnVars (own : Option (GoMap Str)) (m : GoMap Str) : Prop := ∀ o, own = some o → m = o

/-- the item may be started -/
def MayStart (c : Cfg) (item : RunItem) (own : Option (GoMap Str)) (w : Option (GoMap Str)) : Prop :=
  item.onPlatform c.platform = true ∧
    ((item.cond = [] ∧ w = none) ∨
     (item.cond ≠ [] ∧ ∃ m, w = some m ∧ evaluate item.cond ⟨m, c.env⟩ = .ok true ∧ OwnVars own m))

/-- why a task may fail between two items: it was cancelled, its environment (before the first item)
or the condition of the next item cannot be expanded -/
def MayStop (c : Cfg) (T : Task) (i : Nat) (own : Option (GoMap Str)) (e : Err) : Prop :=
  e = .wrap .cancelled .canceled ∨
  (i = 0 ∧ ∃ m, OwnVars own m ∧ placed T.line (interpolateEnv ⟨m, c.env⟩ (mergeEnvMaps [c.globalEnv, T.env])) = .error e) ∨
  (∃ item m e', T.run[i]? = some item ∧ item.onPlatform c.platform = true ∧ item.cond ≠ [] ∧ OwnVars own m ∧
    placed item.line (evaluate item.cond ⟨m, c.env⟩) = .error e' ∧ e = .wrap (.itemCond T.name (i + 1)) e')

/-- where a task is in its life cycle -/
inductive Life
  /-- the condition has to be evaluated -/
  | fresh
  /-- `k` dependencies have been run; the task may have been announced before -/
  | deps (k : Nat) (told : Bool)
  /-- the condition was false -/
  | skipped
  /-- item `i` is next; `executed` items were executed, `skipped` skipped by condition -/
  | items (i executed skipped : Nat) (own : Option (GoMap Str))
  | inItem (i executed skipped : Nat) (own : Option (GoMap Str)) (ph : Phase)
  /-- a dependency or item failed; the task will fail with this error -/
  | failed (e : Err)
  /-- marked done -/
  | marked
  | ended

/-- the life cycle of the task `n`, which is undefined or defined by `T` -/
inductive LifeStep (c : Cfg) (n : Str) : Option Task → Life → Ev → Life → Prop
  | unknown : LifeStep c n none .fresh (.taskEnd n (some (.taskNotFound n))) .ended
  | skip {T} (g) (h : T.cond ≠ []) (he : evaluate T.cond ⟨g, c.env⟩ = .ok false) :
      LifeStep c n (some T) .fresh (.taskSkip n g) .skipped
  | runs {T} (g) (h : T.cond ≠ []) (he : evaluate T.cond ⟨g, c.env⟩ = .ok true) :
      LifeStep c n (some T) .fresh (.taskRuns n g) (.deps 0 false)
  | condErr {T} (e) (h : T.cond ≠ []) (ho : Other e) : LifeStep c n (some T) .fresh (.taskEnd n (some e)) .ended
  | skipDone {T} : LifeStep c n (some T) .skipped (.done n) .marked
  | echo {T} (b o) : LifeStep c n (some T) (.deps 0 false) (.echoTask n b o) (.deps 0 true)
  | depOk {T} (k t) (h : k < T.deps.length) : LifeStep c n (some T) (.deps k t) (.depOk n k) (.deps (k + 1) t)
  | depFail {T} (k t e) (h : k < T.deps.length) :
      LifeStep c n (some T) (.deps k t) (.depFail n k e) (.failed (.wrap (.dep T.deps[k]) e))
  | noRun {T} (t) (h : T.run = []) : LifeStep c n (some T) (.deps T.deps.length t) (.done n) .marked
  | vars {T} (t g m call) (h : T.run ≠ []) (hr : resolveVars T.vars g c.env = .ok m) :
      LifeStep c n (some T) (.deps T.deps.length t) (.taskVars n g m call)
        (.items 0 0 0 (if T.vars.isNone then none else some m))
  | varsErr {T} (t e) (h : T.run ≠ []) (ho : Other e) :
      LifeStep c n (some T) (.deps T.deps.length t) (.taskEnd n (some e)) .ended
  | skipPlatform {T i ex sk own} (item) (h : T.run[i]? = some item)
      (hp : item.onPlatform c.platform = false) :
      LifeStep c n (some T) (.items i ex sk own) (.itemSkip n i .platform) (.items (i + 1) ex sk own)
  | skipCond {T i ex sk own} (item m) (h : T.run[i]? = some item)
      (hp : item.onPlatform c.platform = true) (hc : item.cond ≠ [])
      (he : evaluate item.cond ⟨m, c.env⟩ = .ok false) (ho : OwnVars own m) :
      LifeStep c n (some T) (.items i ex sk own) (.itemSkip n i (.cond m)) (.items (i + 1) ex (sk + 1) own)
  | start {T i ex sk own} (item w) (h : T.run[i]? = some item) (hs : MayStart c item own w) :
      LifeStep c n (some T) (.items i ex sk own) (.itemStart n i w) (.inItem i ex sk own .before)
  | stop {T i ex sk own} (e) (h : i < T.run.length) (hs : MayStop c T i own e) (ho : Other e) :
      LifeStep c n (some T) (.items i ex sk own) (.taskEnd n (some e)) .ended
  | nothing {T own} : LifeStep c n (some T) (.items T.run.length 0 0 own)
      (.taskEnd n (some (.noItems T.name))) .ended
  | complete {T ex sk own} (h : ex ≠ 0 ∨ sk ≠ 0) :
      LifeStep c n (some T) (.items T.run.length ex sk own) (.done n) .marked
  | inner {T i ex sk own ph own' ph'} (e) (h : PhaseStep ⟨n, i, none⟩ ph own e ph' own') :
      LifeStep c n (some T) (.inItem i ex sk own ph) e (.inItem i ex sk own' ph')
  | itemOk {T i ex sk own ph} (item) (h : T.run[i]? = some item) (hp : MayEndOk c item ph) :
      LifeStep c n (some T) (.inItem i ex sk own ph) (.itemEnd n i none) (.items (i + 1) (ex + 1) sk own)
  | itemErr {T i ex sk own ph} (item e) (h : T.run[i]? = some item) (hp : MayEndBad item ph e) :
      LifeStep c n (some T) (.inItem i ex sk own ph) (.itemEnd n i (some e)) (.failed e)
  | fail {T} (e) : LifeStep c n (some T) (.failed e) (.taskEnd n (some e)) .ended
  | finish {T} : LifeStep c n (some T) .marked (.taskEnd n none) .ended

/-- the state right after the claim -/
def lifeStart : Option Task → Life
  | some T => if T.cond = [] then .deps 0 false else .fresh
  | none => .fresh

/-- where an item of a parallel block is in its life cycle -/
inductive SubLife
  | idle
  | active (ph : Phase)
  | ended (r : Option Err)
  /-- dropped while waiting for the limit -/
  | dropped

/-- the life cycle of item `j` of the parallel block that is item `i` of task `n` -/
inductive SubStep (c : Cfg) (n : Str) (i j : Nat) (item : RunItem) : SubLife → Ev → SubLife → Prop
  | start : SubStep c n i j item .idle (.subStart n i j) (.active .before)
  | inner {ph ph'} (e) (h : PhaseStep ⟨n, i, some j⟩ ph none e ph' none) :
      SubStep c n i j item (.active ph) e (.active ph')
  | ok {ph} (h : MayEndOk c item ph) : SubStep c n i j item (.active ph) (.subEnd n i j none) (.ended none)
  | bad {ph} (e) (h : MayEndBad item ph e) :
      SubStep c n i j item (.active ph) (.subEnd n i j (some e)) (.ended (some e))
  | drop : SubStep c n i j item .idle (.subAbort n i j) .dropped

/-- the item is between its start and its end -/
def SubLife.isActive : SubLife → Bool
  | .active _ => true
  | _ => false

/-- the items and the limit of the parallel block that is item `i` of task `n` -/
def blockAt (tasks : TaskMap) (n : Str) (i : Nat) : Option (List RunItem × Nat) :=
  match tasks.get? n with
  | none => none
  | some T =>
    match T.run[i]? with
    | some (.parallel items _ _ lim _ _ _ _ _ _) => some (items, lim)
    | _ => none

/-- the life cycle of the parallel block that is item `i` of task `n` and has these items and this
limit (0: none); `S j` is the state of item `j` -/
inductive BlockStep (c : Cfg) (n : Str) (i : Nat) (items : List RunItem) (lim : Nat) :
    (Nat → SubLife) → Ev → (Nat → SubLife) → Prop
  | mk {S S'} (e) (j : Nat) (item) (hj : items[j]? = some item) (h : SubStep c n i j item (S j) e (S' j))
      (ho : ∀ k, k ≠ j → S' k = S k)
      (hlim : e = .subStart n i j → lim ≠ 0 →
        (List.range items.length).countP (fun k => (S k).isActive) < lim)
      (hab : e = .subAbort n i j → lim ≠ 0) :
      BlockStep c n i items lim S e S'

end Bab.Spec
