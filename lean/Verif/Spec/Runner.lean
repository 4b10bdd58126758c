import Verif.Model.Runner
/-
What the runner is supposed to guarantee, in terms of events. `H e` reads "the event `e` has
happened".
-/

namespace Bab.Spec

/-- the item of the Babfile at a place -/
def itemAt (tasks : TaskMap) (loc : Loc) : Option RunItem :=
  match tasks.get? loc.task with
  | none => none
  | some T =>
    match loc.sub with
    | none => T.run[loc.item]?
    | some j =>
      match T.run[loc.item]? with
      | some (.parallel items _ _ _ _ _ _ _ _ _) => items[j]?
      | _ => none

/-- something went wrong that the user must hear of: a command failed or could not be started, a
prompt was not answered -/
def Fails : Ev → Prop
  | .procEnd _ (some _) => True
  | .procFail _ => True
  | .answered _ _ (.error _) => True
  | _ => False

/-- a failure of any kind, also of a whole item, dependency, parallel block or task -/
def Trouble : Ev → Prop
  | .taskEnd _ (some _) => True
  | .depFail _ _ _ => True
  | .itemEnd _ _ (some _) => True
  | .subEnd _ _ _ (some _) => True
  | .parEnd _ _ (some _) => True
  | .tuiStart false => True
  | e => Fails e

/-- an item other than a parallel block has been executed to completion -/
def LeafDone (H : Ev → Prop) (dry : Bool) (loc : Loc) : RunItem → Prop
  | .command _ => if dry then ∃ t, H (.wouldRun loc t) else H (.procEnd loc none)
  | .task t => if dry then H (.wouldTask loc t.task) else H (.done t.task)
  | .log l => if dry then ∃ t, H (.wouldLog loc t l.level) else ∃ t o, H (.logged loc t l.level o)
  | .prompt p => if dry then H (.wouldPrompt loc p.prompt) else ∃ a, H (.answered loc p.prompt (.ok a))
  | .parallel _ _ _ _ _ _ _ _ _ _ => False

/-- an item has been executed to completion; items of a parallel block may have been dropped, see
`subAbort` -/
def ItemDone (H : Ev → Prop) (dry : Bool) (n : Str) (i : Nat) : RunItem → Prop
  | .parallel items _ _ _ _ _ _ _ _ _ =>
    if dry then H (.wouldParallel ⟨n, i, none⟩)
    else (∃ m, H (.parBegin n i m)) ∧ ∀ j sub, items[j]? = some sub → LeafDone H dry ⟨n, i, some j⟩ sub ∨ H (.subAbort n i j)
  | item => LeafDone H dry ⟨n, i, none⟩ item

/-- a task has been executed to completion, or skipped because of its condition -/
def TaskDone (H : Ev → Prop) (dry : Bool) (n : Str) (T : Task) : Prop :=
  (∃ g, H (.taskSkip n g)) ∨
  ((∀ d ∈ T.deps, H (.done d)) ∧
    ∀ i item, T.run[i]? = some item → (∃ why, H (.itemSkip n i why)) ∨ ItemDone H dry n i item)

/-- an item has been executed to completion, and if it is a parallel block, all its items have -/
def Executed (H : Ev → Prop) (dry : Bool) (n : Str) (i : Nat) : RunItem → Prop
  | .parallel items _ _ _ _ _ _ _ _ _ =>
    if dry then H (.wouldParallel ⟨n, i, none⟩)
    else ∀ j sub, items[j]? = some sub → LeafDone H dry ⟨n, i, some j⟩ sub
  | item => LeafDone H dry ⟨n, i, none⟩ item

/-- A task can be called with these overrides of `silent` and `output`, and with colours switched
off or not: the main task and dependencies without overrides; inline tasks with the setting of the
calling item, else of the surrounding block, else of the caller; dependencies of parallel items that
are run ahead of the block with the setting of the block, else of the caller. -/
inductive Called (tasks : TaskMap) (main : Str) : Str → Option Bool → Option Bool → Bool → Prop
  | main : Called tasks main main none none false
  | dep {n s o nc T d} (h : Called tasks main n s o nc) (hT : tasks.get? n = some T) (hd : d ∈ T.deps) :
      Called tasks main d none none nc
  | item {n s o nc T} {t : TaskRun} (h : Called tasks main n s o nc) (hT : tasks.get? n = some T)
      (hi : .task t ∈ T.run) : Called tasks main t.task (t.silent.or s) (t.output.or o) nc
  | sub {n s o nc T items labels mode lim color bs bo pl w ln} {t : TaskRun}
      (h : Called tasks main n s o nc) (hT : tasks.get? n = some T)
      (hi : .parallel items labels mode lim color bs bo pl w ln ∈ T.run) (ht : .task t ∈ items) :
      Called tasks main t.task (t.silent.or (bs.or s)) (t.output.or (bo.or o)) (nc || color == some false)
  | ahead {n s o nc T items labels mode lim color bs bo pl w ln T' d} {t : TaskRun}
      (h : Called tasks main n s o nc) (hT : tasks.get? n = some T)
      (hi : .parallel items labels mode lim color bs bo pl w ln ∈ T.run) (ht : .task t ∈ items)
      (hT' : tasks.get? t.task = some T') (hd : d ∈ T'.deps) :
      Called tasks main d (bs.or s) (bo.or o) (nc || color == some false)

/-- the parameters in force for an item at a place, when its task was called with `call`: those of the
call, and for items of parallel blocks the settings of the block before them -/
def FrameFor (tasks : TaskMap) (loc : Loc) (call : Call) (fr : Frame) : Prop :=
  match loc.sub with
  | none => fr.call = call
  | some _ => fr.out.isSome = true ∧ ∃ items labels mode lim color bs bo pl w ln,
      itemAt tasks ⟨loc.task, loc.item, none⟩ = some (.parallel items labels mode lim color bs bo pl w ln) ∧
      fr.ovSilent = bs.or call.silent ∧ fr.ovOutput = bo.or call.output ∧
      fr.noColor = (call.noColor || color == some false)

/-- the process description `spec` is the one the Babfile prescribes for the command at `loc` -/
def ProcOk (c : Cfg) (tasks : TaskMap) (H : Ev → Prop) (loc : Loc) (spec : ProcSpec) : Prop :=
  ∃ T v g m0 call tenv m text env dir fr, tasks.get? loc.task = some T ∧ itemAt tasks loc = some (.command v) ∧
    H (.taskVars loc.task g m0 call) ∧ interpolateEnv ⟨m0, c.env⟩ (mergeEnvMaps [c.globalEnv, T.env]) = .ok tenv ∧
    H (.sees loc m) ∧ prepareCommand c T v tenv m = .ok (text, env, dir) ∧
    FrameFor tasks loc call fr ∧ spec = procSpec c fr T v text env dir ∧
    (isSilent [v.silent, fr.ovSilent, T.silent, c.globalSilent] = false → ∃ o, H (.echoCmd loc text o))

/-- a task without variables of its own asks for this variable -/
def Leaks (tasks : TaskMap) (k : Str) : Prop :=
  ∃ (n : Str) (T : Task) (i : Nat) (p : PromptRun), tasks.get? n = some T ∧ T.vars = none ∧ T.run[i]? = some (.prompt p) ∧ p.prompt = k

/-- the global variables are unchanged except for those prompted for by tasks without own variables -/
def GlobalsOk (tasks : TaskMap) (gvars g : GoMap Str) : Prop :=
  (∀ k, ¬ Leaks tasks k → g.get? k = gvars.get? k) ∧ ((∀ k, ¬ Leaks tasks k) → g = gvars)

/-- the dependencies of all tasks that a parallel block calls are done -/
def AheadDone (tasks : TaskMap) (H : Ev → Prop) (n : Str) (i : Nat) : Prop :=
  ∀ items labels mode lim color bs bo pl w ln, itemAt tasks ⟨n, i, none⟩ = some (.parallel items labels mode lim color bs bo pl w ln) →
    ∀ t T d, .task t ∈ items → tasks.get? t.task = some T → d ∈ T.deps → H (.done d)

/-- requirements on annotations and outputs -/
def EmitOk (c : Cfg) (tasks : TaskMap) (main : Str) (gvars : GoMap Str) (H : Ev → Prop) : Ev → Prop
  | .itemStart n i _ => ∃ T, tasks.get? n = some T ∧ (∀ d ∈ T.deps, H (.done d)) ∧
      ∀ k item, k < i → T.run[k]? = some item → (∃ why, H (.itemSkip n k why)) ∨ ItemDone H c.dry n k item
  | .taskVars n g _ call => GlobalsOk tasks gvars g ∧ Called tasks main n call.silent call.output call.noColor ∧
      ∃ T, tasks.get? n = some T ∧
      (c.dry = false → isSilent [call.silent, T.silent, c.globalSilent] = false → ∃ b o, H (.echoTask n b o))
  | .taskSkip _ g => GlobalsOk tasks gvars g
  | .taskRuns _ g => GlobalsOk tasks gvars g
  | .sees loc m =>
    (∃ w, H (.itemStart loc.task loc.item w)) ∧
    (∀ j, loc.sub = some j → H (.parBegin loc.task loc.item m)) ∧
    (∀ T, tasks.get? loc.task = some T → T.vars = none → GlobalsOk tasks gvars m)
  | .parBegin n i _ => c.dry = false ∧ AheadDone tasks H n i
  | .parEnd n i r =>
    ∃ items labels mode lim color bs bo pl w ln,
      itemAt tasks ⟨n, i, none⟩ = some (.parallel items labels mode lim color bs bo pl w ln) ∧
      (∀ j, j < items.length → (∃ r', H (.subEnd n i j r') ∧ (r'.isSome → r.isSome)) ∨
        (H (.subAbort n i j) ∧ ∃ id, H (.cancel id))) ∧
      (∀ e, r = some e → ∃ j e', j < items.length ∧ H (.subEnd n i j (some e')) ∧
        e = .wrap (.item (itemLabel items labels j)) e')
  | .subEnd n i j r => r = none → ∀ item, itemAt tasks ⟨n, i, some j⟩ = some item →
      LeafDone H c.dry ⟨n, i, some j⟩ item
  | .echoTask n _ _ => c.dry = false ∧ ∃ T s o nc, tasks.get? n = some T ∧ Called tasks main n s o nc ∧
      isSilent [s, T.silent, c.globalSilent] = false
  | .echoCmd loc text _ => c.dry = false ∧ ∃ T v g m0 call m fr, tasks.get? loc.task = some T ∧
      itemAt tasks loc = some (.command v) ∧ H (.taskVars loc.task g m0 call) ∧ H (.sees loc m) ∧
      interpolate v.cmd ⟨m, c.env⟩ = .ok text ∧ FrameFor tasks loc call fr ∧ isSilent [v.silent, fr.ovSilent, T.silent, c.globalSilent] = false
  | .logged loc text level _ => c.dry = false ∧ ∃ l m, itemAt tasks loc = some (.log l) ∧
      H (.sees loc m) ∧ interpolate l.log ⟨m, c.env⟩ = .ok text ∧ level = l.level
  | .wouldRun loc text => c.dry = true ∧ ∃ v m, itemAt tasks loc = some (.command v) ∧
      H (.sees loc m) ∧ interpolate v.cmd ⟨m, c.env⟩ = .ok text
  | .wouldTask loc t => c.dry = true ∧ ∃ r, itemAt tasks loc = some (.task r) ∧ t = r.task
  | .wouldLog loc text level => c.dry = true ∧ ∃ l m, itemAt tasks loc = some (.log l) ∧
      H (.sees loc m) ∧ interpolate l.log ⟨m, c.env⟩ = .ok text ∧ level = l.level
  | .wouldPrompt loc x => c.dry = true ∧ ∃ p, itemAt tasks loc = some (.prompt p) ∧ x = p.prompt
  | .wouldParallel loc => c.dry = true ∧ ∃ items labels mode lim color bs bo pl w ln,
      itemAt tasks loc = some (.parallel items labels mode lim color bs bo pl w ln)
  | .answered loc x r => c.dry = false ∧ c.stdinTTY = false ∧ ∃ p p' m,
      itemAt tasks loc = some (.prompt p) ∧ H (.sees loc m) ∧ interpolatePrompt p ⟨m, c.env⟩ = .ok p' ∧
      x = p.prompt ∧ r = handleNonInteractive p'
  | .claimed _ => False
  | .done _ => False
  | .cancel _ => False
  | .procStart _ _ => False
  | .procEnd _ _ => False
  | .procFail _ => False
  | .subAbort _ _ _ => False
  | .tuiStart _ => False
  | .taskEnd _ _ => True
  | .depOk _ _ => True
  | .depFail _ _ _ => True
  | .itemSkip _ _ _ => True
  | .itemEnd _ _ _ => True
  | .subStart n i _ => c.dry = false ∧ ∃ m, H (.parBegin n i m)

/-- requirements on actions -/
def ActOk (c : Cfg) (tasks : TaskMap) (main : Str) (gvars : GoMap Str) (H : Ev → Prop) : Act → Prop
  | .setDone n => ∃ T, tasks.get? n = some T ∧ TaskDone H c.dry n T
  | .start ctx loc spec => 0 ∈ ctx ∧ c.dry = false ∧ ProcOk c tasks H loc spec
  | .wait loc => c.dry = false ∧ ∃ spec, H (.procStart loc spec)
  | .prompt loc p' => c.dry = false ∧ c.stdinTTY = true ∧ ∃ p m, itemAt tasks loc = some (.prompt p) ∧
      H (.sees loc m) ∧ interpolatePrompt p ⟨m, c.env⟩ = .ok p' ∧ p'.prompt = p.prompt
  | .setGlobal k v => c.dry = false ∧ Leaks tasks k ∧ ∃ loc, H (.answered loc k (.ok v))
  | .tui => c.dry = false
  | .newCtx => c.dry = false
  | .emit e => EmitOk c tasks main gvars H e
  | .fuel => False
  | .claim _ => True
  | .status _ => True
  | .snapshot => True
  | .globals => True
  | .cancelled _ => True

/-- what every event presupposes, given what happened before it -/
def EvOk (c : Cfg) (tasks : TaskMap) (main : Str) (gvars : GoMap Str) (H : Ev → Prop) : Ev → Prop
  | .done n => ∃ T, tasks.get? n = some T ∧ TaskDone H c.dry n T
  | .procStart loc spec => c.dry = false ∧ ProcOk c tasks H loc spec ∧ ¬ H (.cancel 0)
  | .procFail loc => c.dry = false ∧ ∃ spec, ProcOk c tasks H loc spec
  | .procEnd loc _ => c.dry = false ∧ ∃ spec, H (.procStart loc spec)
  | .answered loc x r => c.dry = false ∧ ∃ p p' m,
      itemAt tasks loc = some (.prompt p) ∧ H (.sees loc m) ∧ interpolatePrompt p ⟨m, c.env⟩ = .ok p' ∧
      x = p.prompt ∧ (c.stdinTTY = false → r = handleNonInteractive p')
  | .subAbort _ _ _ => ∃ id, H (.cancel id)
  | .tuiStart _ => c.dry = false
  | .claimed _ => True
  | .cancel _ => True
  | e => EmitOk c tasks main gvars H e

/-- the item that an event shows to be in execution -/
def placeOf : Ev → Option Loc
  | .itemStart n i _ => some ⟨n, i, none⟩
  | .parBegin n i _ => some ⟨n, i, none⟩
  | .parEnd n i _ => some ⟨n, i, none⟩
  | .subStart n i j => some ⟨n, i, some j⟩
  | .sees loc _ => some loc
  | .echoCmd loc _ _ => some loc
  | .procStart loc _ => some loc
  | .procEnd loc _ => some loc
  | .procFail loc => some loc
  | .answered loc _ _ => some loc
  | .logged loc _ _ _ => some loc
  | .wouldRun loc _ => some loc
  | .wouldTask loc _ => some loc
  | .wouldLog loc _ _ => some loc
  | .wouldPrompt loc _ => some loc
  | .wouldParallel loc => some loc
  | _ => none

/-- the event starts the item at this place -/
def starts (loc : Loc) : Ev → Bool
  | .itemStart n i _ => decide (loc = ⟨n, i, none⟩)
  | .subStart n i j => decide (loc = ⟨n, i, some j⟩)
  | _ => false

/-- the event is the action proper of the item at this place: its process is started (or cannot be
started), its prompt answered, its message logged, its block begun, or what would be done reported -/
def acts (loc : Loc) : Ev → Bool
  | .procStart l _ => decide (l = loc)
  | .procFail l => decide (l = loc)
  | .answered l _ _ => decide (l = loc)
  | .logged l _ _ _ => decide (l = loc)
  | .wouldRun l _ => decide (l = loc)
  | .wouldTask l _ => decide (l = loc)
  | .wouldLog l _ _ => decide (l = loc)
  | .wouldPrompt l _ => decide (l = loc)
  | .wouldParallel l => decide (l = loc)
  | .parBegin n i _ => decide (loc = ⟨n, i, none⟩)
  | _ => false

/-- the event concludes the item at this place, well or badly -/
def ends (loc : Loc) : Ev → Bool
  | .procEnd l _ => decide (l = loc)
  | .procFail l => decide (l = loc)
  | .answered l _ _ => decide (l = loc)
  | .logged l _ _ _ => decide (l = loc)
  | .wouldRun l _ => decide (l = loc)
  | .wouldTask l _ => decide (l = loc)
  | .wouldLog l _ _ => decide (l = loc)
  | .wouldPrompt l _ => decide (l = loc)
  | .wouldParallel l => decide (l = loc)
  | .parEnd n i _ => decide (loc = ⟨n, i, none⟩)
  | _ => false

/-- the event shows that item `i` of task `n`, or an item inside it, has failed -/
def FailsItem (n : Str) (i : Nat) (e : Ev) : Prop :=
  (∃ x, e = .itemEnd n i (some x)) ∨ (∃ x, e = .parEnd n i (some x)) ∨ (∃ j x, e = .subEnd n i j (some x)) ∨
  (Fails e ∧ ∃ sub, placeOf e = some ⟨n, i, sub⟩)

/-- item `j` of a block has started -/
def subBegun (n : Str) (i : Nat) (a : List Ev) (j : Nat) : Bool := a.any (fun e => decide (e = .subStart n i j))

/-- the event ends item `j` of a block -/
def isSubEnd (n : Str) (i j : Nat) : Ev → Bool
  | .subEnd n' i' j' _ => decide (n' = n ∧ i' = i ∧ j' = j)
  | _ => false

/-- item `j` of a block has ended -/
def subOver (n : Str) (i : Nat) (a : List Ev) (j : Nat) : Bool := a.any (isSubEnd n i j)

/-- after the events `a`, item `j` of a block is in execution -/
def subLive (n : Str) (i : Nat) (a : List Ev) (j : Nat) : Bool := subBegun n i a j && !subOver n i a j

/-- the event starts the process of the item at a place -/
def isProcStart (loc : Loc) : Ev → Bool
  | .procStart l _ => decide (l = loc)
  | _ => false

/-- the event ends the process of the item at a place -/
def isProcEnd (loc : Loc) : Ev → Bool
  | .procEnd l _ => decide (l = loc)
  | _ => false

/-- after the events `a`, the process of item `j` of a block runs -/
def procLive (n : Str) (i : Nat) (a : List Ev) (j : Nat) : Bool :=
  a.any (isProcStart ⟨n, i, some j⟩) && !a.any (isProcEnd ⟨n, i, some j⟩)

end Bab.Spec
