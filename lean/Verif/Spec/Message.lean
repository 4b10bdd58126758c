import Verif.Spec.Explain
import Verif.Spec.Validate
/-
C70: what the chain of a returned error has to say. The relations tell how a task, an item of a task and an item of a
parallel block can fail, following the definitions of the tasks from the task that was called down to the cause, and which
error each of them has then.
-/

namespace Bab.Spec

/-- the text uses a variable that has no value in `m`, and the error names it and the line -/
def Lacks (line : Nat) (text : Str) (m : GoMap Str) (e : Err) : Prop :=
  ∃ x, e = .wrap (.place line) (.varNotFound x) ∧ ¬ IsEnv x ∧ Uses text x ∧ m.get? x = none

/-- a value of the environment of a task: as it is written, or after it has been expanded once -/
inductive EnvText (c : Cfg) (T : Task) : Str → Prop
  | mk {k x y : Str} {ctx : Ctx} (h : (k, x) ∈ T.env ∨ (k, x) ∈ c.globalEnv) (hy : interpolate x ctx = .ok y) : EnvText c T y

/-- the directory that is given for a command -/
def givenDir (c : Cfg) (T : Task) (v : CommandRun) : Str :=
  if v.dir ≠ [] then v.dir else if T.dir ≠ [] then T.dir else c.globalDir

/-- the label of an item of a parallel block -/
inductive Label (items : List RunItem) (labels : List Str) (j : Nat) : Str → Prop
  | given {l : Str} (h : labels[j]? = some l) (hl : l ≠ []) : Label items labels j l
  | task {t : TaskRun} (h : ∀ l, labels[j]? = some l → l = []) (hi : items[j]? = some (.task t)) : Label items labels j t.task
  | command {v : CommandRun} (h : ∀ l, labels[j]? = some l → l = []) (hi : items[j]? = some (.command v)) :
      Label items labels j (v.cmd.take 20)
  | log {v : LogRun} (h : ∀ l, labels[j]? = some l → l = []) (hi : items[j]? = some (.log v)) : Label items labels j (v.log.take 20)
  | other (h : ∀ l, labels[j]? = some l → l = [])
      (hi : ∀ i, items[j]? = some i → (∃ p, i = .prompt p) ∨ ∃ a b m n d e f g h ln, i = .parallel a b m n d e f g h ln) : Label items labels j []

/-- how a command or a log message at the place `loc` of the task fails, after the events `tr` -/
inductive StepFails (c : Cfg) (tr : List Ev) (T : Task) (loc : Loc) : RunItem → Err → Prop
  | blank {v : CommandRun} (h : ∀ x ∈ v.cmd, WhiteSpace x) : StepFails c tr T loc (.command v) (.emptyCmd T.name)
  | text {v : CommandRun} {m : GoMap Str} {e : Err} (hs : .sees loc m ∈ tr) (h : Lacks v.line v.cmd m e) : StepFails c tr T loc (.command v) e
  | env {v : CommandRun} {m : GoMap Str} {k x : Str} {e : Err} (hs : .sees loc m ∈ tr) (hx : (k, x) ∈ v.env ∨ EnvText c T x)
      (h : Lacks v.line x m e) : StepFails c tr T loc (.command v) e
  | dirText {v : CommandRun} {m : GoMap Str} {e : Err} (hs : .sees loc m ∈ tr) (h : Lacks v.line (givenDir c T v) m e) :
      StepFails c tr T loc (.command v) (.wrap (.dirOf T.name v.cmd) (.wrap .dirText e))
  | dir {v : CommandRun} {m : GoMap Str} {d x : Str} (hs : .sees loc m ∈ tr) (hx : interpolate (givenDir c T v) ⟨m, c.env⟩ = .ok x)
      (hd : d = cleanPath (if isAbs x then x else joinPath (dirPath T.sourcePath) x)) (h : c.stat d ≠ .dir) :
      StepFails c tr T loc (.command v) (.wrap (.dirOf T.name v.cmd) (.badDir d))
  /-- the process ended with another status than 0 -/
  | failed {v : CommandRun} {m : GoMap Str} {spec : ProcSpec} {code : Nat} (hs : .sees loc m ∈ tr)
      (ht : interpolate v.cmd ⟨m, c.env⟩ = .ok spec.cmd) (h : .procStart loc spec ∈ tr) (he : .procEnd loc (some code) ∈ tr) :
      StepFails c tr T loc (.command v) (.wrap (.command T.name spec.cmd) (.exit code))
  | notStarted {v : CommandRun} {m : GoMap Str} {text : Str} (hs : .sees loc m ∈ tr)
      (ht : interpolate v.cmd ⟨m, c.env⟩ = .ok text) (h : .procFail loc ∈ tr) :
      StepFails c tr T loc (.command v) (.wrap (.command T.name text) (.exit 127))
  /-- the process failed after the invocation was interrupted -/
  | stopped {v : CommandRun} {m : GoMap Str} {text : Str} {id : Nat} (hs : .sees loc m ∈ tr)
      (ht : interpolate v.cmd ⟨m, c.env⟩ = .ok text) (h : (∃ code, .procEnd loc (some code) ∈ tr) ∨ .procFail loc ∈ tr)
      (hc : .cancel id ∈ tr) : StepFails c tr T loc (.command v) (.wrap (.command T.name text) .canceled)
  | log {l : LogRun} {m : GoMap Str} {e : Err} (hs : .sees loc m ∈ tr) (h : Lacks l.line l.log m e) : StepFails c tr T loc (.log l) e
  /-- prompts and blocks cannot stand inside of a block -/
  | kind {i : RunItem} (h : (∃ p, i = .prompt p) ∨ ∃ a b m n d e f g h ln, i = .parallel a b m n d e f g h ln) : StepFails c tr T loc i .unsupported

mutual
/-- how the task `n` fails, and with which error. In `cond` and `itemCond` the values `m` are those of the moment of the
evaluation, which no event records: these two say that the condition uses the variable. -/
inductive TaskFails (c : Cfg) (tasks : TaskMap) (tr : List Ev) : Str → Err → Prop
  | unknown {n : Str} (h : tasks.get? n = none) : TaskFails c tasks tr n (.taskNotFound n)
  /-- the task is being run already; the chain leads from it along the tasks -/
  | circular {n : Str} {chain : List Str} (h : .claimed n ∈ tr) (hp : IsPath tasks (n :: chain)) : TaskFails c tasks tr n (.circularDep (n :: chain))
  | cond {n : Str} {T : Task} {m : GoMap Str} {e : Err} (hT : tasks.get? n = some T) (h : Lacks T.line T.cond m e) :
      TaskFails c tasks tr n (.wrap (.taskCond n) (.wrap .condition e))
  | dep {n : Str} {T : Task} {d : Str} {e : Err} (hT : tasks.get? n = some T) (hd : d ∈ T.deps) (h : TaskFails c tasks tr d e) :
      TaskFails c tasks tr n (.wrap (.dep d) e)
  | var {n : Str} {T : Task} {m g : GoMap Str} {x : Str} (hT : tasks.get? n = some T) (hm : T.vars = some m)
      (h : Undefined m.get? g.get? x) : TaskFails c tasks tr n (.wrap (.place T.line) (.varNotFound x))
  | varCycle {n : Str} {T : Task} {m : GoMap Str} {x : Str} {chain : List Str} (hT : tasks.get? n = some T) (hm : T.vars = some m)
      (h : Path (DependsOn m.get?) chain) (hl : ∃ l a, chain = l ++ [a] ∧ a ∈ l) : TaskFails c tasks tr n (.wrap (.place T.line) (.varCycle x chain))
  | env {n : Str} {T : Task} {m g : GoMap Str} {call : Call} {k x : Str} {e : Err} (hT : tasks.get? n = some T) (hv : .taskVars n g m call ∈ tr)
      (hx : (k, x) ∈ T.env ∨ (k, x) ∈ c.globalEnv) (h : Lacks T.line x m e) : TaskFails c tasks tr n e
  | cancelled {n : Str} {T : Task} {id : Nat} (hT : tasks.get? n = some T) (hr : T.run ≠ []) (h : .cancel id ∈ tr) :
      TaskFails c tasks tr n (.wrap .cancelled .canceled)
  | none {n : Str} {T : Task} (hT : tasks.get? n = some T) (hr : T.run ≠ []) (h : ∀ i ∈ T.run, i.onPlatform c.platform = false) :
      TaskFails c tasks tr n (.noItems T.name)
  | itemCond {n : Str} {T : Task} {i : Nat} {item : RunItem} {m : GoMap Str} {e : Err} (hT : tasks.get? n = some T)
      (hi : T.run[i]? = some item) (hp : item.onPlatform c.platform = true) (h : Lacks item.line item.cond m e) :
      TaskFails c tasks tr n (.wrap (.itemCond T.name (i + 1)) (.wrap .condition e))
  | item {n : Str} {T : Task} {i : Nat} {item : RunItem} {w : Option (GoMap Str)} {e : Err} (hT : tasks.get? n = some T)
      (hi : T.run[i]? = some item) (hs : .itemStart n i w ∈ tr) (h : ItemFails c tasks tr n T i item e) : TaskFails c tasks tr n e
/-- how the item `i` of the task fails -/
inductive ItemFails (c : Cfg) (tasks : TaskMap) (tr : List Ev) : Str → Task → Nat → RunItem → Err → Prop
  | step {n : Str} {T : Task} {i : Nat} {item : RunItem} {e : Err} (h : StepFails c tr T ⟨n, i, none⟩ item e) :
      ItemFails c tasks tr n T i item e
  | call {n : Str} {T : Task} {i : Nat} {t : TaskRun} {e : Err} (h : TaskFails c tasks tr t.task e) : ItemFails c tasks tr n T i (.task t) e
  | promptText {n : Str} {T : Task} {i : Nat} {p : PromptRun} {m : GoMap Str} {x : Str} {e : Err} (hs : .sees ⟨n, i, none⟩ m ∈ tr)
      (hx : ItemText (.prompt p) x) (h : Lacks p.line x m e) : ItemFails c tasks tr n T i (.prompt p) e
  | prompt {n : Str} {T : Task} {i : Nat} {p : PromptRun} {e : Err} (h : .answered ⟨n, i, none⟩ p.prompt (.error e) ∈ tr)
      (he : e = .canceled ∨ ∃ reason, e = .prompt reason) :
      ItemFails c tasks tr n T i (.prompt p) (.wrap (.prompt T.name p.prompt) e)
  | preDep {n : Str} {T : Task} {i : Nat} {items labels mode lim color s o pl w ln} {t : TaskRun} {U : Task} {d : Str} {e : Err}
      (ht : .task t ∈ items) (hU : tasks.get? t.task = some U) (hd : d ∈ U.deps) (h : TaskFails c tasks tr d e) :
      ItemFails c tasks tr n T i (.parallel items labels mode lim color s o pl w ln) (.wrap (.preDep d) e)
  | blockUnknown {n : Str} {T : Task} {i : Nat} {items labels mode lim color s o pl w ln} {t : TaskRun} (ht : .task t ∈ items)
      (hU : tasks.get? t.task = none) : ItemFails c tasks tr n T i (.parallel items labels mode lim color s o pl w ln) (.parallelUnknown t.task)
  | view {n : Str} {T : Task} {i : Nat} {items labels mode lim color s o pl w ln} (h : .tuiStart false ∈ tr) :
      ItemFails c tasks tr n T i (.parallel items labels mode lim color s o pl w ln) (.wrap .view .tui)
  | blockStep {n : Str} {T : Task} {i j : Nat} {items labels mode lim color s o pl w ln} {item : RunItem} {l : Str} {e : Err}
      (hi : items[j]? = some item) (hl : Label items labels j l) (hs : .subEnd n i j (some e) ∈ tr)
      (h : StepFails c tr T ⟨n, i, some j⟩ item e) : ItemFails c tasks tr n T i (.parallel items labels mode lim color s o pl w ln) (.wrap (.item l) e)
  | blockCall {n : Str} {T : Task} {i j : Nat} {items labels mode lim color s o pl w ln} {t : TaskRun} {l : Str} {e : Err}
      (hi : items[j]? = some (.task t)) (hl : Label items labels j l) (hs : .subEnd n i j (some e) ∈ tr)
      (h : TaskFails c tasks tr t.task e) : ItemFails c tasks tr n T i (.parallel items labels mode lim color s o pl w ln) (.wrap (.item l) e)
end

/-- what an event says about a failure is right when the events `S` have happened -/
def Right (c : Cfg) (tasks : TaskMap) (S : List Ev) : Ev → Prop
  | .taskEnd n (some e) => TaskFails c tasks S n e
  | .depFail n k e => ∃ T d, tasks.get? n = some T ∧ T.deps[k]? = some d ∧ TaskFails c tasks S d e
  | .itemEnd n i (some e) => ∃ T item, tasks.get? n = some T ∧ T.run[i]? = some item ∧ ItemFails c tasks S n T i item e
  | _ => True

/-- what is in front of the cause of an error, from the outside to the inside -/
def places : Err → List Where
  | .wrap w e => w :: places e
  | _ => []

end Bab.Spec
