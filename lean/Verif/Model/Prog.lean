import Verif.Model.Prompt
import Verif.Model.Path
/-
Execution model for internal/runner: what the Go code can do to shared state and to the outside
world (`Act`), programs built from such actions and from fork-join blocks of goroutines (`Prog`),
and how a program executes step by step under an arbitrary scheduler (`Step`).
-/

namespace Bab

/-- runner.go 25-31 `status`; the zero value (never claimed) is `none : Option Status` -/
inductive Status
  | running | done
  deriving DecidableEq, Repr

/-- A `context.Context`: the list of the cancellable contexts it derives from, innermost first.
It is done when one of them has been cancelled (`ctx`, runner.go 135; runner/parallel.go 196-198). -/
abbrev CtxPath := List Nat

/-- where in the Babfile a command, prompt or log comes from: task, index in `run`, and index in
the parallel block if the item is inside one (the items of runner.go 223 and runner/parallel.go 135) -/
structure Loc where
  task : Str
  item : Nat
  sub : Option Nat := none
  deriving DecidableEq, Repr

/-- The `io.Writer` pair handed to an item of a parallel block (parallel.go 150-153, 257-259): the `KeyLineWriter` of the item of
the view with this index path (empty: no view, the terminal), and in front of it, from the outside to the inside, a
`PrefixWriter` with the label of each of these items. -/
structure Sink where
  key : List Nat
  prefixes : List Nat
  deriving DecidableEq, Repr

/-- how a task was called: the overrides of `silent` and `output`, whether colours are switched off, and
the writers (`none`: the terminal) (the parameters of runner.go 135) -/
structure Call where
  silent : Option Bool := none
  output : Option Bool := none
  noColor : Bool := false
  out : Option Sink := none
  deriving DecidableEq, Repr

/-- where the output of a command goes (runner.go 474-481, 497-506) -/
inductive OutTo
  | discard
  | terminal
  | sink (s : Sink)
  deriving DecidableEq, Repr

/-- what `runCommandWithWriters` passes to the operating system (runner.go 487-527) -/
structure ProcSpec where
  shell : Str
  arg : Str
  cmd : Str
  /-- `cmd.Env`; `none` is nil: the process inherits the environment -/
  env : Option (List (Str × Str))
  dir : Str
  out : OutTo
  stdin : Bool
  deriving DecidableEq, Repr

/-- why a run item was skipped (runner.go 230-240) -/
inductive Skip
  | platform
  /-- the condition was false for these variables -/
  | cond (vars : GoMap Str)
  deriving DecidableEq, Repr

/-- What happens, in order, during an invocation. `procStart`, `procEnd`, `answered`, `logged`,
`echoTask`, `echoCmd`, the `would...` events and `cancel` are effects visible outside;
the others are annotations that mark points of the control flow (runner.go 135-343, runner/parallel.go 71-358). -/
inductive Ev
  /-- the task was claimed (parallel.go 51-59) -/
  | claimed (n : Str)
  /-- the task was marked done (runner.go 166, 200) -/
  | done (n : Str)
  /-- the call of `runTask` that claimed the task returns -/
  | taskEnd (n : Str) (r : Option Err)
  /-- the condition of the task was false for these variables (runner.go 164-168) -/
  | taskSkip (n : Str) (vars : GoMap Str)
  /-- the condition of the task was true for these variables -/
  | taskRuns (n : Str) (vars : GoMap Str)
  /-- a dependency was run (runner.go 187-190) -/
  | depOk (n : Str) (k : Nat)
  | depFail (n : Str) (k : Nat) (e : Err)
  /-- the task's variables: the global ones it starts from and the result (runner.go 209); and how the
  task was called -/
  | taskVars (n : Str) (globals vars : GoMap Str) (call : Call)
  | itemSkip (n : Str) (i : Nat) (why : Skip)
  /-- the item passed its checks; `vars` are the variables its condition was evaluated with
  (`none` if it has no condition) -/
  | itemStart (n : Str) (i : Nat) (vars : Option (GoMap Str))
  | itemEnd (n : Str) (i : Nat) (r : Option Err)
  /-- an item inside a parallel block starts, ends, or is dropped while waiting for the limit -/
  | subStart (n : Str) (i j : Nat)
  | subEnd (n : Str) (i j : Nat) (r : Option Err)
  | subAbort (n : Str) (i j : Nat)
  /-- a parallel block starts its goroutines, with these variables; it has joined them -/
  | parBegin (n : Str) (i : Nat) (vars : GoMap Str)
  | parEnd (n : Str) (i : Nat) (r : Option Err)
  /-- the variables used to expand the texts of an item -/
  | sees (loc : Loc) (vars : GoMap Str)
  /-- a task or a command is announced, or a message is logged, through these writers (`none`: the terminal) -/
  | echoTask (n : Str) (isMain : Bool) (out : Option Sink)
  | echoCmd (loc : Loc) (text : Str) (out : Option Sink)
  | procStart (loc : Loc) (spec : ProcSpec)
  /-- the process ended; `none` is status 0 -/
  | procEnd (loc : Loc) (code : Option Nat)
  /-- the process could not be started -/
  | procFail (loc : Loc)
  | answered (loc : Loc) (name : Str) (r : Except Err Str)
  | logged (loc : Loc) (text level : Str) (out : Option Sink)
  | wouldRun (loc : Loc) (text : Str)
  | wouldTask (loc : Loc) (task : Str)
  | wouldLog (loc : Loc) (text level : Str)
  | wouldPrompt (loc : Loc) (name : Str)
  | wouldParallel (loc : Loc)
  /-- the parallel view was started, or failed to start -/
  | tuiStart (ok : Bool)
  /-- a context was cancelled from outside (signal, or quitting the parallel view) -/
  | cancel (id : Nat)
  deriving DecidableEq, Repr

/-- The atomic actions of the runner's code on shared state and the outside world
(runner.go 135-343, 529; runner/parallel.go 39-69, 196-208). -/
inductive Act
  /-- parallel.go 51-59 `syncState.claim` -/
  | claim (n : Str)
  /-- parallel.go 45-49 `syncState.set(name, done)` -/
  | setDone (n : Str)
  /-- parallel.go 39-43 `syncState.get` -/
  | status (n : Str)
  /-- parallel.go 61-69 `syncState.snapshot` -/
  | snapshot
  /-- reading the map `r.GlobalVars` -/
  | globals
  /-- writing the map `r.GlobalVars` -/
  | setGlobal (k v : Str)
  /-- `ctx.Done()` / `ctx.Err()` -/
  | cancelled (c : CtxPath)
  /-- `context.WithCancel` (parallel.go 196). The deferred `workCancel` is left out: nothing uses
  the context after the block has returned. -/
  | newCtx
  /-- starting a process (`cmd.Start` inside `cmd.Run`, runner.go 529): fails if the context is
  done, may fail for other reasons; answers whether the process runs -/
  | start (c : CtxPath) (loc : Loc) (spec : ProcSpec)
  /-- waiting for the process: the exit status, `none` for 0 -/
  | wait (loc : Loc)
  /-- an interactive prompt (internal/tui/prompt.go): the user's answer or an error -/
  | prompt (loc : Loc) (p : PromptRun)
  /-- `tui.RunParallel` (parallel.go 208): whether the view could be started -/
  | tui
  /-- no action: an annotation -/
  | emit (e : Ev)
  /-- the recursion bound of the model is exhausted; proved unreachable -/
  | fuel

/-- the type of answers of each action (as for `Act`, runner.go 135-343) -/
def Act.Resp : Act → Type
  | .claim _ => Option Status
  | .setDone _ => Unit
  | .status _ => Option Status
  | .snapshot => GoMap Status
  | .globals => GoMap Str
  | .setGlobal _ _ => Unit
  | .cancelled _ => Bool
  | .newCtx => Nat
  | .start _ _ _ => Bool
  | .wait _ => Option Nat
  | .prompt _ _ => Except Err Str
  | .tui => Bool
  | .emit _ => Unit
  | .fuel => Unit

/-- the events an action with this answer adds to the trace (as for `Act`, runner.go 135-343) -/
def Act.evs : (a : Act) → a.Resp → List Ev
  | .claim n, none => [.claimed n]
  | .claim _, some _ => []
  | .setDone n, _ => [.done n]
  | .status _, _ => []
  | .snapshot, _ => []
  | .globals, _ => []
  | .setGlobal _ _, _ => []
  | .cancelled _, _ => []
  | .newCtx, _ => []
  | .start _ loc spec, true => [.procStart loc spec]
  | .start _ loc _, false => [.procFail loc]
  | .wait loc, r => [.procEnd loc r]
  | .prompt loc p, r => [.answered loc p.prompt r]
  | .tui, b => [.tuiStart b]
  | .emit e, _ => [e]
  | .fuel, _ => []

/-- where a goroutine of a parallel block is (parallel.go 138-161, 230-270) -/
inductive Tag
  /-- before the semaphore -/
  | init
  /-- inside `executeRunItem` -/
  | running
  /-- `executeRunItem` has returned and a failure is recorded; the semaphore slot is still held -/
  | returned
  /-- the slot has been given back -/
  | released
  /-- `wg.Done()` has been called -/
  | done
  deriving DecidableEq, Repr

/-- the local variables of `executeParallelInterleaved` / `executeParallelTUI` that the goroutines
share: `len(sem)`, the wait-group counter, `firstErr`; and the position of each goroutine
(runner/parallel.go 117-133, 217-225) -/
structure BState (n : Nat) where
  held : Nat
  wg : Nat
  first : Option Err
  tag : Fin n → Tag

/-- A running program of the runner. `par` is a parallel block: `lim` is the limit (0: none), `ctx`
the context its goroutines wait on, `task`/`item` where the block is defined. -/
inductive Prog where
  | ret (r : Option Err)
  | act (a : Act) (k : a.Resp → Prog)
  | par (lim : Nat) (ctx : CtxPath) (task : Str) (item : Nat) (n : Nat) (st : BState n)
      (ps : Fin n → Prog) (k : Option Err → Prog)

namespace Prog

/-- sequential composition; `f` gets the returned error (a call, e.g. runner.go 195) -/
def bind : Prog → (Option Err → Prog) → Prog
  | ret r, f => f r
  | act a k, f => act a (fun x => bind (k x) f)
  | par lim ctx t i n st ps k, f => par lim ctx t i n st ps (fun r => bind (k r) f)

/-- `if err := p; err != nil { return wrap err }; q` (e.g. runner.go 189-191) -/
def andThen (p : Prog) (wrap : Err → Err) (q : Prog) : Prog :=
  p.bind fun
    | none => q
    | some e => ret (some (wrap e))

/-- an annotation (marks a place of runner.go, parallel.go 71-358) -/
def note (e : Ev) (p : Prog) : Prog := act (.emit e) (fun _ => p)

end Prog

/-- the shared state of an invocation (runner.go 33-43, runner/parallel.go 34-37) -/
structure Shared where
  /-- parallel.go 34-37 `syncState.state` -/
  status : GoMap Status
  /-- `r.GlobalVars` -/
  gvars : GoMap Str
  /-- the cancelled contexts -/
  cancelled : List Nat
  /-- the number of contexts created so far; number 0 is the caller's -/
  ctxs : Nat
  /-- what has happened so far -/
  trace : List Ev

/-- whether a context is done (`ctx.Err()`, runner.go 225, 530) -/
def Shared.isCancelled (σ : Shared) (c : CtxPath) : Bool := c.any (· ∈ σ.cancelled)

/-- Whether an action can give an answer in a state. `wait` and `tui` can give any answer,
`prompt` any text or an error of its own;
`start` can fail at any time and must fail when the context is done (as for `Act`, runner.go 135-343). -/
def Act.Answers (σ : Shared) : (a : Act) → a.Resp → Prop
  | .claim n, r => r = σ.status.get? n
  | .setDone _, _ => True
  | .status n, r => r = σ.status.get? n
  | .snapshot, r => r = σ.status
  | .globals, r => r = σ.gvars
  | .setGlobal _ _, _ => True
  | .cancelled c, r => r = σ.isCancelled c
  | .newCtx, r => r = σ.ctxs
  | .start c _ _, r => r = true → σ.isCancelled c = false
  | .wait _, _ => True
  | .prompt _ _, r => ∀ e, r = .error e → e = .canceled ∨ ∃ reason, e = .prompt reason
  | .tui, _ => True
  | .emit _, _ => True
  | .fuel, _ => True

/-- the effect of an action on the shared state, apart from the trace (as for `Act`, runner.go 135-343) -/
def Act.effect (σ : Shared) : (a : Act) → a.Resp → Shared
  | .claim n, none => { σ with status := σ.status.set n .running }
  | .claim _, some _ => σ
  | .setDone n, _ => { σ with status := σ.status.set n .done }
  | .setGlobal k v, _ => { σ with gvars := σ.gvars.set k v }
  | .newCtx, _ => { σ with ctxs := σ.ctxs + 1 }
  | .status _, _ => σ
  | .snapshot, _ => σ
  | .globals, _ => σ
  | .cancelled _, _ => σ
  | .start _ _ _, _ => σ
  | .wait _, _ => σ
  | .prompt _ _, _ => σ
  | .tui, _ => σ
  | .emit _, _ => σ
  | .fuel, _ => σ

/-- an action with its answer: effect and trace (as for `Act`, runner.go 135-343) -/
def Act.apply (σ : Shared) (a : Act) (r : a.Resp) : Shared :=
  { a.effect σ r with trace := σ.trace ++ a.evs r }

/-- replace one component (the goroutines of runner/parallel.go 138, 230) -/
def upd {n : Nat} {α : Type} (f : Fin n → α) (i : Fin n) (x : α) : Fin n → α :=
  fun j => if j = i then x else f j

/-- `firstErrOnce.Do(func() { firstErr = ... })` (parallel.go 156-160, 265-269) -/
def once (first r : Option Err) : Option Err :=
  match first with
  | some e => some e
  | none => r

/-- One step of a program. Which goroutine moves and what the outside world answers is arbitrary (runner.go 97-106). -/
inductive Step : Prog → Shared → Prog → Shared → Prop where
  /-- perform the next action -/
  | act {a : Act} {k : a.Resp → Prog} {σ : Shared} (x : a.Resp) (h : a.Answers σ x) :
      Step (.act a k) σ (k x) (a.apply σ x)
  /-- `sem <- struct{}{}` succeeds, or there is no limit (parallel.go 141-143, 238-240) -/
  | acquire {lim ctx t it n st ps k σ} (i : Fin n) (h : st.tag i = .init)
      (hs : lim = 0 ∨ st.held < lim) :
      Step (.par lim ctx t it n st ps k) σ
        (.par lim ctx t it n
          { st with held := if lim = 0 then st.held else st.held + 1, tag := upd st.tag i .running } ps k) σ
  /-- `<-ctx.Done()` while waiting for the semaphore; then `wg.Done()` (parallel.go 144-145, 139;
  241-245, 231) -/
  | abort {lim ctx t it n st ps k σ} (i : Fin n) (h : st.tag i = .init) (hl : lim ≠ 0)
      (hc : σ.isCancelled ctx = true) :
      Step (.par lim ctx t it n st ps k) σ
        (.par lim ctx t it n { st with wg := st.wg - 1, tag := upd st.tag i .done } ps k)
        { σ with trace := σ.trace ++ [.subAbort t it i] }
  /-- a goroutine moves inside `executeRunItem` -/
  | child {lim ctx t it n st ps k σ p' σ'} (i : Fin n) (h : st.tag i = .running)
      (hs : Step (ps i) σ p' σ') :
      Step (.par lim ctx t it n st ps k) σ (.par lim ctx t it n st (upd ps i p') k) σ'
  /-- `executeRunItem` returns and `firstErrOnce` records a failure (parallel.go 153-160, 259-269) -/
  | finish {lim ctx t it n st ps k σ r} (i : Fin n) (h : st.tag i = .running) (hr : ps i = .ret r) :
      Step (.par lim ctx t it n st ps k) σ
        (.par lim ctx t it n { st with first := once st.first r, tag := upd st.tag i .returned } ps k) σ
  /-- the deferred `<-sem` (parallel.go 147, 247) -/
  | release {lim ctx t it n st ps k σ} (i : Fin n) (h : st.tag i = .returned) :
      Step (.par lim ctx t it n st ps k) σ
        (.par lim ctx t it n
          { st with held := if lim = 0 then st.held else st.held - 1, tag := upd st.tag i .released } ps k) σ
  /-- the deferred `wg.Done()` (parallel.go 139, 231) -/
  | wgDone {lim ctx t it n st ps k σ} (i : Fin n) (h : st.tag i = .released) :
      Step (.par lim ctx t it n st ps k) σ
        (.par lim ctx t it n { st with wg := st.wg - 1, tag := upd st.tag i .done } ps k) σ
  /-- `wg.Wait()` returns; the block yields `firstErr` (parallel.go 164-165, 273, 294) -/
  | join {lim ctx t it n st ps k σ} (h : st.wg = 0) :
      Step (.par lim ctx t it n st ps k) σ (k st.first) σ

/-- a program together with the shared state (runner.go 97-106) -/
structure State where
  prog : Prog
  sh : Shared

/-- One step of the whole system: a step of the program, or a cancellation from outside (a signal,
or quitting the parallel view) (main.go 36-42). -/
inductive SysStep : State → State → Prop where
  | prog {p σ p' σ'} (h : Step p σ p' σ') : SysStep ⟨p, σ⟩ ⟨p', σ'⟩
  | cancel {p σ} (id : Nat) (h : id < σ.ctxs) :
      SysStep ⟨p, σ⟩ ⟨p, { σ with cancelled := id :: σ.cancelled, trace := σ.trace ++ [.cancel id] }⟩

/-- the states reachable from a start state (runner.go 97-106) -/
inductive Reach (s : State) : State → Prop where
  | refl : Reach s s
  | step {t u : State} (h : Reach s t) (hs : SysStep t u) : Reach s u

/-- the shared state at the start of an invocation (runner.go 104) -/
def Shared.init (gvars : GoMap Str) : Shared :=
  { status := [], gvars := gvars, cancelled := [], ctxs := 1, trace := [] }

end Bab
