import Verif.Model.Prog
/-
Model of the processes behind the commands: internal/runner/process_unix.go, process_windows.go and the way
`runCommandWithWriters` (runner.go 487-535) uses `exec.CommandContext`.

What is not code of bab is modelled as the documentation of POSIX (fork, setpgid, kill, waitpid, job control of
terminals) and of the package os/exec says:
* a new process inherits the process group of its parent and its open files; its id is not the id of a process or
  of a process group that exists (a process that has exited exists until it has been waited for);
* a process may change to a process group of its own (`setpgid(0, 0)`, `setsid`); joining the group of another
  process is left out;
* a process that reads from its terminal while its group is not the foreground group of the terminal is stopped
  (SIGTTIN);
* `Cmd.Run` starts the process, waits for it, then asks the goroutine that watches the context, and finally waits
  for the goroutines that copy the output, if there are any; there are some exactly if the writer is not a file.
  While the watching goroutine has not been asked it calls `Cmd.Cancel` when the context is done. `WaitDelay` is not
  set, so there is no time limit.
-/

namespace Bab.Proc

/-- a process on the machine, other than bab (those of runner.go 488 and all they start) -/
structure P where
  pid : Nat
  pgid : Nat
  /-- the command of bab it comes from, if any -/
  cmd : Option Nat
  /-- it or an ancestor has changed to a process group of its own -/
  moved : Bool := false
  stopped : Bool := false
  /-- it has exited but has not been waited for -/
  dead : Bool := false
  /-- it holds the pipe through which its command writes -/
  pipe : Bool := false
  deriving DecidableEq, Repr

/-- how far `cmd.Run()` has got (runner.go 529): it waits for the process; it has; the watching goroutine has been
asked; it has returned -/
inductive Phase
  | waiting | reaped | draining | returned
  deriving DecidableEq, Repr

/-- an `exec.Cmd` that has been started (runner.go 488-529) -/
structure C where
  /-- `cmd.Process.Pid` -/
  pid : Nat
  /-- whether the output is copied from a pipe: the writer is not a file (runner.go 496-505) -/
  piped : Bool
  phase : Phase := .waiting
  /-- whether `cmd.Cancel` has been called -/
  told : Bool := false
  deriving DecidableEq, Repr

/-- the machine, seen from one invocation (runner.go 487-535) -/
structure OS where
  procs : List P
  cmds : List C
  /-- whether the context is done -/
  done : Bool := false
  deriving DecidableEq, Repr

/-- the machine an invocation runs on: whether it is a Unix (which of process_unix.go and process_windows.go is
compiled), and the process group of bab -/
structure Host where
  unix : Bool
  grp : Nat

/-- process_unix.go 12-14, process_windows.go 10-12 `sysProcAttr`: whether `Setpgid` is set -/
def sysProcAttr (h : Host) : Bool := h.unix

/-- the group of a process started by bab: with `Setpgid` a new one with the id of the process (runner.go 489) -/
def newGroup (h : Host) (pid : Nat) : Nat := if sysProcAttr h then pid else h.grp

/-- a process is killed (process_unix.go 20) -/
def P.kill (p : P) : P := { p with dead := true, stopped := false, pipe := false }

/-- process_unix.go 16-25, process_windows.go 14-19 `signalProcessGroup`. On Unix the signal goes to the group with
the number `-cmd.Process.Pid`; that there is none is not an error. `cmd.Process` is set, since the process has been
started. -/
def signalProcessGroup (h : Host) (pid : Nat) (procs : List P) : List P :=
  if h.unix then procs.map fun p => if p.pgid = pid then p.kill else p
  else procs.map fun p => if p.pid = pid then p.kill else p

/-- what a read from the terminal does to a process, and whether it gets input. The foreground group of the terminal is
the group of bab: the shell puts the job it starts there (for `cmd.Stdin = os.Stdin`, runner.go 506-508). -/
def ttyRead (h : Host) (p : P) : P × Bool :=
  if p.pgid = h.grp then (p, true) else ({ p with stopped := true }, false)

/-- the process with this id, changed (used for the steps below, runner.go 529) -/
def update (procs : List P) (pid : Nat) (f : P → P) : List P := procs.map fun p => if p.pid = pid then f p else p

/-- an id the system may give to a new process (runner.go 529) -/
def Fresh (h : Host) (os : OS) (pid : Nat) : Prop := pid ≠ h.grp ∧ ∀ q ∈ os.procs, q.pid ≠ pid ∧ q.pgid ≠ pid

/-- a process changes to a group of its own; the leader of a group is in it already (see the head of this file; nothing in
runner.go does this, a command may) -/
def P.regroup (p : P) : P := if p.pgid = p.pid then p else { p with pgid := p.pid, moved := true }

/-- what the processes on the machine do on their own, and the user who interrupts bab (main.go 36-42) -/
inductive Free (h : Host) : OS → OS → Prop
  | fork {os : OS} (p : P) (hp : p ∈ os.procs) (hd : p.dead = false) (pid : Nat) (hf : Fresh h os pid) :
      Free h os { os with procs := os.procs ++ [{ p with pid := pid, stopped := false }] }
  | regroup {os : OS} (p : P) (hp : p ∈ os.procs) (hd : p.dead = false) :
      Free h os { os with procs := update os.procs p.pid P.regroup }
  | close {os : OS} (p : P) (hp : p ∈ os.procs) :
      Free h os { os with procs := update os.procs p.pid fun q => { q with pipe := false } }
  | read {os : OS} (p : P) (hp : p ∈ os.procs) (hd : p.dead = false) :
      Free h os { os with procs := update os.procs p.pid fun q => (ttyRead h q).1 }
  | cont {os : OS} (p : P) (hp : p ∈ os.procs) :
      Free h os { os with procs := update os.procs p.pid fun q => { q with stopped := false } }
  | exit {os : OS} (p : P) (hp : p ∈ os.procs) (hs : p.stopped = false) :
      Free h os { os with procs := update os.procs p.pid P.kill }
  /-- a process that has exited is waited for by its parent; bab waits for its own children only -/
  | gone {os : OS} (p : P) (hp : p ∈ os.procs) (hd : p.dead = true)
      (hr : ∀ c ∈ os.cmds, c.phase = .waiting → c.pid ≠ p.pid) :
      Free h os { os with procs := os.procs.filter fun q => q.pid ≠ p.pid }
  | interrupt {os : OS} : Free h os { os with done := true }

/-- what bab does (runner.go 488-529 with os/exec) -/
inductive Own (h : Host) : OS → OS → Prop
  /-- `cmd.Start` (it fails if the context is done) -/
  | start {os : OS} (pid : Nat) (hf : Fresh h os pid) (piped : Bool) (hd : os.done = false) :
      Own h os { os with
        procs := os.procs ++ [{ pid := pid, pgid := newGroup h pid, cmd := some os.cmds.length, pipe := piped }]
        cmds := os.cmds ++ [{ pid := pid, piped := piped }] }
  /-- the watching goroutine calls `cmd.Cancel` -/
  | cancel {os : OS} (k : Nat) (c : C) (hk : os.cmds[k]? = some c) (hd : os.done = true)
      (hp : c.phase = .waiting ∨ c.phase = .reaped) (ht : c.told = false) :
      Own h os { os with procs := signalProcessGroup h c.pid os.procs, cmds := os.cmds.set k { c with told := true } }
  /-- the process has exited and is waited for -/
  | reap {os : OS} (k : Nat) (c : C) (hk : os.cmds[k]? = some c) (hp : c.phase = .waiting)
      (hd : ∀ q ∈ os.procs, q.pid = c.pid → q.dead = true) :
      Own h os { os with procs := os.procs.filter (fun q => q.pid ≠ c.pid), cmds := os.cmds.set k { c with phase := .reaped } }
  /-- the watching goroutine is asked and ends -/
  | ask {os : OS} (k : Nat) (c : C) (hk : os.cmds[k]? = some c) (hp : c.phase = .reaped) :
      Own h os { os with cmds := os.cmds.set k { c with phase := .draining } }
  /-- the pipe, if any, has been closed by all who held it -/
  | ret {os : OS} (k : Nat) (c : C) (hk : os.cmds[k]? = some c) (hp : c.phase = .draining)
      (hd : c.piped = true → ∀ q ∈ os.procs, q.cmd = some k → q.pipe = false) :
      Own h os { os with cmds := os.cmds.set k { c with phase := .returned } }

/-- the states in which an invocation begins: bab has started nothing yet (main.go 28-42) -/
def Init (os : OS) : Prop :=
  os.cmds = [] ∧ os.done = false ∧ (os.procs.map P.pid).Nodup ∧ ∀ q ∈ os.procs, q.cmd = none ∧ q.pipe = false

/-- the states that can be reached (runner.go 487-535) -/
inductive Reached (h : Host) : OS → Prop
  | init {os : OS} (hi : Init os) : Reached h os
  | free {os os' : OS} (hr : Reached h os) (hs : Free h os os') : Reached h os'
  | own {os os' : OS} (hr : Reached h os) (hs : Own h os os') : Reached h os'

/-- whether the output of a command is copied from a pipe: everything but the terminal is no file
(runner.go 321-341, 496-505) -/
def piped (spec : ProcSpec) : Bool := spec.out ≠ .terminal

end Bab.Proc
