import Verif.Proof.Process
import Verif.Model.Runner

/- C85, C86, C87: the processes behind the commands. -/

namespace Bab

open Proc

namespace Sample

/-- a Unix on which bab is in the group 50 -/
def host : Host := { unix := true, grp := 50 }

/-- the same with Windows -/
def windows : Host := { unix := false, grp := 50 }

/-- something else that runs on the machine -/
def daemon : P := { pid := 1, pgid := 1, cmd := none }

/-- the shell of the only command, and what it has started -/
def shell : P := { pid := 100, pgid := 100, cmd := some 0, pipe := true }
def job : P := { pid := 101, pgid := 100, cmd := some 0, pipe := true }

theorem idle_init : Init { procs := [daemon], cmds := [] } := by
  refine ⟨rfl, rfl, by decide, by decide⟩

theorem fresh_of {h : Host} {os : OS} {pid : Nat} (hg : pid ≠ h.grp) (hq : ∀ q ∈ os.procs, q.pid ≠ pid ∧ q.pgid ≠ pid) :
    Fresh h os pid := ⟨hg, hq⟩

/-- a command whose shell has started a job -/
def busy : OS := { procs := [daemon, shell, job], cmds := [{ pid := 100, piped := true }] }

theorem busy_reach : Reached host busy := by
  have h1 : Reached host { procs := [daemon, shell], cmds := [{ pid := 100, piped := true }] } :=
    .own (.init idle_init) (.start 100 (fresh_of (by decide) (by decide)) true rfl)
  exact .free h1 (.fork shell (by decide) rfl 101 (fresh_of (by decide) (by decide)))

/-- the shell has ended and the job goes on; then the user interrupts bab -/
def left : OS :=
  { procs := [daemon, job], cmds := [{ pid := 100, piped := true, phase := .draining }], done := true }

theorem left_reach : Reached host left := by
  have h1 : Reached host { procs := [daemon, shell.kill, job], cmds := [{ pid := 100, piped := true }] } :=
    .free busy_reach (.exit shell (by decide) rfl)
  have h2 : Reached host { procs := [daemon, job], cmds := [{ pid := 100, piped := true, phase := .reaped }] } :=
    .own h1 (.reap 0 { pid := 100, piped := true } rfl rfl (by decide))
  have h3 : Reached host { procs := [daemon, job], cmds := [{ pid := 100, piped := true, phase := .draining }] } :=
    .own h2 (.ask 0 { pid := 100, piped := true, phase := .reaped } rfl rfl)
  exact .free h3 .interrupt

end Sample

/-! ### C85: an interruption kills the whole command and nothing else -/

/-- C85 on Unix. Once the command has been cancelled no process that comes from it runs any more, now and at any
later time, except for those that have left its process group. -/
theorem C85_all_killed {h : Host} {os : OS} (hr : Reached h os) (hu : h.unix = true) {k : Nat} {c : C}
    (hk : os.cmds[k]? = some c) (ht : c.told = true) :
    ∀ q ∈ os.procs, q.cmd = some k → q.moved = false → q.dead = true := by
  intro q hq hc hm
  obtain ⟨d, hd, hx⟩ := hr.inv.mem q hq k hc
  rw [hk] at hd
  obtain rfl := Option.some.inj hd
  exact (hx hu hm).2 ht

/-- C85. A command that has not been waited for is cancelled without touching anything else: every process that does not
come from the command stays as it was, and bab is not in the group that gets the signal. -/
theorem C85_others_spared {h : Host} {os : OS} (hr : Reached h os) {k : Nat} {c : C} (hk : os.cmds[k]? = some c)
    (hw : c.phase = .waiting) :
    (∀ q ∈ os.procs, q.cmd ≠ some k → q ∈ signalProcessGroup h c.pid os.procs) ∧ c.pid ≠ h.grp := by
  obtain ⟨r, hrm, hp, hc, _⟩ := hr.inv.root k c hk hw
  refine ⟨fun q hq hne => ?_, fun e => (hr.inv.out r hrm (by rw [hc]; simp)).1 (hp.trans e)⟩
  rw [signal_eq]
  refine List.mem_map.2 ⟨q, hq, if_neg fun e => hne ?_⟩
  split at e
  · exact hr.inv.grp k c hk hw q hq e
  · rw [eq_of_pid hr.inv.nodup hq hrm (e.trans hp.symm)]; exact hc

/-- C85. The signal is really sent: the step by which a command is cancelled is possible for every command whose process
has not been waited for, as soon as the context is done. -/
theorem C85_can_cancel {h : Host} {os : OS} {k : Nat} {c : C} (hk : os.cmds[k]? = some c)
    (hd : os.done = true) (hw : c.phase = .waiting) (ht : c.told = false) :
    ∃ os', Own h os os' ∧ ∃ c', os'.cmds[k]? = some c' ∧ c'.told = true :=
  ⟨_, .cancel k c hk hd (.inl hw) ht, _, set_get hk, rfl⟩

/-- The command of the sample is cancelled: shell and job are killed, the other process is not. -/
example : Reached Sample.host Sample.busy ∧ Sample.busy.cmds[0]? = some { pid := 100, piped := true } ∧
    signalProcessGroup Sample.host 100 Sample.busy.procs = [Sample.daemon, Sample.shell.kill, Sample.job.kill] :=
  ⟨Sample.busy_reach, rfl, by decide⟩

/-- C85 fails on Windows: only the shell is killed, what it has started runs on. -/
theorem C85_windows_leaves : ∃ os, Reached Sample.windows os ∧ ∃ c, os.cmds[0]? = some c ∧ c.told = true ∧
    ∃ q ∈ os.procs, q.cmd = some 0 ∧ q.moved = false ∧ q.dead = false := by
  let sh : P := { pid := 100, pgid := 50, cmd := some 0 }
  let jb : P := { pid := 101, pgid := 50, cmd := some 0 }
  have h1 : Reached Sample.windows { procs := [Sample.daemon, sh], cmds := [{ pid := 100, piped := false }] } :=
    .own (.init Sample.idle_init) (.start 100 (Sample.fresh_of (by decide) (by decide)) false rfl)
  have h2 : Reached Sample.windows { procs := [Sample.daemon, sh, jb], cmds := [{ pid := 100, piped := false }] } :=
    .free h1 (.fork sh (by decide) rfl 101 (Sample.fresh_of (by decide) (by decide)))
  have h3 : Reached Sample.windows
      { procs := [Sample.daemon, sh, jb], cmds := [{ pid := 100, piped := false }], done := true } := .free h2 .interrupt
  have h4 : Reached Sample.windows
      { procs := [Sample.daemon, sh.kill, jb], cmds := [{ pid := 100, piped := false, told := true }], done := true } :=
    .own h3 (.cancel 0 { pid := 100, piped := false } rfl rfl (.inl rfl) rfl)
  exact ⟨_, h4, _, rfl, rfl, jb, by decide, rfl, rfl, rfl⟩

/-- C85 fails for a process that has been waited for while the watching goroutine has not been asked: its number may
belong to somebody else by then, who is killed. -/
theorem C85_number_reused : ∃ os os', Reached Sample.host os ∧ Own Sample.host os os' ∧
    ∃ q ∈ os.procs, q.cmd = none ∧ q.dead = false ∧ ∀ q' ∈ os'.procs, q'.pid = q.pid → q'.dead = true := by
  let sh : P := { pid := 100, pgid := 100, cmd := some 0 }
  let other : P := { pid := 100, pgid := 1, cmd := none }
  let own : P := { pid := 100, pgid := 100, cmd := none, moved := true }
  have h1 : Reached Sample.host { procs := [Sample.daemon, sh], cmds := [{ pid := 100, piped := false }] } :=
    .own (.init Sample.idle_init) (.start 100 (Sample.fresh_of (by decide) (by decide)) false rfl)
  have h2 : Reached Sample.host { procs := [Sample.daemon, sh.kill], cmds := [{ pid := 100, piped := false }] } :=
    .free h1 (.exit sh (by decide) rfl)
  have h3 : Reached Sample.host { procs := [Sample.daemon], cmds := [{ pid := 100, piped := false, phase := .reaped }] } :=
    .own h2 (.reap 0 { pid := 100, piped := false } rfl rfl (by decide))
  have h4 : Reached Sample.host
      { procs := [Sample.daemon, other], cmds := [{ pid := 100, piped := false, phase := .reaped }] } :=
    .free h3 (.fork Sample.daemon (by decide) rfl 100 (Sample.fresh_of (by decide) (by decide)))
  have h5 : Reached Sample.host
      { procs := [Sample.daemon, own], cmds := [{ pid := 100, piped := false, phase := .reaped }] } :=
    .free h4 (.regroup other (by decide) rfl)
  have h6 : Reached Sample.host
      { procs := [Sample.daemon, own], cmds := [{ pid := 100, piped := false, phase := .reaped }], done := true } :=
    .free h5 .interrupt
  have h7 : Own Sample.host
      { procs := [Sample.daemon, own], cmds := [{ pid := 100, piped := false, phase := .reaped }], done := true }
      { procs := [Sample.daemon, own.kill],
        cmds := [{ pid := 100, piped := false, phase := .reaped, told := true }], done := true } :=
    .cancel 0 { pid := 100, piped := false, phase := .reaped } rfl rfl (.inr rfl) rfl
  exact ⟨_, _, h6, h7, own, by decide, rfl, rfl, by decide⟩

/-! ### C86: a command can read what the user types -/

/-- C86 fails on Unix, for every command and every process it starts: reading from the terminal stops the process. -/
theorem C86_reading_stops {h : Host} {os : OS} (hr : Reached h os) (hu : h.unix = true) {q : P} (hq : q ∈ os.procs)
    (hc : q.cmd ≠ none) : (ttyRead h q).2 = false ∧ (ttyRead h q).1.stopped = true := by
  unfold ttyRead
  rw [if_neg ((hr.inv.out q hq hc).2 hu)]
  exact ⟨rfl, rfl⟩

/-- C86, the part that holds: where no process group is made (Windows), a process of a command gets the input, unless it
has left the group of bab on its own account. Missing: Unix, where it fails. -/
theorem C86_input_partial {h : Host} {os : OS} (hr : Reached h os) (hu : h.unix = false) {q : P} (hq : q ∈ os.procs)
    (hc : q.cmd ≠ none) (hm : q.moved = false) : ttyRead h q = (q, true) := by
  unfold ttyRead
  rw [if_pos (hr.inv.win hu q hq hc hm)]

/-- Both shell and job of the sample are stopped when they read. -/
example : Sample.shell ∈ Sample.busy.procs ∧ Sample.shell.cmd ≠ none ∧
    ttyRead Sample.host Sample.shell = ({ Sample.shell with stopped := true }, false) := by decide

/-- And on Windows the shell gets what is typed. -/
example : Reached Sample.windows
      { procs := [Sample.daemon, { pid := 100, pgid := 50, cmd := some 0 }], cmds := [{ pid := 100, piped := false }] } ∧
    ttyRead Sample.windows { pid := 100, pgid := 50, cmd := some 0 } = ({ pid := 100, pgid := 50, cmd := some 0 }, true) :=
  ⟨.own (.init Sample.idle_init) (.start 100 (Sample.fresh_of (by decide) (by decide)) false rfl), by decide⟩

/-! ### C87: an interrupted invocation ends -/

/-- C87 fails: the shell of a command has ended and has left a process in the background, which holds the pipe. When bab
is interrupted now it does not end, and there is nothing it can do. -/
theorem C87_background_blocks : ∃ os, Reached Sample.host os ∧ os.done = true ∧
    (∃ c ∈ os.cmds, c.phase ≠ .returned) ∧ ∀ os', ¬ Own Sample.host os os' := by
  refine ⟨Sample.left, Sample.left_reach, rfl, ⟨_, List.mem_singleton.2 rfl, by simp⟩, ?_⟩
  have one : ∀ k c, Sample.left.cmds[k]? = some c → k = 0 ∧ c = { pid := 100, piped := true, phase := .draining } := by
    intro k c hk
    cases k with
    | zero => exact ⟨rfl, (Option.some.inj hk).symm⟩
    | succ k => simp [Sample.left] at hk
  intro os' hs
  cases hs with
  | start pid hf pip hd => cases hd
  | cancel k c hk _ hp _ => obtain ⟨rfl, rfl⟩ := one k c hk; simp at hp
  | reap k c hk hp _ => obtain ⟨rfl, rfl⟩ := one k c hk; simp at hp
  | ask k c hk hp => obtain ⟨rfl, rfl⟩ := one k c hk; simp at hp
  | ret k c hk _ hd =>
    obtain ⟨rfl, rfl⟩ := one k c hk
    exact absurd (hd rfl Sample.job (by decide) rfl) (by decide)

/-- C87, the part that holds, on Unix: an interrupted invocation gets to the end of all its commands by itself, whatever
they do, provided that no process holds the pipe of a command whose group it has left or whose shell has ended. Missing:
the processes that do; there it fails. -/
theorem C87_ends_partial {h : Host} {os : OS} (hr : Reached h os) (hu : h.unix = true) (hd : os.done = true)
    (hp : ∀ k c, os.cmds[k]? = some c → c.piped = true → ∀ q ∈ os.procs, q.cmd = some k →
      (q.moved = true ∨ c.phase ≠ .waiting) → q.pipe = false) :
    ∃ os', Owns h os os' ∧ os'.cmds.length = os.cmds.length ∧ ∀ c ∈ os'.cmds, c.phase = .returned := by
  obtain ⟨os', h1, _, h3, _, h5, _⟩ := finish_all hr hu hd hp os.cmds.length (Nat.le_refl _)
  refine ⟨os', h1, h3, fun c hc => ?_⟩
  obtain ⟨k, hk⟩ := List.getElem?_of_mem hc
  exact h5 k c (h3 ▸ (List.getElem?_eq_some_iff.1 hk).1) hk

/-- C87: which commands are affected. The output of a command comes through a pipe exactly if it runs in a parallel
block or its output is not shown. -/
theorem C87_piped_iff (c : Cfg) (fr : Frame) (T : Task) (v : CommandRun) (text : Str) (env : GoMap Str) (dir : Str) :
    piped (procSpec c fr T v text env dir) = true ↔
      fr.out ≠ none ∨ isOutput [v.output, fr.ovOutput, T.output, c.globalOutput] = false := by
  unfold piped procSpec
  cases fr.out <;> cases isOutput [v.output, fr.ovOutput, T.output, c.globalOutput] <;> simp

/-- C87 for the others: where no output comes through a pipe, an interrupted invocation gets to the end by itself
whatever the commands have done and whatever they have left in the background. -/
theorem C87_ends_unpiped {h : Host} {os : OS} (hr : Reached h os) (hu : h.unix = true) (hd : os.done = true)
    (hp : ∀ c ∈ os.cmds, c.piped = false) :
    ∃ os', Owns h os os' ∧ os'.cmds.length = os.cmds.length ∧ ∀ c ∈ os'.cmds, c.phase = .returned :=
  C87_ends_partial hr hu hd fun k c hk hpi => by rw [hp c (List.mem_of_getElem? hk)] at hpi; cases hpi

/-- A command that writes to the terminal and leaves a job behind that is not in its group. -/
example : ∃ os, Reached Sample.host os ∧ os.done = true ∧ (∀ c ∈ os.cmds, c.piped = false ∧ c.phase = .waiting) ∧
    ∃ q ∈ os.procs, q.cmd = some 0 ∧ q.moved = true := by
  have h1 : Reached Sample.host
      { procs := [Sample.daemon, { pid := 100, pgid := 100, cmd := some 0 }], cmds := [{ pid := 100, piped := false }] } :=
    .own (.init Sample.idle_init) (.start 100 (Sample.fresh_of (by decide) (by decide)) false rfl)
  have h2 := Reached.free h1 (.fork { pid := 100, pgid := 100, cmd := some 0 } (by decide) rfl 101
    (Sample.fresh_of (by decide) (by decide)))
  have h3 := Reached.free h2 (.regroup { pid := 101, pgid := 100, cmd := some 0 } (by decide) rfl)
  exact ⟨_, h3.free .interrupt, rfl, by decide, { pid := 101, pgid := 101, cmd := some 0, moved := true }, by decide, rfl, rfl⟩

/-- The command of the sample is interrupted while its shell and its job hold the pipe; it satisfies the condition. -/
example : Reached Sample.host { Sample.busy with done := true } ∧
    ∃ os', Owns Sample.host { Sample.busy with done := true } os' ∧ ∀ c ∈ os'.cmds, c.phase = .returned := by
  have hr : Reached Sample.host { Sample.busy with done := true } := .free Sample.busy_reach .interrupt
  refine ⟨hr, ?_⟩
  obtain ⟨os', h1, _, h3⟩ := C87_ends_partial hr rfl rfl (by
    intro k c hk _ q hq _ hm
    cases k with
    | zero =>
      obtain rfl := Option.some.inj hk
      simp only [Sample.busy, List.mem_cons, List.not_mem_nil, or_false] at hq
      rcases hq with rfl | rfl | rfl <;> simp [Sample.daemon, Sample.shell, Sample.job] at hm
    | succ k => simp [Sample.busy] at hk)
  exact ⟨os', h1, h3⟩

end Bab
