import Verif.Spec.Runner
/-
C71: through which writers a task and its items write, according to the definitions.
-/

namespace Bab.Spec

/-- the writers of the item `j` of a block whose task writes through `o` -/
inductive InBlock (tty : Bool) (mode : ParallelMode) : Option Sink → Nat → Sink → Prop
  /-- the block starts a view of its own -/
  | view {j : Nat} (ht : tty = true) (hm : mode ≠ .interleaved) : InBlock tty mode none j ⟨[j], []⟩
  /-- the item is shown in the running view, below the item around it -/
  | below {key : List Nat} {j : Nat} (ht : tty = true) (hm : mode ≠ .interleaved) : InBlock tty mode (some ⟨key, []⟩) j ⟨key ++ [j], []⟩
  /-- lines with the label in front, on the terminal -/
  | lines {j : Nat} (h : tty = false ∨ mode = .interleaved) : InBlock tty mode none j ⟨[], [j]⟩
  /-- lines with the label in front, written to where the block itself writes: there is no view, or the block does not want
  one, or it is inside of a block that writes lines -/
  | within {key prefixes : List Nat} {j : Nat} (h : tty = false ∨ mode = .interleaved ∨ prefixes ≠ []) :
      InBlock tty mode (some ⟨key, prefixes⟩) j ⟨key, prefixes ++ [j]⟩

/-- the task can be run with these writers -/
inductive Writes (c : Cfg) (tasks : TaskMap) (main : Str) : Str → Option Sink → Prop
  | main : Writes c tasks main main none
  | dep {n o T d} (h : Writes c tasks main n o) (hT : tasks.get? n = some T) (hd : d ∈ T.deps) : Writes c tasks main d o
  | call {n o T} {t : TaskRun} (h : Writes c tasks main n o) (hT : tasks.get? n = some T) (hi : .task t ∈ T.run) :
      Writes c tasks main t.task o
  | item {n o T items labels mode lim color bs bo pl w ln} {t : TaskRun} {j : Nat} {s : Sink} (h : Writes c tasks main n o)
      (hT : tasks.get? n = some T) (hi : .parallel items labels mode lim color bs bo pl w ln ∈ T.run) (hj : items[j]? = some (.task t))
      (hs : InBlock c.stderrTTY mode o j s) : Writes c tasks main t.task (some s)
  | ahead {n o T items labels mode lim color bs bo pl w ln T' d} {t : TaskRun} (h : Writes c tasks main n o) (hT : tasks.get? n = some T)
      (hi : .parallel items labels mode lim color bs bo pl w ln ∈ T.run) (ht : .task t ∈ items) (hT' : tasks.get? t.task = some T')
      (hd : d ∈ T'.deps) : Writes c tasks main d o

/-- the writers of the item at a place, when its task writes through `o` -/
inductive At (c : Cfg) (tasks : TaskMap) : Loc → Option Sink → Option Sink → Prop
  | own {n i o} : At c tasks ⟨n, i, none⟩ o o
  | item {n i j o T items labels mode lim color bs bo pl w ln s} (hT : tasks.get? n = some T)
      (hi : T.run[i]? = some (.parallel items labels mode lim color bs bo pl w ln)) (hs : InBlock c.stderrTTY mode o j s) :
      At c tasks ⟨n, i, some j⟩ o (some s)

/-- the task of this place runs with a call with these writers -/
def Runs (S : List Ev) (n : Str) (o : Option Sink) : Prop := ∃ g m call, .taskVars n g m call ∈ S ∧ call.out = o

/-- what an event says about where something is written is right when the events `S` have happened -/
def Placed (c : Cfg) (tasks : TaskMap) (main : Str) (S : List Ev) : Ev → Prop
  | .echoTask n b o => Writes c tasks main n o ∧ (b = true → n = main ∧ o = none)
  | .taskVars n _ _ call => Writes c tasks main n call.out ∧
      ∀ T, tasks.get? n = some T → c.dry = false → isSilent [call.silent, T.silent, c.globalSilent] = false → ∃ b, .echoTask n b call.out ∈ S
  | .echoCmd loc _ s => ∃ o, Runs S loc.task o ∧ At c tasks loc o s
  | .logged loc _ _ s => ∃ o, Runs S loc.task o ∧ At c tasks loc o s
  | .procStart loc spec => ∃ o s, Runs S loc.task o ∧ At c tasks loc o s ∧
      (spec.out = .discard ∨ spec.out = s.elim .terminal .sink) ∧ (spec.stdin = true → s = none ∧ spec.out = .terminal)
  | .tuiStart _ => c.stderrTTY = true ∧ ∃ n T items labels mode lim color bs bo pl w ln, Runs S n none ∧ tasks.get? n = some T ∧
      .parallel items labels mode lim color bs bo pl w ln ∈ T.run ∧ mode ≠ .interleaved
  | .parBegin n i _ => ∃ o, Runs S n o ∧ (c.stderrTTY = true → o = none → ∀ T items labels mode lim color bs bo pl w ln, tasks.get? n = some T →
      T.run[i]? = some (.parallel items labels mode lim color bs bo pl w ln) → mode ≠ .interleaved → .tuiStart true ∈ S)
  | _ => True

end Bab.Spec
