import Verif.Proof.VeilRun
import Verif.Proof.Sample
/-
C121: `output` and `color` only decide where output goes and how it looks.
-/

namespace Bab
open Spec

section
variable {c c' : Cfg} {tasks tasks' : TaskMap} {g : GoMap Str} {main : Str} {s : State}

/-- **C121** If two Babfiles differ only in the settings `output` and `color`, wherever they are, and in descriptions, then whatever can happen with one of them can happen
with the other one, step by step and with the same result; only the places the output of commands goes to and their input comes from,
and the variables about colours, can differ. -/
theorem C121_output (hu : UpToOutput c c' tasks tasks') (h : Reach (start c tasks g main) s) :
    ∃ s', Reach (start c' tasks' g main) s' ∧ s'.sh.trace.map (veiled c.environ) = s.sh.trace.map (veiled c.environ) ∧
      s'.sh.gvars = s.sh.gvars ∧ s'.sh.status = s.sh.status ∧ ∀ r, s.prog = .ret r ↔ s'.prog = .ret r := by
  obtain ⟨h1, h2⟩ := hu
  have he : c'.environ = c.environ := (congrArg Cfg.environ h1).symm
  obtain ⟨-, -, q⟩ := Veil.start_q (c := c) (tasks := tasks) g main
  obtain ⟨-, -, q'⟩ := Veil.start_q (c := c') (tasks := tasks') g main
  rw [h1, h2] at q
  rw [he] at q'
  obtain ⟨u, k1, k2, k3⟩ := Veil.reach_forth q h
  obtain ⟨v, l1, l2, l3⟩ := Veil.reach_forth q'.symm k1
  refine ⟨v, l1, (k3.trace.trans l3.trace).symm, (k3.gvars.trans l3.gvars).symm, (k3.status.trans l3.status).symm, fun r => ?_⟩
  generalize u.prog = x at k2 l2
  constructor
  · intro hr
    rw [hr] at k2
    cases k2
    generalize v.prog = y at l2
    cases l2
    rfl
  · intro hr
    rw [hr] at l2
    cases l2
    generalize s.prog = y at k2
    cases k2
    rfl

/-- the commands started so far: place, text and directory -/
def Spec.ranThere (t : List Ev) : List (Loc × Str × Str) := t.filterMap fun | .procStart loc p => some (loc, p.cmd, p.dir) | _ => none

theorem ranThere_veiled (E : List (Str × Str)) (t : List Ev) : ranThere (t.map (veiled E)) = ranThere t := by
  induction t with
  | nil => rfl
  | cons e t ih =>
    unfold ranThere at ih ⊢
    cases e <;> simp [veiled, hidden, ih]

/-- **C121** In particular the same commands are run in the same directories in the same order. -/
theorem C121_commands (hu : UpToOutput c c' tasks tasks') (h : Reach (start c tasks g main) s) :
    ∃ s', Reach (start c' tasks' g main) s' ∧ ranThere s'.sh.trace = ranThere s.sh.trace ∧ ∀ r, s.prog = .ret r ↔ s'.prog = .ret r := by
  obtain ⟨s', h1, h2, -, -, h3⟩ := C121_output hu h
  exact ⟨s', h1, by rw [← ranThere_veiled c.environ, h2, ranThere_veiled], h3⟩

end

namespace Sample

/-- the settings `output` and `color` and descriptions at all places, or nowhere -/
def veiledAt (b : Option Bool) : TaskMap :=
  [(s "t", { name := s "t", desc := if b = none then [] else s "about", output := b, deps := [s "u"], run := [.command { cmd := s "ls", output := b }, .task { task := s "v", output := b },
      .parallel [.command { cmd := s "a", output := b }, .log { log := s "hi" }] [] .interleaved 0 b none b [] [] 0] }),
   (s "u", { name := s "u", run := [cmd "make"] }), (s "v", { name := s "v", output := b, run := [cmd "test"] })]

/-- where the output of the commands went, and whether they could read -/
def outputs (x : State) : List (OutTo × Bool) := x.sh.trace.filterMap fun | .procStart _ p => some (p.out, p.stdin) | _ => none

end Sample
open Sample

example : UpToOutput {} { globalOutput := some true } (veiledAt none) (veiledAt (some false)) := ⟨rfl, rfl⟩

/-- the output is discarded in one case (and nothing can be read); the rest is the same -/
example : (outputs (Exec.drive [.auto 400] (start {} (veiledAt none) [] (s "t")))).length = 4 ∧
    outputs (Exec.drive [.auto 400] (start { globalOutput := some true } (veiledAt (some false)) [] (s "t"))) =
      [(.terminal, true), (.discard, false), (.discard, false), (.discard, false)] ∧
    (outputs (Exec.drive [.auto 400] (start {} (veiledAt none) [] (s "t")))).take 3 = [(.terminal, true), (.terminal, true), (.terminal, true)] ∧
    (Exec.drive [.auto 400] (start {} (veiledAt none) [] (s "t"))).sh.trace.map (veiled []) =
      (Exec.drive [.auto 400] (start { globalOutput := some true } (veiledAt (some false)) [] (s "t"))).sh.trace.map (veiled []) ∧
    (ranThere (Exec.drive [.auto 400] (start {} (veiledAt none) [] (s "t"))).sh.trace).map (·.2.1) = [s "make", s "ls", s "test", s "a"] := by
  decide +kernel

/-- **C121** (finding 68) A command whose output is not wanted cannot read what the user types either: the same task, with and without
`output: false`. -/
theorem C121_input_lost : ∃ tasks tasks' : TaskMap, UpToOutput {} {} tasks tasks' ∧
    outputs (Exec.drive [.auto 100] (start {} tasks [] (s "t"))) = [(.terminal, true)] ∧
    outputs (Exec.drive [.auto 100] (start {} tasks' [] (s "t"))) = [(.discard, false)] :=
  ⟨[(s "t", { name := s "t", run := [.command { cmd := s "read x" }] })],
   [(s "t", { name := s "t", run := [.command { cmd := s "read x", output := some false }] })], ⟨rfl, rfl⟩, by decide +kernel⟩

end Bab
