import Verif.Proof.SilentRun
import Verif.Proof.Sample
/-
C120: `silent` only silences.
-/

namespace Bab
open Spec

section
variable {c c' : Cfg} {tasks tasks' : TaskMap} {g : GoMap Str} {main : Str} {s : State}

/-- **C120** If two Babfiles differ only in the settings `silent`, wherever they are, then whatever can happen with one of them can happen
with the other one, in the same order and with the same result, apart from announcements of tasks and commands. -/
theorem C120_silent (hu : UpToSilent c c' tasks tasks') (h : Reach (start c tasks g main) s) :
    ∃ s', Reach (start c' tasks' g main) s' ∧ besides s'.sh.trace = besides s.sh.trace ∧ ∀ r, s.prog = .ret r → s'.prog = .ret r := by
  obtain ⟨h1, h2⟩ := hu
  obtain ⟨-, -, q⟩ := Silent.start_q (c := c) (tasks := tasks) g main
  obtain ⟨-, -, q'⟩ := Silent.start_q (c := c') (tasks := tasks') g main
  rw [h1, h2] at q
  obtain ⟨u, k1, k2, k3⟩ := Silent.reach_forth q h
  obtain ⟨v, l1, l2, l3⟩ := Silent.reach_back q' k1
  have ht : besides v.sh.trace = besides s.sh.trace := l3.trace.trans k3.trace.symm
  by_cases hr : ∃ r, s.prog = .ret r
  · obtain ⟨r, hr⟩ := hr
    rw [hr] at k2
    have hu : u.prog = .ret r := by
      generalize u.prog = x at k2
      cases k2
      rfl
    rw [hu] at l2
    obtain ⟨σ', m1, m2⟩ := Silent.drain l2 l3
    refine ⟨⟨.ret r, σ'⟩, m1.reach l1, m2.trace.trans k3.trace.symm, fun r' hr' => ?_⟩
    rw [hr] at hr'
    cases hr'
    rfl
  · exact ⟨v, l1, ht, fun r h => absurd ⟨r, h⟩ hr⟩

/-- the processes that were started, with all that is handed to the operating system, how they ended, the answers to prompts and the
messages, in order -/
def Spec.outside (t : List Ev) : List Ev := t.filter fun
  | .procStart _ _ => true
  | .procEnd _ _ => true
  | .procFail _ => true
  | .answered _ _ _ => true
  | .logged _ _ _ _ => true
  | _ => false

theorem outside_besides (t : List Ev) : outside (besides t) = outside t := by
  induction t with
  | nil => rfl
  | cons e t ih =>
    unfold outside besides at ih ⊢
    cases e <;> simp [List.filterMap_cons, unsaid, ih]

/-- **C120** In particular the same processes are started, with the same environment, directory, input and output, in the same order. -/
theorem C120_processes (hu : UpToSilent c c' tasks tasks') (h : Reach (start c tasks g main) s) :
    ∃ s', Reach (start c' tasks' g main) s' ∧ outside s'.sh.trace = outside s.sh.trace ∧ ∀ r, s.prog = .ret r → s'.prog = .ret r := by
  obtain ⟨s', h1, h2, h3⟩ := C120_silent hu h
  exact ⟨s', h1, by rw [← outside_besides, h2, outside_besides], h3⟩

end

namespace Sample

/-- the settings `silent` at all places, or nowhere -/
def muted (b : Option Bool) : TaskMap :=
  [(s "t", { name := s "t", silent := b, deps := [s "u"], run := [.command { cmd := s "ls", silent := b }, .task { task := s "v", silent := b },
      .parallel [.command { cmd := s "a", silent := b }, .log { log := s "hi" }] [] .interleaved 0 none b none [] [] 0] }),
   (s "u", { name := s "u", run := [cmd "make"] }), (s "v", { name := s "v", silent := b, run := [cmd "test"] })]

def announcedBy (x : State) : Nat := x.sh.trace.countP fun | .echoTask _ _ _ => true | .echoCmd _ _ _ => true | _ => false

end Sample
open Sample

example : UpToSilent {} { globalSilent := some false } (muted none) (muted (some true)) := ⟨rfl, rfl⟩

/-- much is announced in one case and less in the other one; the rest is the same -/
example : announcedBy (Exec.drive [.auto 400] (start {} (muted none) [] (s "t"))) = 7 ∧
    announcedBy (Exec.drive [.auto 400] (start { globalSilent := some false } (muted (some true)) [] (s "t"))) = 2 ∧
    besides (Exec.drive [.auto 400] (start {} (muted none) [] (s "t"))).sh.trace =
      besides (Exec.drive [.auto 400] (start { globalSilent := some false } (muted (some true)) [] (s "t"))).sh.trace ∧
    (outside (Exec.drive [.auto 400] (start {} (muted none) [] (s "t"))).sh.trace).length = 9 := by
  decide +kernel

end Bab
