import Verif.Proof.Sim
import Verif.Proof.Chain
import Verif.Proof.Sample
/-
C62: a run is confined to what the requested task needs.
-/

namespace Bab
open Spec

section
variable {c : Cfg} {tasks tasks' : TaskMap} {gvars : GoMap Str} {main : Str}

namespace Sim

theorem needs_closed {n d : Str} {T : Task} (h : Needs tasks main n) (hT : tasks.get? n = some T)
    (hd : d ∈ T.deps ∨ CallsIn d T.run) : Needs tasks main d := by
  right
  rcases h with rfl | h
  · exact .one ⟨T, hT, hd⟩
  · induction h with
    | one h => exact .more h (.one ⟨T, hT, hd⟩)
    | more h _ ih => exact .more h (ih hT)

theorem runTask {good : Str → Prop} (hag : ∀ n, good n → tasks.get? n = tasks'.get? n)
    (hcl : ∀ n T d, good n → tasks.get? n = some T → d ∈ T.deps ∨ CallsIn d T.run → good d) (f f' : Nat) :
    RecRel good (Bab.runTask c tasks f) (Bab.runTask c tasks' f') := by
  induction f generalizing f' with
  | zero => intro fr b n hn; exact .left
  | succ f ih =>
    intro fr b n hn
    cases f' with
    | zero => exact .right
    | succ f' =>
      unfold Bab.runTask
      refine .act _ ?_ fun s => ?_
      · intro x e he
        cases x with
        | none => simp only [Act.evs, List.mem_singleton] at he; subst he; exact on_of rfl hn
        | some s => simp [Act.evs] at he
      · cases s with
        | none => exact bind (runTaskBody (ih f') hag hcl hn) fun r => note (on_of rfl hn) (.ret _)
        | some s =>
          cases s with
          | done => exact .ret _
          | running =>
            refine silent (fun _ => rfl) fun st => ?_
            have hb : buildChain n tasks st = buildChain n tasks' st :=
              Chain.build_same hag (fun n T d h1 h2 h3 => hcl n T d h1 h2 (Or.inl h3)) hn
            exact hb ▸ .ret _

/-- the invocations for two task maps that agree on what is needed proceed in the same way -/
theorem reach (hs : SameFor main tasks tasks') {s : State} (h : Reach (start c tasks gvars main) s) :
    ∃ q, Reach (start c tasks' gvars main) ⟨q, s.sh⟩ ∧ Rel (On (Needs tasks main)) s.prog q ∧
      ∀ e ∈ s.sh.trace, On (Needs tasks main) e := by
  induction h with
  | refl =>
    exact ⟨_, .refl, runTask hs (fun n T d h1 h2 h3 => needs_closed h1 h2 h3) _ _ _ _ _ (Or.inl rfl),
      by simp [start, Shared.init]⟩
  | @step t u ht hstep ih =>
    obtain ⟨q, h1, h2, h3⟩ := ih
    cases hstep with
    | @prog p σ p' σ' hst =>
      obtain ⟨q', k1, k2, es, k3, k4⟩ := step h2 hst (reach_not_pending ht) (reach_not_pending h1)
      refine ⟨q', .step h1 (.prog k1), k2, ?_⟩
      intro e he
      simp only [k3, List.mem_append] at he
      rcases he with he | he
      · exact h3 e he
      · exact k4 e he
    | @cancel p σ id hid =>
      refine ⟨q, .step h1 (.cancel id hid), h2, ?_⟩
      intro e he
      simp only [List.mem_append, List.mem_singleton] at he
      rcases he with he | rfl
      · exact h3 e he
      · intro n hn; cases hn

end Sim

/-- **C62** Whatever happens during an invocation (a task is claimed, a command is started, a prompt is shown, a
message is logged, ...) happens for the requested task or a task that it refers to, directly or through others. -/
theorem C62_confined {s : State} (h : Reach (start c tasks gvars main) s) {e : Ev} (he : e ∈ s.sh.trace) {n : Str}
    (hn : about e = some n) : Needs tasks main n := by
  obtain ⟨_, _, _, h3⟩ := Sim.reach (fun _ _ => rfl : SameFor main tasks tasks) h
  exact h3 e he n hn

/-- the same, for what is visible outside -/
theorem C62_processes {s : State} (h : Reach (start c tasks gvars main) s) {loc : Loc} {spec : ProcSpec}
    (he : .procStart loc spec ∈ s.sh.trace) : Needs tasks main loc.task :=
  C62_confined h he rfl

/-- **C62** The definitions of the other tasks do not matter: if two task maps have the same definitions of everything
the requested task needs, then whatever can happen with the one can happen with the other, including the result. -/
theorem C62_others_irrelevant (hs : SameFor main tasks tasks') {s : State} (h : Reach (start c tasks gvars main) s) :
    ∃ s', Reach (start c tasks' gvars main) s' ∧ s'.sh = s.sh ∧ ∀ r, s.prog = .ret r ↔ s'.prog = .ret r := by
  obtain ⟨q, h1, h2, _⟩ := Sim.reach hs h
  refine ⟨_, h1, rfl, fun r => ?_⟩
  have hp := Sim.reach_not_pending h
  have hq := Sim.reach_not_pending h1
  constructor
  · intro hr
    rw [hr] at h2
    cases h2 with
    | ret => rfl
    | right => exact (hq trivial).elim
  · intro hr
    simp only at hr
    rw [hr] at h2
    generalize s.prog = p at h2 hp
    cases h2 with
    | ret => rfl
    | left => exact (hp trivial).elim

/-- what is needed is the same in both, so the theorem also holds in the other direction -/
theorem C62_same_symm (hs : SameFor main tasks tasks') : SameFor main tasks' tasks := by
  have key : ∀ a n, Reaches tasks' a n → Needs tasks main a → Needs tasks main n := by
    intro a n h
    induction h with
    | one h =>
      intro ha
      obtain ⟨T, hT, hd⟩ := h
      exact Sim.needs_closed ha ((hs _ ha).trans hT) hd
    | more h _ ih =>
      intro ha
      obtain ⟨T, hT, hd⟩ := h
      exact ih (Sim.needs_closed ha ((hs _ ha).trans hT) hd)
  intro n hn
  rcases hn with rfl | hn
  · exact (hs _ (Or.inl rfl)).symm
  · exact (hs _ (key _ _ hn (Or.inl rfl))).symm

end

namespace Sample

/-- the tasks of `build` and another one, which calls one of them -/
def more : TaskMap :=
  (s "deploy", { name := s "deploy", deps := [s "all"], run := [cmd "rsync", call "nowhere"] }) :: build

theorem refers_build {a b : Str} (h : Refers build a b) : b = s "lib" ∨ b = s "x" := by
  have one : ∀ x, CallsIn b [call x] → b = s x := by
    intro x h
    cases h with
    | here h => exact h.symm
    | later h => cases h
  have none : ∀ x, ¬ CallsIn b [cmd x] := by
    intro x h
    cases h with
    | later h => cases h
  obtain ⟨T, hT, hd⟩ := h
  simp only [build, GoMap.get?] at hT
  split at hT
  · cases hT
    rcases hd with hd | hd
    · left; simpa using hd
    · cases hd with
      | later hd => cases hd with
        | block hd => cases hd with
          | here h => right; exact h.symm
          | later hd => cases hd with
            | later hd => left; exact one _ hd
        | later hd => cases hd with
          | here h => left; exact h.symm
          | later hd => cases hd with
            | later hd => cases hd
  · split at hT
    · cases hT
      rcases hd with hd | hd
      · cases hd
      · exact absurd hd (none _)
    · split at hT
      · cases hT
        rcases hd with hd | hd
        · left; simpa using hd
        · exact absurd hd (none _)
      · cases hT

/-- the theorem applies to the two task maps: nothing `all` needs is called `deploy` -/
theorem more_same : SameFor (s "all") build more := by
  intro n hn
  have hne : n ≠ s "deploy" := by
    have key : ∀ a b, Reaches build a b → b = s "lib" ∨ b = s "x" := by
      intro a b hr
      induction hr with
      | one h => exact refers_build h
      | more _ _ ih => exact ih
    rintro rfl
    rcases hn with hn | hn
    · exact absurd hn (by decide)
    · rcases key _ _ hn with h | h <;> exact absurd h (by decide)
  simp only [more, GoMap.get?]
  rw [if_neg (Ne.symm hne)]

/-- in particular the successful invocation of `all` can happen with the larger task map -/
example : ∃ s', Reach (start {} more [] (s "all")) s' ∧ s'.sh = good.sh :=
  let ⟨s', h1, h2, _⟩ := C62_others_irrelevant more_same good_reach
  ⟨s', h1, h2⟩

/-- three tasks are claimed in it -/
example : .claimed (s "lib") ∈ good.sh.trace ∧ .claimed (s "x") ∈ good.sh.trace ∧ .claimed (s "all") ∈ good.sh.trace := by
  decide +kernel

/-- an invocation of `deploy` does reach `all` -/
example : Needs more (s "deploy") (s "lib") :=
  Or.inr (.more ⟨_, rfl, Or.inl List.mem_cons_self⟩ (.one ⟨_, rfl, Or.inl List.mem_cons_self⟩))

end Sample

end Bab
