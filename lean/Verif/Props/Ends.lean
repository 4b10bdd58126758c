import Verif.Proof.Ends
import Verif.Props.Outcome
import Verif.Props.Parallel
/-
C84: no command outlives the invocation that started it; what has begun ends.
-/

namespace Bab
open Spec Own

namespace Ends

variable {c : Cfg} {tasks : TaskMap} {gvars : GoMap Str} {main : Str} {s : State}

/-- every invocation can be continued to its end -/
theorem can_end (h : Reach (start c tasks gvars main) s) :
    ∃ s' es r, Reach (start c tasks gvars main) s' ∧ s'.sh.trace = s.sh.trace ++ es ∧ s'.prog = .ret r := by
  obtain ⟨p, σ⟩ := s
  have key : ∀ p, Acc Succ p → ∀ σ, Reach (start c tasks gvars main) ⟨p, σ⟩ →
      ∃ s' es r, Reach (start c tasks gvars main) s' ∧ s'.sh.trace = σ.trace ++ es ∧ s'.prog = .ret r := by
    intro p hp
    induction hp with
    | intro p _ ih =>
      intro σ h
      rcases C25_no_deadlock h (.refl _) with ⟨r, hr⟩ | ⟨q', σ', hs⟩
      · exact ⟨⟨p, σ⟩, [], r, h, by simp, hr⟩
      · obtain ⟨s', es, r, h1, h2, h3⟩ := ih q' ⟨σ, σ', hs⟩ σ' (h.step (.prog hs))
        obtain ⟨es', he⟩ := step_trace hs
        exact ⟨s', es' ++ es, r, h1, by rw [h2, he]; simp, h3⟩
  exact key p (succ_acc p) σ h

/-- the state right after an event -/
theorem at_event (h : Reach (start c tasks gvars main) s) {a b : List Ev} {e : Ev} (ht : s.sh.trace = a ++ e :: b) :
    ∃ s', Reach (start c tasks gvars main) s' ∧ s'.sh.trace = a ++ [e] := by
  induction h generalizing b with
  | refl => exact absurd ht (by simp [start, Shared.init])
  | @step t u h hs ih =>
    obtain ⟨es, h1, h2⟩ : ∃ es, u.sh.trace = t.sh.trace ++ es ∧ es.length ≤ 1 := by
      cases hs with
      | prog hs =>
        obtain ⟨-, es, k1, k2, -⟩ := disc_step hs (reach (disc_runTask _ _ _ _) rfl h).1
        exact ⟨es, k1, k2⟩
      | cancel id hid => exact ⟨_, rfl, by simp⟩
    match es, h1, h2 with
    | [], h1, _ => exact ih (b := b) (by rw [← ht, h1]; simp)
    | [e1], h1, _ =>
      rcases List.eq_nil_or_concat b with rfl | ⟨b', e2, rfl⟩
      · exact ⟨u, h.step hs, ht⟩
      · refine ih (b := b') ?_
        have : t.sh.trace ++ [e1] = (a ++ e :: b') ++ [e2] := by rw [← h1, ht]; simp
        exact (List.append_inj' this rfl).1

/-- what has begun has ended in a final state -/
theorem all_end (h : Reach (start c tasks gvars main) s) {r : Option Err} (hp : s.prog = .ret r) {a b : List Ev}
    {e : Ev} (ht : s.sh.trace = a ++ e :: b) (hb : begins e = true) : ∃ e' ∈ b, endsIt e e' = true := by
  rcases (reach (disc_runTask _ _ _ _) rfl h).2 a e b ht hb with h1 | h1
  · exact h1
  · rw [hp] at h1; exact h1.elim

/-- the event happens at a place of the task, or is the end of something there -/
def Within (n : Str) (e : Ev) : Prop :=
  (∃ loc, placeOf e = some loc ∧ loc.task = n) ∨ (∃ i r, e = .itemEnd n i r) ∨ ∃ i j r, e = .subEnd n i j r

theorem ended_after {n : Str} {T : Option Task} {r : Option Err} {q1 q2 q3 : Life} {b : List Ev}
    (h2 : LifeStep c n T q1 (.taskEnd n r) q2) (h3 : Run (mineTask n) (LifeStep c n T) q2 b q3) :
    ∀ e ∈ b, Spec.key e ≠ some (n, none) := by
  have hq : q2 = .ended := by
    cases h2 with
    | inner e h => cases h
    | _ => rfl
  refine run_after (A := fun q => q = .ended) (X := fun e => Spec.key e = some (n, none)) ?_ ?_ h3 hq
  · rintro q e q' rfl _ hd
    cases hd
  · exact fun e he => mineTask_iff.mpr he

/-- nothing happens in a task that has ended -/
theorem nothing_after (h : Reach (start c tasks gvars main) s) {n : Str} {r : Option Err} {a b : List Ev}
    (ht : s.sh.trace = a ++ .taskEnd n r :: b) {e : Ev} (he : e ∈ b) : ¬ Within n e := by
  obtain ⟨q1, q2, q3, h1, h2, h3⟩ := task_at (n := n) h ht rfl
  have htop := ended_after h2 h3
  -- an item of a block cannot be started: the block has not begun yet, or it is over
  have hsub : ∀ i j, ∀ e ∈ b, Spec.key e = some (n, some (i, j)) → (∃ m, .parBegin n i m ∈ s.sh.trace) → False := by
    rintro i j e he hk ⟨m, hm⟩
    rw [ht] at hm
    rcases List.mem_append.mp hm with hm | hm
    · rcases par_closed h1 i m hm with ⟨r', hr⟩ | ⟨ex, sk, own, rfl⟩
      · obtain ⟨x, y, hxy⟩ := List.append_of_mem hr
        obtain ⟨_, _, _, _, _, _, _, _, _, _, -, -, -, -, hn⟩ := C24_block_waits h (n := n) (i := i) (r := r') (a := x)
          (b := y ++ .taskEnd n r :: b) (by rw [ht, hxy]; simp)
        exact hn e (by simp [he]) j hk
      · generalize tasks.get? n = T at h2
        cases h2 with
        | inner e h => cases h
    · rcases List.mem_cons.mp hm with hm | hm
      · cases hm
      · exact htop _ hm rfl
  have hplace : ∀ e ∈ s.sh.trace, ∀ i j, placeOf e = some ⟨n, i, some j⟩ → ∃ m, .parBegin n i m ∈ s.sh.trace := by
    intro e he i j hp
    obtain ⟨x, y, hxy⟩ := List.append_of_mem he
    have : ∃ x' y', s.sh.trace = x' ++ .subStart n i j :: y' := by
      rcases place_started h hxy hp with hs | ⟨e', he', hs⟩
      · rcases starts_eq hs with ⟨w, hs', -⟩ | ⟨j', hs', rfl⟩
        · cases hs'
        · simp only [Option.some.injEq] at hs'; subst hs'; exact ⟨_, _, hxy⟩
      · rcases starts_eq hs with ⟨w, hs', -⟩ | ⟨j', hs', rfl⟩
        · cases hs'
        · simp only [Option.some.injEq] at hs'; subst hs'
          obtain ⟨u, v, rfl⟩ := List.append_of_mem he'
          exact ⟨u, v ++ e :: y, by rw [hxy]; simp⟩
    obtain ⟨x', y', hx⟩ := this
    obtain ⟨-, m, hm⟩ := Safe.event_ok h hx
    exact ⟨m, by rw [hx]; simp [hm]⟩
  have hin : e ∈ s.sh.trace := by rw [ht]; simp [he]
  rintro (⟨⟨n', i, sub⟩, hp, hn⟩ | ⟨i, r', rfl⟩ | ⟨i, j, r', rfl⟩)
  · simp only at hn; subst hn
    cases sub with
    | none => exact htop e he (key_of_place hp)
    | some j => exact hsub i j e he (key_of_place hp) (hplace e hin i j hp)
  · exact htop _ he rfl
  · refine hsub i j _ he rfl ?_
    obtain ⟨x, y, hxy⟩ := List.append_of_mem hin
    obtain ⟨items, lim, S1, S2, S3, k1, k2, k3, k4⟩ := block_at (j := j) h hxy rfl
    have hst : .subStart n i j ∈ x := by
      have hfact : subBegun n i x j = true := by
        rcases block_item k3 (mineSub_iff.mpr ⟨j, rfl⟩) j with ⟨-, item, -, hs⟩ | ⟨hne, -⟩
        · have hsh := (block_inv k2).1 j
          generalize S1 j = q at hs hsh
          generalize S2 j = q' at hs
          cases hs with
          | inner e h => cases h
          | ok h => exact hsh.1
          | bad e h => exact hsh.1
        · exact absurd rfl hne
      simpa [subBegun] using hfact
    exact hplace _ (by rw [hxy]; exact List.mem_append_left _ hst) i j rfl

end Ends

section
variable {c : Cfg} {tasks : TaskMap} {gvars : GoMap Str} {main : Str} {s : State}

/-- C84. When an invocation is over, however it went (also if it was interrupted or a command failed
while others were running), every process it has started has ended: no command outlives it. -/
theorem C84_no_orphan (h : Reach (start c tasks gvars main) s) {r : Option Err} (hp : s.prog = .ret r)
    {loc : Loc} {spec : ProcSpec} {a b : List Ev} (ht : s.sh.trace = a ++ .procStart loc spec :: b) :
    ∃ code, .procEnd loc code ∈ b := by
  obtain ⟨e', h1, h2⟩ := Ends.all_end h hp ht rfl
  cases e' <;> simp [endsIt] at h2
  subst h2
  exact ⟨_, h1⟩

/-- an invocation that is interrupted while a command runs, and one in which an item of a block fails -/
example : Exec.result Sample.cancelled = some none ∧
    (∃ spec, .procStart ⟨Sample.s "t", 0, some 0⟩ spec ∈ Sample.cancelled.sh.trace) ∧ .cancel 0 ∈ Sample.cancelled.sh.trace ∧
    (∃ e, Exec.result Sample.bad = some (some e)) ∧
    ∃ spec, .procStart ⟨Sample.s "x", 0, none⟩ spec ∈ Sample.bad.sh.trace := by
  have h : Exec.result Sample.cancelled = some none ∧ .cancel 0 ∈ Sample.cancelled.sh.trace ∧
      Sample.cancelled.sh.trace.any (fun | .procStart l _ => l = ⟨Sample.s "t", 0, some 0⟩ | _ => false) = true ∧
      ((Exec.result Sample.bad).map Option.isSome) = some true ∧
      Sample.bad.sh.trace.any (fun | .procStart l _ => l = ⟨Sample.s "x", 0, none⟩ | _ => false) = true := by
    decide +kernel
  have find : ∀ {l : List Ev} {loc : Loc}, l.any (fun | .procStart l _ => l = loc | _ => false) = true →
      ∃ spec, .procStart loc spec ∈ l := by
    intro l loc h
    obtain ⟨e, he, h⟩ := List.any_eq_true.mp h
    cases e <;> simp at h
    subst h
    exact ⟨_, he⟩
  refine ⟨h.1, find h.2.2.1, h.2.1, ?_, find h.2.2.2.2⟩
  have h4 := h.2.2.2.1
  generalize Exec.result Sample.bad = r at h4
  match r, h4 with
  | some (some e), _ => exact ⟨e, rfl⟩

/-- C84. And every task, item, parallel block and item of a parallel block that has begun has ended. -/
theorem C84_all_ends (h : Reach (start c tasks gvars main) s) {r : Option Err} (hp : s.prog = .ret r)
    {e : Ev} {a b : List Ev} (ht : s.sh.trace = a ++ e :: b) (hb : begins e = true) :
    ∃ e' ∈ b, endsIt e e' = true := Ends.all_end h hp ht hb

example : begins (.claimed (Sample.s "lib")) = true ∧ Ev.claimed (Sample.s "lib") ∈ Sample.good.sh.trace ∧
    Exec.result Sample.good = some none ∧
    ∃ e ∈ Sample.good.sh.trace, endsIt (.claimed (Sample.s "lib")) e = true := by
  have h : Ev.claimed (Sample.s "lib") ∈ Sample.good.sh.trace ∧ Exec.result Sample.good = some none ∧
      Sample.good.sh.trace.any (endsIt (.claimed (Sample.s "lib"))) = true := by decide +kernel
  exact ⟨rfl, h.1, h.2.1, by simpa using h.2.2⟩

/-- C84. At any time: when a task has ended, so has everything that was begun in it, in particular every
process it has started, and nothing happens in it any more. -/
theorem C84_task (h : Reach (start c tasks gvars main) s) {n : Str} {r : Option Err} {a b : List Ev}
    (ht : s.sh.trace = a ++ .taskEnd n r :: b) :
    (∀ x e y loc, a = x ++ e :: y → begins e = true → placeOf e = some loc → loc.task = n →
      ∃ e' ∈ y, endsIt e e' = true) ∧
    ∀ e ∈ b, ∀ loc, placeOf e = some loc → loc.task ≠ n := by
  refine ⟨?_, fun e he loc hl hn => Ends.nothing_after h ht he (Or.inl ⟨loc, hl, hn⟩)⟩
  rintro x e y loc rfl hb hl hn
  obtain ⟨s1, g1, g2⟩ := Ends.at_event h ht
  obtain ⟨s2, es, r2, k1, k2, k3⟩ := Ends.can_end g1
  have ht2 : s2.sh.trace = x ++ e :: (y ++ .taskEnd n r :: es) := by rw [k2, g2]; simp
  obtain ⟨e', h1, h2⟩ := Ends.all_end k1 k3 ht2 hb
  rcases List.mem_append.mp h1 with h1 | h1
  · exact ⟨e', h1, h2⟩
  · rcases List.mem_cons.mp h1 with rfl | h1
    · cases e <;> simp [endsIt] at h2
      cases hl
    · refine absurd ?_ (Ends.nothing_after k1 (n := n) (r := r) (a := x ++ e :: y) (b := es) (by rw [ht2, List.append_assoc]; rfl) h1)
      subst hn
      cases e <;> cases e' <;> simp [endsIt] at h2 <;> simp [placeOf] at hl
      · obtain ⟨rfl, rfl⟩ := h2; subst hl; exact Or.inr (Or.inl ⟨_, _, rfl⟩)
      · obtain ⟨rfl, rfl, rfl⟩ := h2; subst hl; exact Or.inr (Or.inr ⟨_, _, _, rfl⟩)
      · obtain ⟨rfl, rfl⟩ := h2; subst hl; exact Or.inl ⟨_, rfl, rfl⟩
      · subst h2; subst hl; exact Or.inl ⟨_, rfl, rfl⟩

example : ∃ a b, Sample.good.sh.trace = a ++ .taskEnd (Sample.s "lib") none :: b ∧
    a.any (fun | .procStart l _ => l = ⟨Sample.s "lib", 0, none⟩ | _ => false) = true := by
  have h : .taskEnd (Sample.s "lib") none ∈ Sample.good.sh.trace ∧
      (Sample.good.sh.trace.takeWhile (· ≠ .taskEnd (Sample.s "lib") none)).any
        (fun | .procStart l _ => l = ⟨Sample.s "lib", 0, none⟩ | _ => false) = true ∧
      Sample.good.sh.trace.dropWhile (· ≠ .taskEnd (Sample.s "lib") none) =
        .taskEnd (Sample.s "lib") none :: (Sample.good.sh.trace.dropWhile (· ≠ .taskEnd (Sample.s "lib") none)).tail := by
    decide +kernel
  exact ⟨_, _, by rw [← h.2.2, List.takeWhile_append_dropWhile], h.2.1⟩

end

end Bab
