import Verif.Proof.Block
import Verif.Proof.Sample
/-
C23, C24: parallel blocks. C19: what goes wrong when parallel items share a task.
-/

namespace Bab
open Spec Own

section
variable {c : Cfg} {tasks : TaskMap} {gvars : GoMap Str} {main : Str} {s : State}

/-- C23. At every moment of an invocation (after the events `a`) at most `lim` items of a parallel
block with the limit `lim` are in execution, and at most that many processes of its items run. -/
theorem C23_limit (h : Reach (start c tasks gvars main) s) {a b : List Ev} (ht : s.sh.trace = a ++ b)
    {n : Str} {i : Nat} {items : List RunItem} {lim : Nat} (hb : blockAt tasks n i = some (items, lim))
    (hl : lim ≠ 0) :
    (List.range items.length).countP (subLive n i a) ≤ lim ∧
    (List.range items.length).countP (procLive n i a) ≤ lim := by
  obtain ⟨S, hS⟩ := block_of_reach c tasks gvars main n i h
  rw [ht] at hS
  obtain ⟨S1, h1, -⟩ := run_split hS
  replace h1 : Run (mineSub n i) (BlockStep c n i items lim) (fun _ => .idle) a S1 := by
    refine run_mono (fun q e q' hd => ?_) h1
    obtain ⟨items', lim', h1, h2⟩ := hd
    rw [hb] at h1; cases h1
    exact h2
  obtain ⟨k1, k2, -⟩ := block_inv h1
  have k3 := proc_inv h1
  have hle := k2 hl
  constructor
  · refine Nat.le_trans (countP_range_mono (fun k hk => ?_) _) hle
    rwa [shows_live (k1 k)] at hk
  · refine Nat.le_trans (countP_range_mono (fun k hk => ?_) _) hle
    simp only [procLive, Bool.and_eq_true, List.any_eq_true, Bool.not_eq_true', List.any_eq_false] at hk
    obtain ⟨⟨e, he, h2⟩, h3⟩ := hk
    rcases k3 k with hj | hj | ⟨r, hr⟩
    · simp only [hj]; rfl
    · exfalso
      cases e <;> simp only [isProcStart, decide_eq_true_eq, Bool.false_eq_true] at h2
      exact hj _ _ h2 he
    · exfalso
      have := h3 _ hr
      simp [isProcEnd] at this

/-- C23. Items of a block without limit are never dropped. -/
theorem C23_no_limit (h : Reach (start c tasks gvars main) s) {n : Str} {i : Nat} {items : List RunItem}
    (hb : blockAt tasks n i = some (items, 0)) (j : Nat) : .subAbort n i j ∉ s.sh.trace := by
  obtain ⟨S, hS⟩ := block_of_reach c tasks gvars main n i h
  replace hS : Run (mineSub n i) (BlockStep c n i items 0) (fun _ => .idle) s.sh.trace S := by
    refine run_mono (fun q e q' hd => ?_) hS
    obtain ⟨items', lim', h1, h2⟩ := hd
    rw [hb] at h1; cases h1
    exact h2
  exact (block_inv hS).2.2 rfl j

/-- three commands of which two may run at the same time -/
def Sample.wide : TaskMap :=
  [(Sample.s "t", { name := Sample.s "t", run := [Sample.par
    [Sample.cmd "one", Sample.cmd "two", Sample.cmd "three"] 2] })]

/-- two of them have been started -/
def Sample.wideRun : State :=
  Exec.drive [.auto 13, .rep (.sub 2 .go) 5] (start {} Sample.wide [] (Sample.s "t"))

example : blockAt Sample.wide (Sample.s "t") 0 = some ([Sample.cmd "one", Sample.cmd "two", Sample.cmd "three"], 2) ∧
    (List.range 3).countP (procLive (Sample.s "t") 0 Sample.wideRun.sh.trace) = 2 :=
  ⟨rfl, by decide +kernel⟩

/-- C24. When a parallel block ends, each of its items has ended (or was dropped because of a
cancellation); it fails exactly if an item has failed, with the error of a failed item; and nothing
happens at any of its items afterwards. -/
theorem C24_block_waits (h : Reach (start c tasks gvars main) s) {n : Str} {i : Nat} {r : Option Err}
    {a b : List Ev} (ht : s.sh.trace = a ++ .parEnd n i r :: b) :
    ∃ items labels mode lim color bs bo pl w ln,
      itemAt tasks ⟨n, i, none⟩ = some (.parallel items labels mode lim color bs bo pl w ln) ∧
      (∀ j, j < items.length → (∃ r', .subEnd n i j r' ∈ a) ∨ (.subAbort n i j ∈ a ∧ ∃ id, .cancel id ∈ a)) ∧
      (r.isSome ↔ ∃ j e, .subEnd n i j (some e) ∈ a) ∧
      (∀ e, r = some e → ∃ j e', .subEnd n i j (some e') ∈ a ∧
        e = .wrap (.item (itemLabel items labels j)) e') ∧
      (∀ e ∈ b, ∀ j, Spec.key e ≠ some (n, some (i, j))) := by
  obtain ⟨items, labels, mode, lim, color, bs, bo, pl, w, ln, hi, h1, h2⟩ := Safe.event_ok h ht
  refine ⟨items, labels, mode, lim, color, bs, bo, pl, w, ln, hi, ?_, ?_, ?_, ?_⟩
  · intro j hj
    rcases h1 j hj with ⟨r', h3, -⟩ | h3
    · exact Or.inl ⟨r', h3⟩
    · exact Or.inr h3
  · constructor
    · intro hr
      cases r with
      | none => cases hr
      | some e =>
        obtain ⟨j, e', -, h3, -⟩ := h2 e rfl
        exact ⟨j, e', h3⟩
    · rintro ⟨j, e, he⟩
      obtain ⟨x, y, hxy⟩ := List.append_of_mem he
      obtain ⟨items', lim', S1, S2, S3, k1, k2, k3, k4⟩ := block_at (j := j) h
        (a := x) (e := .subEnd n i j (some e)) (b := y ++ .parEnd n i r :: b) (by rw [ht, hxy]; simp) rfl
      have hb : items' = items := by
        have : blockAt tasks n i = some (items, lim) := by
          unfold itemAt at hi
          unfold blockAt
          cases hT : tasks.get? n with
          | none => simp [hT] at hi
          | some T => simp [hT] at hi; simp [hi]
        rw [this] at k1; cases k1; rfl
      subst hb
      have hj : j < items'.length := by
        rcases block_item k3 (mineSub_iff.mpr ⟨j, rfl⟩) j with ⟨-, item, hit, -⟩ | ⟨hk, -⟩
        · exact (List.getElem?_eq_some_iff.mp hit).1
        · exact absurd rfl hk
      obtain ⟨S, hS⟩ := block_of_reach c tasks gvars main n i h
      rw [ht] at hS
      obtain ⟨Sa, hSa, -⟩ := run_split hS
      have hf := subFacts (run_mono (fun q e q' hd => by
        obtain ⟨items'', lim'', h1, h2⟩ := hd
        rw [k1] at h1; cases h1; exact h2) hSa) j
      have hbad := hf.bad (Or.inl ⟨e, he⟩)
      rcases h1 j hj with ⟨r', h3, h4⟩ | ⟨h3, -⟩
      · cases r' with
        | none => rw [hf.ok h3] at hbad; simp at hbad
        | some e' => exact h4 rfl
      · rw [hf.dropped h3] at hbad; simp at hbad
  · intro e he
    obtain ⟨j, e', -, h3, h4⟩ := h2 e he
    exact ⟨j, e', h3, h4⟩
  · intro e he j hk
    obtain ⟨x, y, hxy⟩ := List.append_of_mem he
    obtain ⟨items', lim', S1, S2, S3, k1, k2, k3, k4⟩ := block_at (j := j) h
      (a := a ++ .parEnd n i r :: x) (e := e) (b := y) (by rw [ht, hxy]; simp) hk
    rcases block_item k3 (mineSub_iff.mpr ⟨j, hk⟩) j with ⟨-, item, hit, hs⟩ | ⟨hk', -⟩
    · have hb : items' = items := by
        have : blockAt tasks n i = some (items, lim) := by
          unfold itemAt at hi
          unfold blockAt
          cases hT : tasks.get? n with
          | none => simp [hT] at hi
          | some T => simp [hT] at hi; simp [hi]
        rw [this] at k1; cases k1; rfl
      subst hb
      have hov := over_of_end k2 j (by
        rcases h1 j (List.getElem?_eq_some_iff.mp hit).1 with ⟨r', h3, -⟩ | ⟨h3, -⟩
        · exact Or.inl ⟨r', by simp [h3]⟩
        · exact Or.inr (by simp [h3]))
      exact sub_over_step hov hs
    · exact hk' hk

example : ∃ a b e, Sample.bad.sh.trace = a ++ .parEnd (Sample.s "all") 1 (some e) :: b := by
  have : .parEnd (Sample.s "all") 1 (some (.wrap (.item (Sample.s "y")) (.wrap (.command (Sample.s "all") (Sample.s "y")) (.exit 127))))
    ∈ Sample.bad.sh.trace := by decide +kernel
  obtain ⟨a, b, h⟩ := List.append_of_mem this
  exact ⟨a, b, _, h⟩

/-- two parallel items that call the same task -/
def Sample.shared : TaskMap :=
  [(Sample.s "t", { name := Sample.s "t", run := [Sample.par [Sample.call "a", Sample.call "b"]] }),
   (Sample.s "a", { name := Sample.s "a", run := [Sample.call "lib"] }),
   (Sample.s "b", { name := Sample.s "b", run := [Sample.call "lib"] }),
   (Sample.s "lib", { name := Sample.s "lib", run := [Sample.cmd "make"] })]

/-- the first item has started the shared task when the second one calls it -/
def Sample.sharedRun : State :=
  Exec.drive [.auto 24, .rep (.sub 1 .go) 30, .auto 100] (start {} Sample.shared [] (Sample.s "t"))

/-- C19 fails: an invocation of a task map without any cycle, in which every command succeeds, ends with
a circular-dependency error, because two items of a parallel block call the same task. -/
theorem C19_spurious_cycle :
    ∃ (tasks : TaskMap) (rank : Str → Nat) (main : Str) (s : State),
      (∀ n T, tasks.get? n = some T → (∀ d ∈ T.deps, rank d < rank n) ∧
        (∀ t, .task t ∈ T.run → rank t.task < rank n) ∧
        ∀ items labels mode lim color bs bo pl w ln, .parallel items labels mode lim color bs bo pl w ln ∈ T.run →
          ∀ t, .task t ∈ items → rank t.task < rank n) ∧
      Reach (start {} tasks [] main) s ∧ (∀ e ∈ s.sh.trace, ¬ Fails e) ∧
      Exec.result s = some (some (.wrap (.item (Sample.s "b")) (.circularDep ["lib".toList]))) := by
  refine ⟨Sample.shared, fun n => if n = Sample.s "t" then 2 else if n = Sample.s "lib" then 0 else 1, Sample.s "t",
    Sample.sharedRun, ?_, Exec.reach _ _, ?_, by decide +kernel⟩
  · intro n T hT
    have hcases : n = Sample.s "t" ∨ n = Sample.s "a" ∨ n = Sample.s "b" ∨ n = Sample.s "lib" := by
      by_contra hcon
      simp only [not_or] at hcon
      have : GoMap.get? Sample.shared n = none := by
        simp only [Sample.shared, GoMap.get?]
        simp [Ne.symm hcon.1, Ne.symm hcon.2.1, Ne.symm hcon.2.2.1, Ne.symm hcon.2.2.2]
      rw [this] at hT; cases hT
    rcases hcases with rfl | rfl | rfl | rfl
    · cases hT
      refine ⟨by simp, by simp [Sample.par], ?_⟩
      intro items labels mode lim color bs bo pl w ln hi t ht
      simp only [Sample.par, List.mem_singleton, RunItem.parallel.injEq] at hi
      rw [hi.1] at ht
      simp [Sample.call] at ht
      rcases ht with rfl | rfl <;> decide
    · cases hT
      refine ⟨by simp, ?_, by simp [Sample.call]⟩
      intro t ht
      simp [Sample.call] at ht
      subst ht; decide
    · cases hT
      refine ⟨by simp, ?_, by simp [Sample.call]⟩
      intro t ht
      simp [Sample.call] at ht
      subst ht; decide
    · cases hT
      exact ⟨by simp, by simp [Sample.cmd], by simp [Sample.cmd]⟩
  · have h : ∀ e ∈ Sample.sharedRun.sh.trace, (match e with
      | .procEnd _ (some _) => false | .procFail _ => false | .answered _ _ (.error _) => false | _ => true) = true := by
      decide +kernel
    intro e he hf
    have := h e he
    unfold Fails at hf
    split at hf <;> first | exact hf | (simp at this)

end
end Bab
