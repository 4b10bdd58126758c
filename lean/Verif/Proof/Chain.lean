import Verif.Proof.SafeRun
/-
`buildChain`: the bound on the iterations is never reached, and the chain only depends on the tasks
that can be reached.
-/

namespace Bab
namespace Chain

/-- the loop ends before the fuel does -/
theorem loop_some {current : Str} {tasks : TaskMap} {state : GoMap Status} (fuel : Nat) {chain seen : List Str}
    (hn : seen.Nodup) (hk : ∀ p ∈ seen, tasks.get? p ≠ none) (hf : tasks.length + 2 ≤ fuel + seen.length) :
    ∃ r, chainLoop current tasks state fuel chain seen = some r := by
  induction fuel generalizing chain seen with
  | zero =>
    have := Safe.path_le hn hk
    omega
  | succ fuel ih =>
    unfold chainLoop
    simp only
    split
    · exact ⟨_, rfl⟩
    · rename_i hs
      split
      · exact ⟨_, rfl⟩
      · rename_i T hT
        have hn' : ((chain.getLast?).getD [] :: seen).Nodup := List.nodup_cons.mpr ⟨hs, hn⟩
        have hk' : ∀ p ∈ (chain.getLast?).getD [] :: seen, tasks.get? p ≠ none := by
          intro p hp
          rcases List.mem_cons.mp hp with rfl | hp
          · rw [hT]; exact Option.some_ne_none _
          · exact hk p hp
        have hf' : tasks.length + 2 ≤ fuel + ((chain.getLast?).getD [] :: seen).length := by
          simp only [List.length_cons]; omega
        split
        · exact ⟨_, rfl⟩
        · split
          · exact ih hn' hk' hf'
          · split
            · exact ⟨_, rfl⟩
            · exact ih hn' hk' hf'

/-- the loop starts with enough fuel -/
theorem build_some (current : Str) (tasks : TaskMap) (state : GoMap Status) :
    ∃ r, chainLoop current tasks state (tasks.length + 2) [current] [] = some r :=
  loop_some _ List.nodup_nil (by simp) (by simp)

theorem loop_same {good : Str → Prop} {tasks tasks' : TaskMap} (hag : ∀ n, good n → tasks.get? n = tasks'.get? n)
    (hcl : ∀ n T d, good n → tasks.get? n = some T → d ∈ T.deps → good d)
    {current : Str} {state : GoMap Status} (f f' : Nat) {chain seen : List Str} (hg : good ((chain.getLast?).getD []))
    {r r' : List Str} (h : chainLoop current tasks state f chain seen = some r)
    (h' : chainLoop current tasks' state f' chain seen = some r') : r = r' := by
  induction f generalizing f' chain seen with
  | zero => cases h
  | succ f ih =>
    cases f' with
    | zero => cases h'
    | succ f' =>
      unfold chainLoop at h h'
      simp only at h h'
      rw [← hag _ hg] at h'
      split at h
      · rename_i hs
        rw [if_pos hs] at h'
        cases h; cases h'; rfl
      · rename_i hs
        rw [if_neg hs] at h'
        cases hT : tasks.get? ((chain.getLast?).getD []) with
        | none => simp only [hT] at h h'; cases h; cases h'; rfl
        | some T =>
          simp only [hT] at h h'
          split at h
          · rename_i hd
            rw [if_pos hd] at h'
            cases h; cases h'; rfl
          · rename_i hd
            rw [if_neg hd] at h'
            cases hfd : T.deps.find? (fun d => state.get? d = some .running) with
            | none =>
              simp only [hfd] at h h'
              exact ih f' hg h h'
            | some d =>
              simp only [hfd] at h h'
              split at h
              · rename_i he
                rw [if_pos he] at h'
                cases h; cases h'; rfl
              · rename_i he
                rw [if_neg he] at h'
                refine ih f' ?_ h h'
                have : (chain ++ [d]).getLast? = some d := by simp
                rw [this]
                exact hcl _ _ _ hg hT (List.mem_of_find?_eq_some hfd)

theorem build_same {good : Str → Prop} {tasks tasks' : TaskMap} (hag : ∀ n, good n → tasks.get? n = tasks'.get? n)
    (hcl : ∀ n T d, good n → tasks.get? n = some T → d ∈ T.deps → good d)
    {current : Str} {state : GoMap Status} (hg : good current) :
    buildChain current tasks state = buildChain current tasks' state := by
  obtain ⟨r, hr⟩ := build_some current tasks state
  obtain ⟨r', hr'⟩ := build_some current tasks' state
  have := loop_same hag hcl _ _ (by simpa using hg) hr hr'
  unfold buildChain
  rw [hr, hr', this]

end Chain
end Bab
