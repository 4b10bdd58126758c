import Verif.Base
/- Lemmas on association-list maps. -/

namespace Bab.GoMap
variable {β : Type}

theorem get?_set (m : GoMap β) (k k' : Str) (v : β) :
    (m.set k v).get? k' = if k = k' then some v else m.get? k' := by
  induction m with
  | nil => simp [set, get?]
  | cons p m ih =>
    obtain ⟨a, b⟩ := p
    simp only [set]
    split
    · rename_i h; subst h
      simp only [get?]
      split <;> simp_all
    · rename_i h
      simp only [get?]
      rw [ih]
      split
      · rename_i h2; subst h2
        rw [if_neg (Ne.symm h)]
      · rfl

theorem get?_set_self (m : GoMap β) (k : Str) (v : β) : (m.set k v).get? k = some v := by
  simp [get?_set]

theorem get?_set_ne (m : GoMap β) {k k' : Str} (v : β) (h : k ≠ k') :
    (m.set k v).get? k' = m.get? k' := by simp [get?_set, h]

theorem mem_of_get? {m : GoMap β} {k : Str} {v : β} (h : m.get? k = some v) : (k, v) ∈ m := by
  induction m with
  | nil => simp [get?] at h
  | cons p m ih =>
    obtain ⟨a, b⟩ := p
    simp only [get?] at h
    split at h
    · rename_i he; cases h; subst he; simp
    · exact List.mem_cons_of_mem _ (ih h)

theorem mem_keys_iff {m : GoMap β} {k : Str} : k ∈ m.keys ↔ m.get? k ≠ none := by
  induction m with
  | nil => simp [keys, get?]
  | cons p m ih =>
    obtain ⟨a, b⟩ := p
    simp only [keys, List.map_cons, List.mem_cons, get?] at ih ⊢
    rw [ih]
    by_cases h : a = k
    · subst h; simp
    · rw [if_neg h]
      constructor
      · rintro (h' | h')
        · exact absurd h'.symm h
        · exact h'
      · intro h'; exact Or.inr h'

theorem has_iff {m : GoMap β} {k : Str} : m.has k = true ↔ m.get? k ≠ none := by
  unfold has
  cases m.get? k <;> simp

theorem has_iff_exists {m : GoMap β} {k : Str} : m.has k = true ↔ ∃ v, m.get? k = some v := by
  unfold has
  cases m.get? k <;> simp

theorem get?_of_mem {m : GoMap β} (hwf : m.WF) {k : Str} {v : β} (h : (k, v) ∈ m) :
    m.get? k = some v := by
  induction m with
  | nil => simp at h
  | cons p m ih =>
    obtain ⟨a, b⟩ := p
    simp only [WF, keys, List.map_cons, List.nodup_cons] at hwf
    rcases List.mem_cons.mp h with he | hm
    · cases he; simp [get?]
    · have hne : a ≠ k := by
        rintro rfl
        exact hwf.1 (List.mem_map.mpr ⟨_, hm, rfl⟩)
      simp only [get?, if_neg hne]
      exact ih hwf.2 hm

theorem get?_iff_mem {m : GoMap β} (hwf : m.WF) {k : Str} {v : β} :
    m.get? k = some v ↔ (k, v) ∈ m := ⟨mem_of_get?, get?_of_mem hwf⟩

theorem get?_perm {m m' : GoMap β} (hwf : m.WF) (h : m.Perm m') (k : Str) :
    m.get? k = m'.get? k := by
  have hwf' : m'.WF := by
    unfold WF keys at *
    exact (h.map Prod.fst).nodup_iff.mp hwf
  cases h1 : m.get? k with
  | some v =>
    exact (get?_of_mem hwf' (h.mem_iff.mp (mem_of_get? h1))).symm
  | none =>
    cases h2 : m'.get? k with
    | none => rfl
    | some v =>
      have := get?_of_mem hwf (h.mem_iff.mpr (mem_of_get? h2))
      rw [h1] at this; cases this

theorem WF_perm {m m' : GoMap β} (hwf : m.WF) (h : m.Perm m') : m'.WF := by
  unfold WF keys at *
  exact (h.map Prod.fst).nodup_iff.mp hwf

theorem mem_keys_set {m : GoMap β} {k k' : Str} {v : β} :
    k' ∈ (m.set k v).keys ↔ k' = k ∨ k' ∈ m.keys := by
  rw [mem_keys_iff, mem_keys_iff, get?_set]
  by_cases h : k = k'
  · simp [h]
  · simp [h, Ne.symm h]

theorem keys_set {m : GoMap β} {k : Str} {v : β} :
    (m.set k v).keys = if k ∈ m.keys then m.keys else m.keys ++ [k] := by
  induction m with
  | nil => simp [set, keys]
  | cons p m ih =>
    obtain ⟨a, b⟩ := p
    simp only [set]
    split
    · rename_i h; subst h; simp [keys]
    · rename_i h
      simp only [keys, List.map_cons] at ih ⊢
      rw [ih]
      have : k ≠ a := Ne.symm h
      by_cases hk : k ∈ List.map Prod.fst m
      · simp [hk]
      · simp [hk, this]

theorem WF_set {m : GoMap β} (h : m.WF) (k : Str) (v : β) : (m.set k v).WF := by
  unfold WF at *
  rw [keys_set]
  split
  · exact h
  · rename_i hk
    rw [List.nodup_append]
    refine ⟨h, by simp, ?_⟩
    intro a ha b hb
    simp at hb
    subst hb
    rintro rfl
    exact hk ha

end Bab.GoMap
