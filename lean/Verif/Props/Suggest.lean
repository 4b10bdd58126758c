import Verif.Proof.Sort
/-
C50: suggestions for mistyped names.
-/

namespace Bab

namespace Spec

/-- `c` is the suggestion for `target`: at least 50 % similar, no candidate more similar, none as similar and shorter,
none as similar and as long and before it in the alphabet -/
def IsBest (lower : Bytes → Bytes) (target : Bytes) (candidates : List Bytes) (c : Bytes) : Prop :=
  c ∈ candidates ∧ 50 ≤ similarity (lower target) (lower c) ∧
  ∀ d ∈ candidates, similarity (lower target) (lower d) < similarity (lower target) (lower c) ∨
    (similarity (lower target) (lower d) = similarity (lower target) (lower c) ∧
      (c.length < d.length ∨ (c.length = d.length ∧ bytesLe c d = true)))

end Spec

open Spec

theorem bytesLe_total : ∀ (a b : Bytes), (bytesLe a b || bytesLe b a) = true
  | [], _ => by simp [bytesLe]
  | _ :: _, [] => by simp [bytesLe]
  | a :: x, b :: y => by
    rw [bytesLe, bytesLe]
    by_cases h : a = b
    · rw [if_pos h, if_pos h.symm]; exact bytesLe_total x y
    · rw [if_neg h, if_neg (fun e => h e.symm)]
      have : a.toNat ≠ b.toNat := fun e => h (UInt8.toNat_inj.mp e)
      simp only [Bool.or_eq_true, decide_eq_true_eq]
      omega

theorem bytesLe_trans : ∀ (a b c : Bytes), bytesLe a b = true → bytesLe b c = true → bytesLe a c = true
  | [], _, _, _, _ => by simp [bytesLe]
  | _ :: _, [], _, h, _ => by simp [bytesLe] at h
  | _ :: _, _ :: _, [], _, h => by simp [bytesLe] at h
  | a :: x, b :: y, c :: z, h1, h2 => by
    rw [bytesLe] at h1 h2 ⊢
    by_cases e1 : a = b
    · rw [if_pos e1] at h1
      subst e1
      by_cases e2 : a = c
      · rw [if_pos e2] at h2 ⊢; exact bytesLe_trans x y z h1 h2
      · rw [if_neg e2] at h2 ⊢; exact h2
    · rw [if_neg e1] at h1
      have h1' := of_decide_eq_true h1
      by_cases e2 : b = c
      · subst e2
        rw [if_neg e1]; exact h1
      · rw [if_neg e2] at h2
        have h2' := of_decide_eq_true h2
        have e3 : a ≠ c := by rintro rfl; omega
        rw [if_neg e3]
        exact decide_eq_true (by omega)

theorem bytesLe_antisymm : ∀ (a b : Bytes), bytesLe a b = true → bytesLe b a = true → a = b
  | [], [], _, _ => rfl
  | [], _ :: _, _, h => by simp [bytesLe] at h
  | _ :: _, [], h, _ => by simp [bytesLe] at h
  | a :: x, b :: y, h1, h2 => by
    rw [bytesLe] at h1 h2
    by_cases e : a = b
    · rw [if_pos e] at h1
      rw [if_pos e.symm] at h2
      rw [e, bytesLe_antisymm x y h1 h2]
    · rw [if_neg e] at h1
      rw [if_neg (fun h => e h.symm)] at h2
      have h1' := of_decide_eq_true h1
      have h2' := of_decide_eq_true h2
      omega

theorem isBest_unique {lower : Bytes → Bytes} {target : Bytes} {cs : List Bytes} {c d : Bytes}
    (hc : IsBest lower target cs c) (hd : IsBest lower target cs d) : c = d := by
  rcases hc.2.2 d hd.1 with h1 | ⟨h1, h1'⟩ <;> rcases hd.2.2 c hc.1 with h2 | ⟨h2, h2'⟩
  · omega
  · omega
  · omega
  · rcases h1' with h1' | ⟨h1', l1⟩ <;> rcases h2' with h2' | ⟨h2', l2⟩
    · omega
    · omega
    · omega
    · exact bytesLe_antisymm c d l1 l2

theorem suggest_fold (lower : Bytes → Bytes) (target : Bytes) : ∀ (rest done : List Bytes) (s : Bytes × Nat),
    (done ++ rest).Pairwise (fun a b => bytesLe a b = true) →
    ((s = ([], 0) ∧ ∀ c ∈ done, similarity (lower target) (lower c) < 50) ∨
      (IsBest lower target done s.1 ∧ s.2 = similarity (lower target) (lower s.1))) →
    let r := rest.foldl (suggestStep lower (lower target)) s
    (r = ([], 0) ∧ ∀ c ∈ done ++ rest, similarity (lower target) (lower c) < 50) ∨
      IsBest lower target (done ++ rest) r.1
  | [], done, s, _, h => by
    simp only [List.append_nil, List.foldl_nil]
    exact h.imp id And.left
  | c :: rest, done, s, hp, h => by
    have hp' : (done ++ [c] ++ rest).Pairwise (fun a b => bytesLe a b = true) := by
      rwa [List.append_assoc, List.singleton_append]
    have key := suggest_fold lower target rest (done ++ [c]) (suggestStep lower (lower target) s c) hp'
    rw [List.append_assoc, List.singleton_append] at key
    rw [List.foldl_cons]
    apply key
    have hle : ∀ d ∈ done, bytesLe d c = true := fun d hd =>
      (List.pairwise_append.mp hp).2.2 d hd c (by simp)
    rw [suggestStep]
    rcases h with ⟨hs, hlow⟩ | ⟨hb, hs⟩
    · subst hs
      by_cases h50 : similarity (lower target) (lower c) ≥ 50
      · rw [if_pos ⟨h50, .inl (by dsimp only; omega)⟩]
        right
        refine ⟨⟨by simp, h50, ?_⟩, rfl⟩
        intro d hd
        rcases List.mem_append.mp hd with hd | hd
        · left; have := hlow d hd; dsimp only; omega
        · rw [List.mem_singleton.mp hd]
          right
          refine ⟨rfl, .inr ⟨rfl, ?_⟩⟩
          have := bytesLe_total c c
          simpa using this
      · rw [if_neg (fun hh => h50 hh.1)]
        left
        refine ⟨rfl, ?_⟩
        intro d hd
        rcases List.mem_append.mp hd with hd | hd
        · exact hlow d hd
        · rw [List.mem_singleton.mp hd]; omega
    · by_cases hcond : similarity (lower target) (lower c) ≥ 50 ∧ (similarity (lower target) (lower c) > s.2 ∨
          (similarity (lower target) (lower c) = s.2 ∧ c.length < s.1.length))
      · rw [if_pos hcond]
        right
        refine ⟨⟨by simp, hcond.1, ?_⟩, rfl⟩
        intro d hd
        dsimp only
        rcases List.mem_append.mp hd with hd | hd
        · have h1 := hb.2.2 d hd
          rcases hcond.2 with h2 | ⟨h2, h3⟩
          · left; omega
          · rcases h1 with h1 | ⟨h1, h4⟩
            · left; omega
            · right
              refine ⟨by omega, .inl ?_⟩
              rcases h4 with h4 | ⟨h4, _⟩ <;> omega
        · rw [List.mem_singleton.mp hd]
          right
          refine ⟨rfl, .inr ⟨rfl, ?_⟩⟩
          have := bytesLe_total c c
          simpa using this
      · rw [if_neg hcond]
        right
        refine ⟨⟨by simp [hb.1], hb.2.1, ?_⟩, hs⟩
        intro d hd
        rcases List.mem_append.mp hd with hd | hd
        · exact hb.2.2 d hd
        · rw [List.mem_singleton.mp hd]
          have h50 := hb.2.1
          by_cases hlt : similarity (lower target) (lower c) < similarity (lower target) (lower s.1)
          · exact .inl hlt
          · right
            have h1 : ¬ similarity (lower target) (lower c) > s.2 := fun hh => hcond ⟨by omega, .inl hh⟩
            have h2 : similarity (lower target) (lower c) = similarity (lower target) (lower s.1) := by omega
            refine ⟨h2, ?_⟩
            have h3 : ¬ c.length < s.1.length := fun hh => hcond ⟨by omega, .inr ⟨by omega, hh⟩⟩
            by_cases h4 : s.1.length < c.length
            · exact .inl h4
            · exact .inr ⟨by omega, hle _ hb.1⟩

/-- C50: the suggestion is the best candidate; none is made exactly if no candidate is at least 50 % similar (an empty
candidate counts as none). -/
theorem C50_best (lower : Bytes → Bytes) (target : Bytes) (cs : List Bytes) :
    (findSimilar lower target cs = [] ∧ ∀ c ∈ cs, similarity (lower target) (lower c) < 50) ∨
      IsBest lower target cs (findSimilar lower target cs) := by
  rw [findSimilar]
  by_cases hz : cs.length = 0
  · rw [if_pos hz]
    left
    refine ⟨rfl, ?_⟩
    rw [List.length_eq_zero_iff.mp hz]; simp
  · rw [if_neg hz]
    have hs : (sortBy bytesLe cs).Pairwise (fun a b => bytesLe a b = true) :=
      sortBy_sorted bytesLe_trans bytesLe_total cs
    have hm : ∀ x, x ∈ sortBy bytesLe cs ↔ x ∈ cs := fun x => (sortBy_perm bytesLe cs).mem_iff
    have := suggest_fold lower target (sortBy bytesLe cs) [] ([], 0) (by simpa using hs) (.inl ⟨rfl, by simp⟩)
    rw [List.nil_append] at this
    rcases this with ⟨h1, h2⟩ | ⟨h1, h2, h3⟩
    · exact .inl ⟨by rw [h1], fun c hc => h2 c ((hm c).mpr hc)⟩
    · exact .inr ⟨(hm _).mp h1, h2, fun d hd => h3 d ((hm d).mpr hd)⟩

/-- C50: the order in which the candidates come, and duplicates among them, do not matter. -/
theorem C50_order_independent (lower : Bytes → Bytes) (target : Bytes) (cs cs' : List Bytes) (h : ∀ c, c ∈ cs ↔ c ∈ cs') :
    findSimilar lower target cs = findSimilar lower target cs' := by
  have tr : ∀ {c}, IsBest lower target cs c → IsBest lower target cs' c := fun ⟨h1, h2, h3⟩ =>
    ⟨(h _).mp h1, h2, fun d hd => h3 d ((h d).mpr hd)⟩
  rcases C50_best lower target cs with ⟨e1, h1⟩ | h1 <;> rcases C50_best lower target cs' with ⟨e2, h2⟩ | h2
  · rw [e1, e2]
  · have h3 := h1 _ ((h _).mpr h2.1)
    have h4 := h2.2.1
    omega
  · have h3 := h2 _ ((h _).mp h1.1)
    have h4 := h1.2.1
    omega
  · exact isBest_unique (tr h1) h2

theorem matchCount_le : ∀ (a b : Bytes), matchCount a b ≤ a.length ∧ matchCount a b ≤ b.length
  | [], b => by simp [matchCount]
  | _ :: _, [] => by simp [matchCount]
  | a :: x, b :: y => by
    have := matchCount_le x y
    rw [matchCount]
    simp only [List.length_cons]
    split <;> omega

theorem matchCount_full : ∀ (a b : Bytes), a.length = b.length → matchCount a b = a.length → a = b
  | [], [], _, _ => rfl
  | [], _ :: _, h, _ => by simp at h
  | _ :: _, [], h, _ => by simp at h
  | a :: x, b :: y, h, hm => by
    rw [matchCount] at hm
    simp only [List.length_cons, Nat.add_right_cancel_iff] at h hm
    have := (matchCount_le x y).1
    by_cases e : a = b
    · rw [if_pos e] at hm
      rw [e, matchCount_full x y h (by omega)]
    · rw [if_neg e] at hm
      omega

/-- C50: a score is a percentage, and only equal names score 100, so an existing name is always suggested before a
similar one. -/
theorem C50_score (a b : Bytes) : similarity a b ≤ 100 ∧ (similarity a b = 100 ↔ a = b) := by
  rw [similarity]
  by_cases e : a = b
  · simp [e]
  · rw [if_neg e]
    split
    · simp [e]
    · split
      · simp [e]
      · next h =>
        have h1 := matchCount_le a b
        have hlt : matchCount a b < max a.length b.length := by
          by_cases hl : a.length = b.length
          · have : matchCount a b ≠ a.length := fun hh => e (matchCount_full a b hl hh)
            omega
          · omega
        have : matchCount a b * 100 / max a.length b.length < 100 := by
          rw [Nat.div_lt_iff_lt_mul (by omega)]
          omega
        refine ⟨by omega, ?_⟩
        constructor
        · intro hh; omega
        · intro hh; exact absurd hh e

/-- `biuld` among `test`, `build` and `builds` -/
example : findSimilar id [98, 105, 117, 108, 100] [[116, 101, 115, 116], [98, 117, 105, 108, 100, 115], [98, 117, 105, 108, 100]]
    = [98, 117, 105, 108, 100] := by decide +kernel

/-- a candidate that is the empty string hides better suggestions of the same score -/
example : findSimilar id [98, 117] [[98, 117, 105], []] = [] ∧ findSimilar id [98, 117] [[98, 117, 105]] = [98, 117, 105] := by
  decide +kernel

end Bab
