import Verif.Model.Suggest
/-
Sorting.
-/

namespace Bab

theorem insertBy_perm {α : Type} (le : α → α → Bool) (a : α) : ∀ l : List α, (insertBy le a l).Perm (a :: l)
  | [] => List.Perm.refl _
  | b :: l => by
    rw [insertBy]
    split
    · exact List.Perm.refl _
    · exact ((insertBy_perm le a l).cons b).trans (List.Perm.swap a b l)

theorem sortBy_perm {α : Type} (le : α → α → Bool) : ∀ l : List α, (sortBy le l).Perm l
  | [] => List.Perm.refl _
  | a :: l => (insertBy_perm le a _).trans ((sortBy_perm le l).cons a)

theorem insertBy_sorted {α : Type} {le : α → α → Bool} (htr : ∀ a b c, le a b = true → le b c = true → le a c = true)
    (htot : ∀ a b, (le a b || le b a) = true) (a : α) : ∀ l : List α, l.Pairwise (fun x y => le x y = true) →
      (insertBy le a l).Pairwise (fun x y => le x y = true)
  | [], _ => by simp [insertBy]
  | b :: l, h => by
    rw [insertBy]
    rw [List.pairwise_cons] at h
    by_cases hab : le a b = true
    · rw [if_pos hab, List.pairwise_cons, List.pairwise_cons]
      refine ⟨?_, h⟩
      intro c hc
      rcases List.mem_cons.mp hc with rfl | hc
      · exact hab
      · exact htr a b c hab (h.1 c hc)
    · rw [if_neg hab, List.pairwise_cons]
      refine ⟨?_, insertBy_sorted htr htot a l h.2⟩
      intro c hc
      rcases List.mem_cons.mp ((insertBy_perm le a l).mem_iff.mp hc) with rfl | hc
      · have := htot c b
        rw [Bool.or_eq_true] at this
        exact this.resolve_left hab
      · exact h.1 c hc

theorem sortBy_sorted {α : Type} {le : α → α → Bool} (htr : ∀ a b c, le a b = true → le b c = true → le a c = true)
    (htot : ∀ a b, (le a b || le b a) = true) : ∀ l : List α, (sortBy le l).Pairwise (fun x y => le x y = true)
  | [] => List.Pairwise.nil
  | a :: l => insertBy_sorted htr htot a _ (sortBy_sorted htr htot l)

/-- two sorted lists with the same elements are equal -/
theorem sorted_perm_eq {α : Type} {le : α → α → Bool} (hanti : ∀ a b, le a b = true → le b a = true → a = b)
    {l l' : List α} (hp : l.Perm l') (h : l.Pairwise (fun x y => le x y = true)) (h' : l'.Pairwise (fun x y => le x y = true)) :
    l = l' :=
  hp.eq_of_pairwise (fun a b _ _ => hanti a b) h h'

end Bab
