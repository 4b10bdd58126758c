import Verif.Model.Finder
import Verif.Proof.Command
/-
C51: which Babfile is used.
-/

namespace Bab
open Spec

namespace Spec

/-- the names a Babfile may have, the preferred ones first -/
def documentedNames : List Str := ["Babfile", "Babfile.yaml", "Babfile.yml", "babfile.yaml", "babfile.yml"].map String.toList

/-- a directory, given by the names that lead to it, last one first, has a Babfile called `n` -/
def HasBabfile (ex : Str → Bool) (dir : List Str) (n : Str) : Prop := n ∈ documentedNames ∧ ex (pathOf (n :: dir)) = true

/-- the Babfile to use from directory `cwd` is the file `n` in `dir`: `dir` is `cwd` or a directory around it, no
directory between has a Babfile, and no name before `n` exists in `dir` -/
def Nearest (ex : Str → Bool) (cwd dir : List Str) (n : Str) : Prop :=
  dir <:+ cwd ∧ HasBabfile ex dir n ∧
  (∀ between, dir <:+ between → between <:+ cwd → between ≠ dir → ∀ m, ¬ HasBabfile ex between m) ∧
  ∃ before after, documentedNames = before ++ n :: after ∧ ∀ m ∈ before, ex (pathOf (m :: dir)) = false

end Spec

theorem babfileNames_plain : ∀ n ∈ babfileNames, PlainName n := by
  unfold PlainName
  decide

theorem pathOf_join {d : List Str} (hd : ∀ e ∈ d, PlainName e) {n : Str} (hn : PlainName n) :
    joinPath (pathOf d) n = pathOf (n :: d) := by
  unfold joinPath
  have hne : pathOf d ≠ [] := by
    intro h0
    have := pathOf_abs d
    rw [h0] at this; cases this
  rw [if_neg hne, if_neg hn.1, cleanPath_abs, elems_append, walk_append, walk_pathOf hd, elems_single hn.2.2.2,
    List.append_nil]
  · show pathOf (enter d n) = _
    unfold enter
    rw [if_neg (by simp only [not_or]; exact ⟨hn.1, hn.2.1⟩), if_neg hn.2.2.1]
  · have := pathOf_abs d
    cases h : pathOf d with
    | nil => exact absurd h hne
    | cons c r => rw [h] at this; simpa using this

theorem elems_pathOf {d : List Str} (hd : ∀ e ∈ d, PlainName e) (h : d ≠ []) : elems (pathOf d) = [] :: d.reverse := by
  unfold pathOf
  rw [if_neg h]
  have := elems_flat (l := d.reverse) (fun e he => (hd e (List.mem_reverse.mp he)).2.2.2) []
  rw [List.nil_append] at this
  rw [this]; rfl

theorem pathOf_dir {d : List Str} (hd : ∀ e ∈ d, PlainName e) : dirPath (pathOf d) = pathOf d.tail := by
  rw [dirPath_abs (pathOf_abs d)]
  congr 1
  unfold dirOf
  cases d with
  | nil => rfl
  | cons n d =>
    rw [elems_pathOf hd (by simp)]
    have h1 : ([] :: (n :: d).reverse : List Str).dropLast = [] :: d.reverse := by
      rw [List.reverse_cons, ← List.cons_append, List.dropLast_concat]
    rw [h1]
    show walk (enter [] []) d.reverse = d
    have h0 : enter [] [] = [] := by simp [enter]
    rw [h0, walk_self (fun e he => hd e (List.mem_cons_of_mem _ (List.mem_reverse.mp he)))]
    simp

theorem pathOf_inj {d d' : List Str} (hd : ∀ e ∈ d, PlainName e) (hd' : ∀ e ∈ d', PlainName e)
    (h : pathOf d = pathOf d') : d = d' := by
  have h1 := walk_pathOf hd []
  have h2 := walk_pathOf hd' []
  rw [List.append_nil] at h1 h2
  rw [← h1, ← h2, h]

theorem pathOf_length (d : List Str) : d.length ≤ (pathOf d).length := by
  unfold pathOf
  split
  · next h => rw [h]; simp
  · rw [← List.length_reverse]
    generalize d.reverse = l
    induction l with
    | nil => simp
    | cons e l ih => rw [List.flatMap_cons, List.length_append, List.length_cons, List.length_cons]; omega

theorem find_first {α : Type} {p : α → Bool} : ∀ {l : List α} {a : α}, l.find? p = some a →
    ∃ before after, l = before ++ a :: after ∧ p a = true ∧ ∀ b ∈ before, p b = false
  | [], _, h => by cases h
  | x :: l, a, h => by
    rw [List.find?_cons] at h
    cases hp : p x with
    | true => simp only [hp, Option.some.injEq] at h; subst h; exact ⟨[], l, rfl, hp, by simp⟩
    | false =>
      simp only [hp] at h
      obtain ⟨b, c, h1, h2, h3⟩ := find_first h
      refine ⟨x :: b, c, by rw [h1]; rfl, h2, ?_⟩
      intro y hy
      rcases List.mem_cons.mp hy with rfl | hy
      · exact hp
      · exact h3 y hy

theorem suffix_tail {a d : List Str} (h : a <:+ d) : a = d ∨ a <:+ d.tail := by
  cases d with
  | nil => exact .inl (List.suffix_nil.mp h)
  | cons x d =>
    rcases List.suffix_cons_iff.mp h with h | h
    · exact .inl h
    · exact .inr h

theorem findFrom_spec (ex : Str → Bool) : ∀ (fuel : Nat) (d : List Str), (∀ e ∈ d, PlainName e) → d.length < fuel →
    (∃ dir n, findFrom ex fuel (pathOf d) = some (pathOf (n :: dir)) ∧ Nearest ex d dir n) ∨
      (findFrom ex fuel (pathOf d) = none ∧ ∀ dir, dir <:+ d → ∀ n, ¬ HasBabfile ex dir n)
  | 0, _, _, h => absurd h (Nat.not_lt_zero _)
  | fuel + 1, d, hd, hf => by
    rw [findFrom]
    have hj : ∀ n ∈ babfileNames, joinPath (pathOf d) n = pathOf (n :: d) := fun n hn =>
      pathOf_join hd (babfileNames_plain n hn)
    cases hfi : babfileNames.find? (fun n => ex (joinPath (pathOf d) n)) with
    | some n =>
      left
      obtain ⟨before, after, h1, h2, h3⟩ := find_first hfi
      have hn : n ∈ babfileNames := by rw [h1]; simp
      refine ⟨d, n, by rw [← hj n hn], List.suffix_refl _, ⟨hn, by rw [← hj n hn]; exact h2⟩, ?_, before, after, h1, ?_⟩
      · intro b h4 h5 h6
        exact absurd (h5.eq_of_length_le h4.length_le) h6
      · intro m hm
        rw [← hj m (by rw [h1]; simp [hm])]
        exact h3 m hm
    | none =>
      have hnone : ∀ n, ¬ HasBabfile ex d n := by
        rintro n ⟨hn, hx⟩
        have := List.find?_eq_none.mp hfi n hn
        rw [hj n hn] at this
        exact this hx
      dsimp only
      rw [pathOf_dir hd]
      cases d with
      | nil =>
        rw [List.tail_nil, if_pos rfl]
        right
        refine ⟨rfl, ?_⟩
        intro dir hs n
        rw [List.suffix_nil.mp hs]
        exact hnone n
      | cons x d =>
        have hd' : ∀ e ∈ d, PlainName e := fun e he => hd e (List.mem_cons_of_mem _ he)
        have hne : pathOf d ≠ pathOf (x :: d) := by
          intro h
          have := congrArg List.length (pathOf_inj hd' hd h)
          simp at this
        rw [List.tail_cons, if_neg hne]
        rcases findFrom_spec ex fuel d hd' (by simp at hf; omega) with ⟨dir, n, h1, h2, h3, h4, h5⟩ | ⟨h1, h2⟩
        · left
          refine ⟨dir, n, h1, h2.trans (List.suffix_cons _ _), h3, ?_, h5⟩
          intro b h6 h7 h8 m
          rcases suffix_tail h7 with rfl | h7
          · exact hnone m
          · exact h4 b h6 h7 h8 m
        · right
          refine ⟨h1, ?_⟩
          intro dir hs
          rcases suffix_tail hs with rfl | hs
          · exact hnone
          · exact h2 dir hs

/-- C51: from any working directory, the Babfile used is the one with the first name in the closest directory that has
one; none is found exactly if no directory from there to the root has one. -/
theorem C51_nearest (ex : Str → Bool) (cwd : List Str) (hc : ∀ e ∈ cwd, PlainName e) :
    (∃ dir n, findBabfile ex (pathOf cwd) = some (pathOf (n :: dir)) ∧ Nearest ex cwd dir n) ∨
      (findBabfile ex (pathOf cwd) = none ∧ ∀ dir, dir <:+ cwd → ∀ n, ¬ HasBabfile ex dir n) :=
  findFrom_spec ex _ cwd hc (by have := pathOf_length cwd; omega)

/-- C51: there is one such Babfile at most, so the answer is determined. -/
theorem C51_unique {ex : Str → Bool} {cwd dir dir' : List Str} {n n' : Str} (h : Nearest ex cwd dir n)
    (h' : Nearest ex cwd dir' n') : dir = dir' ∧ n = n' := by
  have hdir : dir = dir' := by
    rcases List.suffix_or_suffix_of_suffix h.1 h'.1 with hs | hs
    · by_cases e : dir' = dir
      · exact e.symm
      · exact absurd h'.2.1 (h.2.2.1 dir' hs h'.1 e n')
    · by_cases e : dir = dir'
      · exact e
      · exact absurd h.2.1 (h'.2.2.1 dir hs h.1 e n)
  subst hdir
  refine ⟨rfl, ?_⟩
  obtain ⟨b, a, e1, hb⟩ := h.2.2.2
  obtain ⟨b', a', e2, hb'⟩ := h'.2.2.2
  have he := e1.symm.trans e2
  rcases List.append_eq_append_iff.mp he with ⟨m, h1, h2⟩ | ⟨m, h1, h2⟩
  · cases m with
    | nil => simp at h2; exact h2.1
    | cons x m =>
      simp only [List.cons_append, List.cons.injEq] at h2
      have := hb' n (by rw [h1, h2.1]; simp)
      rw [h.2.1.2] at this; cases this
  · cases m with
    | nil => simp at h2; exact h2.1.symm
    | cons x m =>
      simp only [List.cons_append, List.cons.injEq] at h2
      have := hb n' (by rw [h1, h2.1]; simp)
      rw [h'.2.1.2] at this; cases this

/-- from `/a/b` with `/a/Babfile.yml`, `/a/babfile.yaml` and `/Babfile` -/
example : findBabfile (fun p => p = "/a/Babfile.yml".toList || p = "/a/babfile.yaml".toList || p = "/Babfile".toList)
    (pathOf ["b".toList, "a".toList]) = some "/a/Babfile.yml".toList := by decide +kernel

example : findBabfile (fun _ => false) "/a/b".toList = none := by decide +kernel

end Bab
