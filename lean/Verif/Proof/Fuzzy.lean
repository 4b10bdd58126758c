import Verif.Spec.Fuzzy
/-
The fuzzy matcher finds exactly the texts that contain the query, and its positions spell the query.
-/

namespace Bab.Picker.Fuzzy
open Bab Picker.Spec

variable {u : Letters}

theorem within_take {a c : Char} {q t : Str} (h : u.same c a = true) : Within u (a :: q) (c :: t) ↔ Within u q t := by
  have tail : ∀ {q' t'}, Within u q' t' → ∀ {a q}, q' = a :: q → Within u q t' := by
    intro q' t' hw
    induction hw with
    | nil t => intro a q e; cases e
    | take h hr ih => intro a q e; obtain ⟨rfl, rfl⟩ := List.cons.inj e; exact .skip hr
    | skip hr ih => intro a q e; exact .skip (ih e)
  constructor
  · intro hw
    cases hw with
    | take _ hr => exact hr
    | skip hr => exact tail hr rfl
  · exact .take h

theorem within_skip {a c : Char} {q t : Str} (h : ¬ u.same c a = true) : Within u (a :: q) (c :: t) ↔ Within u (a :: q) t := by
  constructor
  · intro hw
    cases hw with
    | take h' _ => exact absurd h' h
    | skip hr => exact hr
  · exact .skip

theorem not_within_nil {a : Char} {q : Str} : ¬ Within u (a :: q) [] := by
  intro h; cases h

theorem within_nil_iff {q : Str} : Within u q [] ↔ q = [] := by
  constructor
  · intro h; cases h; rfl
  · rintro rfl; exact .nil _

theorem drop_of_get {q : Str} {p : Nat} {a : Char} (h : q[p]? = some a) : q.drop p = a :: q.drop (p + 1) := by
  obtain ⟨hp, rfl⟩ := List.getElem?_eq_some_iff.mp h
  exact List.drop_eq_getElem_cons hp

theorem take_of_get {q : Str} {p : Nat} {a : Char} (h : q[p]? = some a) : q.take (p + 1) = q.take p ++ [a] := by
  rw [List.take_succ, h]; rfl

/-- what holds between two characters -/
structure Base (u : Letters) (query text : Str) (j : Nat) (s : Scan) : Prop where
  len : s.positions.length = s.pattern
  adj : 0 ≤ s.adjacent
  fits : List.Forall₂ (fun m a => Fits u text m a) s.positions (query.take s.pattern)
  sorted : s.positions.Pairwise (· < ·)
  below : ∀ m ∈ s.positions, m < j

/-- a place for the current character of the query is known -/
def Holds (u : Letters) (query text : Str) (j : Nat) (s : Scan) : Prop :=
  0 ≤ s.best ∧ ∃ m a, s.place = some m ∧ query[s.pattern]? = some a ∧ Fits u text m a ∧ (∀ x ∈ s.positions, x < m) ∧ m < j

/-- nothing is known yet -/
def Fresh (s : Scan) : Prop := s.place = none ∧ s.best = -1

theorem bonus_nonneg {s : Scan} (h : 0 ≤ s.adjacent) : 0 ≤ bonus s := by
  unfold bonus
  split
  · split <;> omega
  · omega

theorem score_nonneg {j : Nat} {c : Char} {s : Scan} (h : 0 ≤ s.adjacent) : 0 ≤ score u j c s := by
  unfold score
  have := bonus_nonneg h
  split <;> split <;> split <;> omega

theorem consider_fields (p : Char) (j : Nat) (c : Char) (s : Scan) :
    (consider u p j c s).positions = s.positions ∧ (consider u p j c s).pattern = s.pattern ∧
    (0 ≤ s.adjacent → 0 ≤ (consider u p j c s).adjacent) := by
  unfold consider
  split
  · dsimp only
    have := @bonus_nonneg s
    split
    · exact ⟨rfl, rfl, fun h => by have := this h; dsimp only; omega⟩
    · exact ⟨rfl, rfl, fun h => by have := this h; dsimp only; omega⟩
  · exact ⟨rfl, rfl, id⟩

theorem size_append (a b : Str) : size (a ++ b) = size a + size b := by simp [size]

/-- comparing a character that fits -/
theorem consider_same {query text pre rest : Str} {p c : Char} {s : Scan} (ht : text = pre ++ c :: rest) (hb : Base u query text (size pre) s)
    (hp : query[s.pattern]? = some p) (hs : u.same c p = true) (hm : Holds u query text (size pre) s ∨ s.best = -1) :
    Holds u query text (size pre + c.utf8Size) (consider u p (size pre) c s) := by
  have hw := c.utf8Size_pos
  have hn := @score_nonneg u (size pre) c s hb.adj
  unfold consider
  rw [if_pos hs]
  dsimp only
  by_cases hg : score u (size pre) c s > s.best
  · rw [if_pos hg]
    exact ⟨hn, size pre, p, rfl, hp, ⟨pre, c, rest, ht, rfl, hs⟩, hb.below, by omega⟩
  · rw [if_neg hg]
    rcases hm with ⟨h1, m, a, h2, h3, h4, h5, h6⟩ | hm
    · exact ⟨h1, m, a, h2, h3, h4, h5, by omega⟩
    · omega

theorem consider_other {p c : Char} {j : Nat} {s : Scan} (hs : ¬ u.same c p = true) : consider u p j c s = s := by
  unfold consider; rw [if_neg hs]

theorem Base.step {query text : Str} {j k : Nat} {s : Scan} (h : Base u query text j s) (hk : j ≤ k) : Base u query text k s :=
  ⟨h.len, h.adj, h.fits, h.sorted, fun m hm => Nat.lt_of_lt_of_le (h.below m hm) hk⟩

theorem Base.consider {query text : Str} {j : Nat} {s : Scan} (h : Base u query text j s) (p c : Char) (i : Nat) :
    Base u query text j (consider u p i c s) := by
  obtain ⟨h1, h2, h3⟩ := consider_fields (u := u) p i c s
  exact ⟨by rw [h1, h2]; exact h.len, h3 h.adj, by rw [h1, h2]; exact h.fits, by rw [h1]; exact h.sorted, by rw [h1]; exact h.below⟩

/-- taking a place -/
theorem Base.commit {query text : Str} {j : Nat} {s : Scan} {m : Nat} {a : Char} {best total : Int} (h : Base u query text j s)
    (hq : query[s.pattern]? = some a) (hf : Fits u text m a) (hl : ∀ x ∈ s.positions, x < m) (hm : m < j) :
    Base u query text j { s with total := total, positions := s.positions ++ [m], best := best, pattern := s.pattern + 1 } := by
  refine ⟨by simp [h.len], h.adj, ?_, ?_, ?_⟩
  · dsimp only
    rw [take_of_get hq]
    exact List.rel_append h.fits (.cons hf .nil)
  · rw [List.pairwise_append]
    exact ⟨h.sorted, List.pairwise_singleton _ _, fun x hx y hy => by rw [List.mem_singleton.mp hy]; exact hl x hx⟩
  · intro x hx
    rcases List.mem_append.mp hx with hx | hx
    · exact h.below x hx
    · rw [List.mem_singleton.mp hx]; exact hm

theorem commit_no {x y : Char} {s : Scan} (h : ¬ (u.same x y = true ∨ y = nul)) : commit u x y s = s := by
  unfold Fuzzy.commit; rw [if_neg h]

theorem commit_none {x y : Char} {s : Scan} (h : s.place = none) : commit u x y s = s := by
  unfold Fuzzy.commit; rw [h]; split <;> rfl

theorem commit_yes {x y : Char} {s : Scan} {m : Nat} (h : u.same x y = true ∨ y = nul) (hm : s.place = some m) :
    ∃ total, commit u x y s = { s with total := total, positions := s.positions ++ [m], best := -1, pattern := s.pattern + 1 } := by
  unfold Fuzzy.commit; rw [if_pos h, hm]; exact ⟨_, rfl⟩

/-- the last two assignments of an iteration change nothing that matters -/
theorem Base.last {query text : Str} {j : Nat} {s : Scan} (h : Base u query text j s) (c : Char) (i : Nat) :
    Base u query text j { s with last := c, lastIndex := i } := ⟨h.len, h.adj, h.fits, h.sorted, h.below⟩

/-- what the state says about the text that is left, which begins with `c` -/
def Mode (u : Letters) (query text : Str) (j : Nat) (c : Char) (s : Scan) (left : Str) : Prop :=
  (Fresh s ∧ left = query.drop s.pattern) ∨
  (Holds u query text j s ∧ left = query.drop (s.pattern + 1) ∧ ∀ b, query[s.pattern + 1]? = some b → ¬ u.same c b = true) ∨
  (s.best = -1 ∧ left = query.drop s.pattern ∧ ∃ a, query[s.pattern]? = some a ∧ u.same c a = true)

theorem scan_ok (hu : LettersOK u) {query text : Str} (ht : nul ∉ text) : ∀ (rest : Str) (c : Char) (pre : Str) (s : Scan) (left : Str),
    text = pre ++ c :: rest → Base u query text (size pre) s → s.pattern < query.length → Mode u query text (size pre) c s left →
    ∃ s', scan u query (size pre) (c :: rest) s = some s' ∧ Base u query text (size text) s' ∧ s'.pattern ≤ query.length ∧
      (s'.pattern = query.length ↔ Within u left (c :: rest)) := by
  intro rest
  induction rest with
  | nil =>
    intro c pre s left he hb hlt hm
    obtain ⟨p, hp⟩ : ∃ p, query[s.pattern]? = some p := ⟨_, List.getElem?_eq_getElem hlt⟩
    have hsz : size text = size pre + c.utf8Size := by rw [he, size_append]; simp [size]
    have hb1 := (hb.consider p c (size pre)).step (Nat.le_add_right (size pre) c.utf8Size)
    obtain ⟨f1, f2, -⟩ := consider_fields (u := u) p (size pre) c s
    rw [scan, hp]
    dsimp only
    rw [scan]
    -- a place is known at the end
    have done : Holds u query text (size pre + c.utf8Size) (consider u p (size pre) c s) → (Within u left [c] ↔ query.drop (s.pattern + 1) = []) →
        ∃ s', some ({ commit u ((query[(consider u p (size pre) c s).pattern + 1]?).getD nul) (([] : Str).head?.getD nul) (consider u p (size pre) c s)
          with last := c, lastIndex := size pre }) = some s' ∧ Base u query text (size text) s' ∧ s'.pattern ≤ query.length ∧
          (s'.pattern = query.length ↔ Within u left [c]) := by
      rintro ⟨-, m, a, h2, h3, h4, h5, h6⟩ hw
      obtain ⟨total, hc⟩ := commit_yes (u := u) (x := (query[(consider u p (size pre) c s).pattern + 1]?).getD nul) (y := nul) (.inr rfl) h2
      have hc' : commit u ((query[(consider u p (size pre) c s).pattern + 1]?).getD nul) (([] : Str).head?.getD nul) (consider u p (size pre) c s) = _ := hc
      rw [hc', hsz]
      refine ⟨_, rfl, (hb1.commit h3 h4 h5 h6).last c (size pre), ?_, ?_⟩
      · dsimp only
        rw [f2]; omega
      · dsimp only
        rw [f2, hw, List.drop_eq_nil_iff]
        omega
    by_cases hs : u.same c p = true
    · have hh : Holds u query text (size pre) s ∨ s.best = -1 := by
        rcases hm with ⟨⟨_, h⟩, _⟩ | ⟨h, _⟩ | ⟨h, _⟩
        · exact .inr h
        · exact .inl h
        · exact .inr h
      refine done (consider_same he hb hp hs hh) ?_
      rcases hm with ⟨-, rfl⟩ | ⟨-, rfl, hno⟩ | ⟨-, rfl, -⟩
      · rw [drop_of_get hp, within_take hs, within_nil_iff]
      · cases hd : query.drop (s.pattern + 1) with
        | nil => exact ⟨fun _ => rfl, fun _ => .nil _⟩
        | cons b q =>
          have hb' : query[s.pattern + 1]? = some b := by
            have := congrArg List.head? hd
            rwa [List.head?_drop] at this
          rw [within_skip (hno b hb'), within_nil_iff]
      · rw [drop_of_get hp, within_take hs, within_nil_iff]
    · rcases hm with ⟨⟨h1, h2⟩, rfl⟩ | ⟨hh, rfl, hno⟩ | ⟨-, -, a, ha, hs'⟩
      · rw [consider_other hs]
        rw [commit_none h1, hsz]
        refine ⟨_, rfl, (hb.step (Nat.le_add_right _ _)).last c (size pre), Nat.le_of_lt hlt, ?_⟩
        · dsimp only
          rw [drop_of_get hp, within_skip hs]
          exact ⟨fun h => by omega, fun h => absurd h not_within_nil⟩
      · refine done ?_ ?_
        · rw [consider_other hs]
          obtain ⟨g1, m, a, g2, g3, g4, g5, g6⟩ := hh
          exact ⟨g1, m, a, g2, g3, g4, g5, by omega⟩
        · cases hd : query.drop (s.pattern + 1) with
          | nil => exact ⟨fun _ => rfl, fun _ => .nil _⟩
          | cons b q =>
            have hb' : query[s.pattern + 1]? = some b := by
              have := congrArg List.head? hd
              rwa [List.head?_drop] at this
            rw [within_skip (hno b hb'), within_nil_iff]
      · rw [hp] at ha
        cases ha
        exact absurd hs' hs
  | cons d rest ih =>
    intro c pre s left he hb hlt hm
    obtain ⟨p, hp⟩ : ∃ p, query[s.pattern]? = some p := ⟨_, List.getElem?_eq_getElem hlt⟩
    have he' : text = (pre ++ [c]) ++ d :: rest := by rw [he]; simp
    have hsz : size (pre ++ [c]) = size pre + c.utf8Size := by rw [size_append]; simp [size]
    have hd0 : d ≠ nul := by
      rintro rfl
      exact ht (by rw [he]; simp)
    have hb1 := (hb.consider p c (size pre)).step (Nat.le_add_right (size pre) c.utf8Size)
    obtain ⟨f1, f2, -⟩ := consider_fields (u := u) p (size pre) c s
    rw [scan, hp]
    dsimp only
    rw [← hsz]
    -- a place is known
    have go : Holds u query text (size pre + c.utf8Size) (consider u p (size pre) c s) →
        (Within u left (c :: d :: rest) ↔ Within u (query.drop (s.pattern + 1)) (d :: rest)) →
        ∃ s', scan u query (size (pre ++ [c])) (d :: rest)
            { commit u ((query[(consider u p (size pre) c s).pattern + 1]?).getD nul) ((d :: rest).head?.getD nul) (consider u p (size pre) c s)
              with last := c, lastIndex := size pre } = some s' ∧ Base u query text (size text) s' ∧ s'.pattern ≤ query.length ∧
          (s'.pattern = query.length ↔ Within u left (c :: d :: rest)) := by
      intro hh hw
      have hh' := hh
      obtain ⟨g1, m, a, g2, g3, g4, g5, g6⟩ := hh
      rw [hw]
      rw [f2]
      cases hn : query[s.pattern + 1]? with
      | none =>
        rw [commit_no (x := (none : Option Char).getD nul) (y := (d :: rest).head?.getD nul) (show ¬ (u.same nul d = true ∨ d = nul) from by
          rintro (h | h)
          · exact hd0 (hu.zero d h)
          · exact hd0 h)]
        refine ih d (pre ++ [c]) _ _ he' ?_ ?_ (.inr (.inl ⟨?_, ?_, ?_⟩))
        · rw [hsz]; exact hb1.last c (size pre)
        · dsimp only; rw [f2]; exact hlt
        · rw [hsz]; exact hh'
        · dsimp only; rw [f2]
        · dsimp only
          intro b hb'
          rw [f2, hn] at hb'; cases hb'
      | some b =>
        have hlt' : s.pattern + 1 < query.length := (List.getElem?_eq_some_iff.mp hn).1
        by_cases hs : u.same b d = true
        · obtain ⟨total, hc⟩ := commit_yes (u := u) (x := b) (y := d) (.inl hs) g2
          have hc' : commit u ((some b).getD nul) ((d :: rest).head?.getD nul) (consider u p (size pre) c s) = _ := hc
          rw [hc']
          refine ih d (pre ++ [c]) _ _ he' ?_ ?_ (.inr (.inr ⟨rfl, ?_, b, ?_, hu.symm _ _ hs⟩))
          · rw [hsz]
            exact (hb1.commit g3 g4 g5 g6).last c (size pre)
          · dsimp only; rw [f2]; exact hlt'
          · dsimp only; rw [f2]
          · dsimp only; rw [f2]; exact hn
        · rw [commit_no (x := (some b).getD nul) (y := (d :: rest).head?.getD nul) (show ¬ (u.same b d = true ∨ d = nul) from by
            rintro (h | h)
            · exact hs h
            · exact hd0 h)]
          refine ih d (pre ++ [c]) _ _ he' ?_ ?_ (.inr (.inl ⟨?_, ?_, ?_⟩))
          · rw [hsz]; exact hb1.last c (size pre)
          · dsimp only; rw [f2]; exact hlt
          · rw [hsz]; exact hh'
          · dsimp only; rw [f2]
          · dsimp only
            intro b' hb'
            rw [f2, hn] at hb'
            cases hb'
            exact fun h => hs (hu.symm _ _ h)
    by_cases hs : u.same c p = true
    · have hh : Holds u query text (size pre) s ∨ s.best = -1 := by
        rcases hm with ⟨⟨_, h⟩, _⟩ | ⟨h, _⟩ | ⟨h, _⟩
        · exact .inr h
        · exact .inl h
        · exact .inr h
      refine go (consider_same he hb hp hs hh) ?_
      rcases hm with ⟨-, rfl⟩ | ⟨-, rfl, hno⟩ | ⟨-, rfl, -⟩
      · rw [drop_of_get hp, within_take hs]
      · cases hd : query.drop (s.pattern + 1) with
        | nil => exact ⟨fun _ => .nil _, fun _ => .nil _⟩
        | cons b q =>
          have hb' : query[s.pattern + 1]? = some b := by
            have := congrArg List.head? hd
            rwa [List.head?_drop] at this
          rw [within_skip (hno b hb')]
      · rw [drop_of_get hp, within_take hs]
    · rcases hm with ⟨⟨h1, h2⟩, rfl⟩ | ⟨hh, rfl, hno⟩ | ⟨-, -, a, ha, hs'⟩
      · rw [consider_other hs]
        rw [commit_none h1, drop_of_get hp, within_skip hs, ← drop_of_get hp]
        exact ih d (pre ++ [c]) _ _ he' (by rw [hsz]; exact (hb.step (Nat.le_add_right _ _)).last c (size pre)) hlt (.inl ⟨⟨h1, h2⟩, rfl⟩)
      · refine go ?_ ?_
        · rw [consider_other hs]
          obtain ⟨g1, m, a, g2, g3, g4, g5, g6⟩ := hh
          exact ⟨g1, m, a, g2, g3, g4, g5, by omega⟩
        · cases hd : query.drop (s.pattern + 1) with
          | nil => exact ⟨fun _ => .nil _, fun _ => .nil _⟩
          | cons b q =>
            have hb' : query[s.pattern + 1]? = some b := by
              have := congrArg List.head? hd
              rwa [List.head?_drop] at this
            rw [within_skip (hno b hb')]
      · rw [hp] at ha
        cases ha
        exact absurd hs' hs

/-- the result for a text -/
theorem matchOne_spec (hu : LettersOK u) {query text : Str} (h0 : query ≠ []) (ht : nul ∉ text) (i : Nat) :
    ∃ r, matchOne u query i text = some r ∧ (r.isSome = true ↔ Within u query text) ∧
      ∀ h, r = some h → h.index = i ∧ Spells u text h.positions query := by
  unfold matchOne
  cases text with
  | nil =>
    have hne : ¬ (([] : List Nat).length = query.length) := by
      intro h; exact h0 (List.length_eq_zero_iff.mp h.symm)
    refine ⟨none, ?_, ?_, fun h e => nomatch e⟩
    · rw [scan, Option.map_some, if_neg hne]
    · rw [within_nil_iff]; simp [h0]
  | cons c rest =>
    have hlt : 0 < query.length := List.length_pos_iff.mpr h0
    obtain ⟨s', h1, h2, h3, h4⟩ := scan_ok hu ht rest c [] {} (query.drop 0) rfl
      ⟨rfl, by decide, by simp, .nil, fun m h => nomatch h⟩ hlt (.inl ⟨⟨rfl, rfl⟩, rfl⟩)
    have h1' : scan u query 0 (c :: rest) {} = some s' := h1
    rw [h1', Option.map_some, h2.len]
    rw [List.drop_zero] at h4
    refine ⟨_, rfl, ?_, ?_⟩
    · by_cases h : s'.pattern = query.length
      · rw [if_pos h]; simp [h4.mp h]
      · rw [if_neg h]; simp [mt h4.mpr h]
    · intro h e
      split at e
      · next hp =>
        cases e
        refine ⟨rfl, ?_, h2.sorted⟩
        have := h2.fits
        rwa [hp, List.take_length] at this
      · cases e

/-! ## a bound for scores -/

/-- what `currAdjacentMatchBonus` can have become -/
def maxAdjacent : Nat → Int
  | 0 => 0
  | k + 1 => 3 * maxAdjacent k + 5

/-- the best score of the next character after some -/
def maxNext : Nat → Int
  | 0 => 50
  | k + 1 => 55 + 2 * maxAdjacent k

/-- the score of several characters -/
def maxTotal : Nat → Int
  | 0 => 0
  | k + 1 => maxTotal k + maxNext k

theorem maxAdjacent_nonneg (k : Nat) : 0 ≤ maxAdjacent k := by
  induction k with
  | zero => exact Int.le_refl _
  | succ k ih => rw [maxAdjacent]; omega

theorem maxNext_pos (k : Nat) : 50 ≤ maxNext k := by
  cases k with
  | zero => exact Int.le_refl _
  | succ k => rw [maxNext]; have := maxAdjacent_nonneg k; omega

/-- the variables before the character at `j` -/
structure Small (j : Nat) (s : Scan) : Prop where
  len : s.positions.length = s.pattern
  adj0 : 0 ≤ s.adjacent
  adj : s.adjacent ≤ maxAdjacent s.pattern
  adj' : s.positions.getLast? = some s.lastIndex → s.adjacent ≤ maxAdjacent (s.pattern - 1)
  best : s.best ≤ maxNext s.pattern
  total : s.total ≤ maxTotal s.pattern
  below : ∀ m ∈ s.positions, m < j
  place : ∀ m, s.place = some m → m < j

theorem bonus_le {j : Nat} {s : Scan} (h : Small j s) : bonus s + 50 ≤ maxNext s.pattern ∧ s.adjacent + bonus s ≤ maxAdjacent s.pattern := by
  unfold bonus
  cases hl : s.positions.getLast? with
  | none => exact ⟨by have := maxNext_pos s.pattern; dsimp only; omega, by have := h.adj; dsimp only; omega⟩
  | some m =>
    dsimp only
    by_cases e : s.lastIndex = m
    · rw [if_pos e]
      have := h.adj' (by rw [hl, e])
      obtain ⟨k, hk⟩ : ∃ k, s.pattern = k + 1 := by
        refine ⟨s.pattern - 1, ?_⟩
        have : 0 < s.positions.length := by
          rw [List.length_pos_iff]; rintro h0; rw [h0] at hl; cases hl
        rw [h.len] at this; omega
      rw [hk] at this ⊢
      rw [maxNext, maxAdjacent]
      simp only [Nat.add_sub_cancel] at this
      exact ⟨by omega, by omega⟩
    · rw [if_neg e]
      exact ⟨by have := maxNext_pos s.pattern; omega, by have := h.adj; omega⟩

theorem score_le {j : Nat} {c : Char} {s : Scan} (h : Small j s) : score u j c s ≤ maxNext s.pattern := by
  have := (bonus_le h).1
  unfold score
  split <;> split <;> split <;> omega

/-- what is left of `Small` within an iteration -/
structure Mid (j : Nat) (s : Scan) : Prop where
  len : s.positions.length = s.pattern
  adj0 : 0 ≤ s.adjacent
  adj : s.adjacent ≤ maxAdjacent s.pattern
  best : s.best ≤ maxNext s.pattern
  total : s.total ≤ maxTotal s.pattern
  below : ∀ m ∈ s.positions, m < j
  place : ∀ m, s.place = some m → m ≤ j

theorem consider_small {p : Char} {j : Nat} {c : Char} {s : Scan} (h : Small j s) : Mid j (consider u p j c s) := by
  have h1 := bonus_le h
  have h2 := @score_le u j c s h
  have h3 := bonus_nonneg h.adj0
  have h4 := h.adj0
  have hp : ∀ m, s.place = some m → m ≤ j := fun m hm => Nat.le_of_lt (h.place m hm)
  unfold consider
  split
  · dsimp only
    split
    · exact ⟨h.len, by dsimp only; omega, h1.2, h2, h.total, h.below, fun m hm => by cases hm; exact Nat.le_refl _⟩
    · exact ⟨h.len, by dsimp only; omega, h1.2, h.best, h.total, h.below, hp⟩
  · exact ⟨h.len, h.adj0, h.adj, h.best, h.total, h.below, hp⟩

theorem commit_small {x y : Char} {j : Nat} {c : Char} {s : Scan} (h : Mid j s) :
    Small (j + c.utf8Size) { commit u x y s with last := c, lastIndex := j } := by
  have hw := c.utf8Size_pos
  have same : Small (j + c.utf8Size) { s with last := c, lastIndex := j } := by
    refine ⟨h.len, h.adj0, h.adj, ?_, h.best, h.total, fun m hm => Nat.lt_add_right _ (h.below m hm), fun m hm => ?_⟩
    · intro hl
      exact absurd (h.below j (List.mem_of_getLast? hl)) (Nat.lt_irrefl j)
    · have := h.place m hm
      omega
  unfold commit
  split
  · cases hp : s.place with
    | none => exact same
    | some m =>
      have hm := h.place m hp
      have ha := maxAdjacent_nonneg s.pattern
      have hadj := h.adj
      have hb := h.best
      have ht := h.total
      dsimp only
      refine ⟨by simp [h.len], h.adj0, ?_, fun _ => h.adj, ?_, ?_, ?_, ?_⟩
      · dsimp only
        rw [maxAdjacent]; omega
      · dsimp only
        have := maxNext_pos (s.pattern + 1)
        omega
      · dsimp only
        rw [maxTotal]
        split <;> omega
      · intro x hx
        rcases List.mem_append.mp hx with hx | hx
        · exact Nat.lt_add_right _ (h.below x hx)
        · rw [List.mem_singleton.mp hx]; omega
      · intro x hx
        cases hx
        omega
  · exact same

theorem scan_small {query : Str} : ∀ (t : Str) (j : Nat) (s s' : Scan), scan u query j t s = some s' → Small j s → ∃ k, Small k s' := by
  intro t
  induction t with
  | nil => intro j s s' h hs; rw [scan] at h; cases h; exact ⟨j, hs⟩
  | cons c t ih =>
    intro j s s' h hs
    rw [scan] at h
    cases hp : query[s.pattern]? with
    | none => rw [hp] at h; cases h
    | some p =>
      rw [hp] at h
      exact ih _ _ _ h (commit_small (consider_small hs))

theorem small_start : Small 0 {} where
  len := rfl
  adj0 := by decide
  adj := by decide
  adj' h := nomatch h
  best := by decide
  total := by decide
  below m h := nomatch h
  place m h := nomatch h

/-- the score of a text for a query of up to six characters -/
theorem matchOne_small {query text : Str} {i : Nat} {h : Hit} (hq : query.length ≤ 6) (hm : matchOne u query i text = some (some h)) :
    h.score < 1000 ∧ h.positions.length < 500 := by
  unfold matchOne at hm
  obtain ⟨s, hs, he⟩ := Option.map_eq_some_iff.mp hm
  obtain ⟨k, hk⟩ := scan_small _ _ _ _ hs small_start
  split at he
  · next hl =>
    cases he
    dsimp only
    have hp : s.pattern ≤ 6 := by rw [← hk.len, hl]; exact hq
    have ht : s.total ≤ 905 := by
      refine Int.le_trans hk.total ?_
      have : ∀ n, n ≤ 6 → maxTotal n ≤ 905 := by decide
      exact this _ hp
    rw [hl]
    exact ⟨by omega, by omega⟩
  · cases he

end Bab.Picker.Fuzzy
