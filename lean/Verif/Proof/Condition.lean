import Verif.Model.Condition
import Verif.Spec.Condition
import Verif.Proof.Interpolate
/- Helper lemmas for Props/Condition. -/

namespace Bab
open Spec

theorem isGoSpace_iff (c : Char) : isGoSpace c = true ↔ WhiteSpace c := by
  have h1 : isGoSpace c = true ↔
      (c = '\t' ∨ c = '\n' ∨ c = '\x0b' ∨ c = '\x0c' ∨ c = '\r' ∨ c = ' ' ∨
      c = '\u0085' ∨ c = '\u00a0' ∨ c = '\u1680' ∨ ('\u2000' ≤ c ∧ c ≤ '\u200a') ∨
      c = '\u2028' ∨ c = '\u2029' ∨ c = '\u202f' ∨ c = '\u205f' ∨ c = '\u3000') := by
    simp [isGoSpace, or_assoc]
  rw [h1]
  unfold WhiteSpace
  simp only [List.mem_cons, List.not_mem_nil, or_false]
  constructor
  · rintro (h|h|h|h|h|h|h|h|h|⟨h,h'⟩|h|h|h|h|h) <;> try (subst h; decide)
    have hl : (0x2000 : Nat) ≤ c.toNat := h
    have hu : c.toNat ≤ (0x200a : Nat) := h'
    have hc : c = Char.ofNat c.toNat := (Char.ofNat_toNat c).symm
    generalize c.toNat = n at *
    have : n = 0x2000 ∨ n = 0x2001 ∨ n = 0x2002 ∨ n = 0x2003 ∨ n = 0x2004 ∨ n = 0x2005 ∨ n = 0x2006 ∨
      n = 0x2007 ∨ n = 0x2008 ∨ n = 0x2009 ∨ n = 0x200a := by omega
    rw [hc]
    rcases this with h|h|h|h|h|h|h|h|h|h|h <;> subst h <;> decide
  · rintro (h|h|h|h|h|h|h|h|h|h|h|h|h|h|h|h|h|h|h|h|h|h|h|h|h) <;> subst h <;> decide

theorem reSpace_goSpace {c : Char} (h : isReSpace c = true) : isGoSpace c = true := by
  simp only [isReSpace, Bool.or_eq_true, decide_eq_true_eq] at h
  rcases h with (((h|h)|h)|h)|h <;> subst h <;> decide

/-- last element of a list that is not empty -/
theorem exists_snoc {α : Type} {l : List α} (h : l ≠ []) : ∃ i a, l = i ++ [a] :=
  ⟨l.dropLast, l.getLast h, (List.dropLast_concat_getLast h).symm⟩

/-- `trimFunc` computes the trimmed text of the spec. -/
theorem trimFunc_of_parts {p : Char → Bool} {a y b : Str} (ha : ∀ c ∈ a, p c = true)
    (hb : ∀ c ∈ b, p c = true) (h1 : ∀ c, y.head? = some c → p c = false)
    (h2 : ∀ c, y.getLast? = some c → p c = false) : trimFunc p (a ++ y ++ b) = y := by
  unfold trimFunc
  by_cases hy : y = []
  · subst hy
    have : (a ++ [] ++ b).dropWhile p = [] := by
      have := dropWhile_stop (p := p) (a := a ++ [] ++ b) (b := []) (by
        intro x hx
        simp at hx
        rcases hx with h | h
        · exact ha x h
        · exact hb x h) (by simp)
      simpa using this
    rw [this]; rfl
  · have e1 : (a ++ y ++ b).dropWhile p = y ++ b := by
      rw [List.append_assoc]
      apply dropWhile_stop ha
      intro c r he
      apply h1
      cases y with
      | nil => exact absurd rfl hy
      | cons d y => simp at he; simp [he.1]
    rw [e1, List.reverse_append]
    have e2 : (b.reverse ++ y.reverse).dropWhile p = y.reverse := by
      apply dropWhile_stop
      · intro x hx; exact hb x (List.mem_reverse.mp hx)
      · intro c r he
        apply h2
        rw [← List.head?_reverse, he]; rfl
    rw [e2, List.reverse_reverse]

theorem trimFunc_eq {p : Char → Bool} {P : Char → Prop} (hp : ∀ c, p c = true ↔ P c) {x y : Str}
    (h : Trimmed P x y) : trimFunc p x = y := by
  obtain ⟨a, b, rfl, ha, hb, h1, h2⟩ := h
  apply trimFunc_of_parts
  · exact fun c hc => (hp c).mpr (ha c hc)
  · exact fun c hc => (hp c).mpr (hb c hc)
  · intro c hc
    have := h1 c hc
    rw [← hp] at this
    simpa using this
  · intro c hc
    have := h2 c hc
    rw [← hp] at this
    simpa using this

theorem trimSpace_eq {x y : Str} (h : Trimmed WhiteSpace x y) : trimSpace x = y :=
  trimFunc_eq isGoSpace_iff h

theorem trimQuotes_eq {x y : Str} (h : Trimmed Quote x y) : trimQuotes x = y :=
  trimFunc_eq (P := Quote) (by intro c; simp [Quote]) h

/-- every text has a trimmed form -/
theorem trimmed_exists (p : Char → Bool) (P : Char → Prop) (hp : ∀ c, p c = true ↔ P c) (x : Str) :
    Trimmed P x (trimFunc p x) := by
  have e1 := takeWhile_append_dropWhile' p x
  have e2 := takeWhile_append_dropWhile' p (x.dropWhile p).reverse
  refine ⟨x.takeWhile p, ((x.dropWhile p).reverse.takeWhile p).reverse, ?_, ?_, ?_, ?_, ?_⟩
  · unfold trimFunc
    rw [List.append_assoc, ← List.reverse_append, e2, List.reverse_reverse, e1]
  · intro c hc; exact (hp c).mp (mem_takeWhile c hc)
  · intro c hc; exact (hp c).mp (mem_takeWhile c (List.mem_reverse.mp hc))
  · intro c hc
    rw [← hp]
    -- head of the trimmed text is the head of x.dropWhile p
    have hpre : ∃ t, x.dropWhile p = trimFunc p x ++ t := by
      refine ⟨((x.dropWhile p).reverse.takeWhile p).reverse, ?_⟩
      unfold trimFunc
      rw [← List.reverse_append, e2, List.reverse_reverse]
    obtain ⟨t, ht⟩ := hpre
    have hh : (x.dropWhile p).head? = some c := by
      rw [ht, List.head?_append, hc]; rfl
    have := List.head?_dropWhile_not p x
    rw [hh] at this
    simpa using this
  · intro c hc
    rw [← hp]
    unfold trimFunc at hc
    rw [List.getLast?_reverse] at hc
    have := List.head?_dropWhile_not p (x.dropWhile p).reverse
    rw [hc] at this
    simpa using this

/-! ### the tail of a comparison -/

def modelOp (ne : Bool) : CmpOp := if ne then .ne else .eq

/-- text of the shape `ws op ws q lit q` -/
def IsTail (q : Char) (t : Str) (ne : Bool) (lit : Str) : Prop :=
  ∃ w1 w2, t = w1 ++ opText ne ++ w2 ++ q :: lit ++ [q] ∧ (∀ c ∈ w1, isReSpace c = true) ∧
    (∀ c ∈ w2, isReSpace c = true) ∧ q ∉ lit

theorem matchLit_eq (q : Char) (lit : Str) (h : q ∉ lit) :
    matchLit q (q :: lit ++ [q]) = some lit := by
  simp [matchLit, h]

theorem matchLit_some {q : Char} {s lit : Str} (h : matchLit q s = some lit) :
    s = q :: lit ++ [q] ∧ q ∉ lit := by
  unfold matchLit at h
  split at h
  · rename_i c r
    split at h
    · rename_i hc
      obtain ⟨rfl, h2, h3⟩ := hc
      cases h
      refine ⟨?_, h3⟩
      have hne : r ≠ [] := by rintro rfl; simp at h2
      rw [List.getLast?_eq_some_getLast hne] at h2
      simp at h2
      rw [List.cons_append]
      conv => lhs; rw [← List.dropLast_concat_getLast hne, h2]
    · cases h
  · cases h

theorem quote_not_reSpace {q : Char} (hq : Quote q) : isReSpace q = false := by
  rcases hq with h | h <;> subst h <;> decide

theorem matchTail_eq {q : Char} (hq : Quote q) {t lit : Str} {ne : Bool} (h : IsTail q t ne lit) :
    matchTail q t = some (modelOp ne, lit) := by
  obtain ⟨w1, w2, rfl, h1, h2, h3⟩ := h
  have hq' := quote_not_reSpace hq
  have d2 : ∀ r, (w2 ++ q :: r).dropWhile isReSpace = q :: r := by
    intro r
    apply dropWhile_stop h2
    intro c r' he; simp at he; rw [← he.1]; exact hq'
  unfold matchTail
  cases ne with
  | false =>
    have e : w1 ++ opText false ++ w2 ++ q :: lit ++ [q]
        = w1 ++ '=' :: '=' :: (w2 ++ q :: (lit ++ [q])) := by simp [opText]
    have d1 : (w1 ++ '=' :: '=' :: (w2 ++ q :: (lit ++ [q]))).dropWhile isReSpace
        = '=' :: '=' :: (w2 ++ q :: (lit ++ [q])) := by
      apply dropWhile_stop h1
      intro c r' he; simp at he; rw [← he.1]; decide
    rw [e, d1]
    simp only
    rw [d2, show q :: (lit ++ [q]) = q :: lit ++ [q] from rfl, matchLit_eq q lit h3]
    rfl
  | true =>
    have e : w1 ++ opText true ++ w2 ++ q :: lit ++ [q]
        = w1 ++ '!' :: '=' :: (w2 ++ q :: (lit ++ [q])) := by simp [opText]
    have d1 : (w1 ++ '!' :: '=' :: (w2 ++ q :: (lit ++ [q]))).dropWhile isReSpace
        = '!' :: '=' :: (w2 ++ q :: (lit ++ [q])) := by
      apply dropWhile_stop h1
      intro c r' he; simp at he; rw [← he.1]; decide
    rw [e, d1]
    simp only
    rw [d2, show q :: (lit ++ [q]) = q :: lit ++ [q] from rfl, matchLit_eq q lit h3]
    rfl

theorem matchTail_some {q : Char} {t lit : Str} {op : CmpOp} (h : matchTail q t = some (op, lit)) :
    ∃ ne, op = modelOp ne ∧ IsTail q t ne lit := by
  have et := takeWhile_append_dropWhile' isReSpace t
  unfold matchTail at h
  split at h
  · rename_i r hd
    rw [Option.map_eq_some_iff] at h
    obtain ⟨l, hl, he⟩ := h
    cases he
    obtain ⟨h1, h2⟩ := matchLit_some hl
    have er := takeWhile_append_dropWhile' isReSpace r
    refine ⟨false, rfl, t.takeWhile isReSpace, r.takeWhile isReSpace, ?_,
      fun c hc => mem_takeWhile c hc, fun c hc => mem_takeWhile c hc, h2⟩
    rw [h1] at er
    rw [hd] at et
    conv => lhs; rw [← et, ← er]
    simp [opText]
  · rename_i r hd
    rw [Option.map_eq_some_iff] at h
    obtain ⟨l, hl, he⟩ := h
    cases he
    obtain ⟨h1, h2⟩ := matchLit_some hl
    have er := takeWhile_append_dropWhile' isReSpace r
    refine ⟨true, rfl, t.takeWhile isReSpace, r.takeWhile isReSpace, ?_,
      fun c hc => mem_takeWhile c hc, fun c hc => mem_takeWhile c hc, h2⟩
    rw [h1] at er
    rw [hd] at et
    conv => lhs; rw [← et, ← er]
    simp [opText]
  · cases h

/-- reading a comparison from its end: everything before the white space in front of the operator
is determined -/
theorem tail_unique {q : Char} (hq : Quote q) {l l' t t' lit lit' : Str} {ne ne' : Bool}
    (h : IsTail q t ne lit) (h' : IsTail q t' ne' lit') (he : l ++ t = l' ++ t') :
    lit = lit' ∧ ne = ne' ∧ ∃ w w', (∀ c ∈ w, isReSpace c = true) ∧ (∀ c ∈ w', isReSpace c = true) ∧
      l ++ w = l' ++ w' ∧ (∃ s, t = w ++ s ∧ t' = w' ++ s) := by
  obtain ⟨w1, w2, rfl, h1, h2, h3⟩ := h
  obtain ⟨w1', w2', rfl, h1', h2', h3'⟩ := h'
  have hq' := quote_not_reSpace hq
  have key : ∀ (l w1 w2 lit : Str) (ne : Bool), (∀ c ∈ w2, isReSpace c = true) → q ∉ lit →
      (l ++ (w1 ++ opText ne ++ w2 ++ q :: lit ++ [q])).reverse
        = q :: (lit.reverse ++ q :: (w2.reverse ++ ((opText ne).reverse ++ (l ++ w1).reverse))) := by
    intro l w1 w2 lit ne _ _
    simp
  have e := congrArg List.reverse he
  rw [key _ _ _ _ _ h2 h3, key _ _ _ _ _ h2' h3'] at e
  simp only [List.cons.injEq, true_and] at e
  have t1 : ∀ (lit x : Str), q ∉ lit → (lit.reverse ++ q :: x).takeWhile (· ≠ q) = lit.reverse := by
    intro lit x hl
    apply takeWhile_stop
    · intro c hc
      simp only [ne_eq, decide_not, Bool.not_eq_eq_eq_not, Bool.not_true, decide_eq_false_iff_not]
      rintro rfl; exact hl (List.mem_reverse.mp hc)
    · intro c r hc; simp at hc; simp [hc.1]
  have hlit : lit = lit' := by
    have := congrArg (List.takeWhile (· ≠ q)) e
    rw [t1 _ _ h3, t1 _ _ h3'] at this
    simpa using this
  subst hlit
  have e2 := List.append_cancel_left e
  simp only [List.cons.injEq, true_and] at e2
  have t2 : ∀ (w2 : Str) (ne : Bool) (x : Str), (∀ c ∈ w2, isReSpace c = true) →
      (w2.reverse ++ ((opText ne).reverse ++ x)).takeWhile isReSpace = w2.reverse := by
    intro w2 ne x hw
    apply takeWhile_stop
    · intro c hc; exact hw c (List.mem_reverse.mp hc)
    · intro c r hc
      cases ne <;> simp [opText] at hc <;> rw [← hc.1] <;> decide
  have hw2 : w2 = w2' := by
    have := congrArg (List.takeWhile isReSpace) e2
    rw [t2 _ _ _ h2, t2 _ _ _ h2'] at this
    simpa using this
  subst hw2
  have e3 := List.append_cancel_left e2
  have hne : ne = ne' := by
    cases ne <;> cases ne' <;> first | rfl | (simp [opText] at e3)
  subst hne
  have e4 := List.append_cancel_left e3
  refine ⟨rfl, rfl, w1, w1', h1, h1', ?_, opText ne ++ w2 ++ q :: lit ++ [q], by simp, by simp⟩
  exact List.reverse_inj.mp (by simpa using e4)

/-- A prefix that ends in a character that is not white space does not belong to the tail. -/
theorem matchTail_none_of_prefix {q : Char} (hq : Quote q) {y t lit : Str} {ne : Bool} {c : Char}
    (ht : IsTail q t ne lit) (hc : isReSpace c = false) : matchTail q (y ++ [c] ++ t) = none := by
  cases hm : matchTail q (y ++ [c] ++ t) with
  | none => rfl
  | some p =>
    obtain ⟨op, l'⟩ := p
    obtain ⟨ne', _, ht'⟩ := matchTail_some hm
    have he : [] ++ (y ++ [c] ++ t) = (y ++ [c]) ++ t := by simp
    obtain ⟨_, _, w, w', hw, hw', hww, _⟩ := tail_unique hq ht' ht he
    exfalso
    have : c ∈ w := by
      have : c ∈ [] ++ w := by rw [hww]; simp
      simpa using this
    have := hw c this
    rw [hc] at this; cases this

theorem matchFrom_finds {q : Char} {y t lit acc : Str} {op : CmpOp}
    (ht : matchTail q t = some (op, lit)) (htne : t ≠ []) (hne : acc ++ y ≠ []) (hnl : '\n' ∉ y)
    (hbad : ∀ y1 y2, y = y1 ++ y2 → y2 ≠ [] → acc ++ y1 ≠ [] → matchTail q (y2 ++ t) = none) :
    matchFrom q acc (y ++ t) = some (acc ++ y, op, lit) := by
  induction y generalizing acc with
  | nil =>
    simp at hne
    cases t with
    | nil => exact absurd rfl htne
    | cons d t =>
      simp [matchFrom, hne, ht]
  | cons c y ih =>
    simp at hnl
    have step : matchFrom q acc (c :: (y ++ t)) = matchFrom q (acc ++ [c]) (y ++ t) := by
      rw [matchFrom]
      have : (if acc.isEmpty = true then none else matchTail q (c :: (y ++ t))) = none := by
        split
        · rfl
        · rename_i ha
          exact hbad [] (c :: y) rfl (by simp) (by simpa using ha)
      simp only [this]
      rw [if_neg (Ne.symm hnl.1)]
    rw [List.cons_append, step, ih]
    · simp
    · simp
    · exact hnl.2
    · intro y1 y2 he h2 _
      exact hbad (c :: y1) y2 (by rw [he]; rfl) h2 (by simp)

/-- a match reported by `matchFrom` has the shape of the pattern -/
theorem matchFrom_some {q : Char} {s acc l lit : Str} {op : CmpOp}
    (h : matchFrom q acc s = some (l, op, lit)) :
    ∃ y t ne, s = y ++ t ∧ l = acc ++ y ∧ l ≠ [] ∧ op = modelOp ne ∧ IsTail q t ne lit ∧ '\n' ∉ y := by
  induction s generalizing acc with
  | nil => simp [matchFrom] at h
  | cons c r ih =>
    rw [matchFrom] at h
    split at h
    · rename_i o l' hh
      cases h
      split at hh
      · cases hh
      · rename_i ha
        obtain ⟨ne, h1, h2⟩ := matchTail_some hh
        exact ⟨[], c :: r, ne, rfl, by simp, by simpa using ha, h1, h2, by simp⟩
    · split at h
      · cases h
      · rename_i hc
        obtain ⟨y, t, ne, e1, e2, e3, e4, e5, e6⟩ := ih h
        refine ⟨c :: y, t, ne, by rw [e1]; rfl, by rw [e2]; simp, e3, e4, e5, ?_⟩
        simp only [List.mem_cons, not_or]
        exact ⟨Ne.symm hc, e6⟩

theorem isTail_getLast {q : Char} {t lit : Str} {ne : Bool} (h : IsTail q t ne lit) :
    ∃ i, t = i ++ [q] := by
  obtain ⟨w1, w2, rfl, _⟩ := h
  exact ⟨_, rfl⟩

/-- the other pattern cannot match a text that ends in the quote character `q` -/
theorem matchFrom_other_none {q q' : Char} (hne : q ≠ q') (acc i : Str) :
    matchFrom q' acc (i ++ [q]) = none := by
  cases h : matchFrom q' acc (i ++ [q]) with
  | none => rfl
  | some p =>
    obtain ⟨l, op, lit⟩ := p
    obtain ⟨y, t, ne, e1, _, _, _, e5, _⟩ := matchFrom_some h
    obtain ⟨j, hj⟩ := isTail_getLast e5
    rw [hj, ← List.append_assoc] at e1
    have := congrArg List.getLast? e1
    simp at this
    exact absurd this hne

theorem evaluateComparison_of_match {q : Char} (hq : Quote q) {i l lit : Str} {op : CmpOp}
    (h : matchFrom q [] (i ++ [q]) = some (l, op, lit)) :
    evaluateComparison (i ++ [q]) = some (evaluateOp (trimQuotes (trimSpace l)) op lit) := by
  unfold evaluateComparison
  rcases hq with rfl | rfl
  · rw [h]
  · rw [matchFrom_other_none (by decide), h]

theorem evaluateComparison_of_none {q : Char} (hq : Quote q) {i : Str}
    (h : matchFrom q [] (i ++ [q]) = none) : evaluateComparison (i ++ [q]) = none := by
  unfold evaluateComparison
  rcases hq with rfl | rfl
  · rw [h]; simp only; rw [matchFrom_other_none (by decide)]
  · rw [matchFrom_other_none (by decide)]; simp only; rw [h]

end Bab

namespace Bab
open Spec

theorem isTail_of_ok {q : Char} {w1 w2 lit : Str} (ne : Bool) (h : TailOk q w1 w2 lit) :
    IsTail q (compTail ne q w1 w2 lit) ne lit :=
  ⟨w1, w2, rfl, fun c hc => (isReSpace_iff c).mpr (h.2.1 c hc),
    fun c hc => (isReSpace_iff c).mpr (h.2.2.1 c hc), h.2.2.2⟩

theorem isTail_ok {q : Char} (hq : Quote q) {t lit : Str} {ne : Bool} (h : IsTail q t ne lit) :
    ∃ w1 w2, TailOk q w1 w2 lit ∧ t = compTail ne q w1 w2 lit := by
  obtain ⟨w1, w2, rfl, h1, h2, h3⟩ := h
  exact ⟨w1, w2, ⟨hq, fun c hc => (isReSpace_iff c).mp (h1 c hc),
    fun c hc => (isReSpace_iff c).mp (h2 c hc), h3⟩, rfl⟩

theorem quote_not_goSpace {q : Char} (hq : Quote q) : isGoSpace q = false := by
  rcases hq with h | h <;> subst h <;> decide

theorem compTail_last (ne : Bool) (q : Char) (w1 w2 lit : Str) :
    compTail ne q w1 w2 lit = (w1 ++ opText ne ++ w2 ++ q :: lit) ++ [q] := rfl

/-- trimming a comparison only changes its front -/
theorem trimSpace_comparison {q : Char} (hq : Quote q) {a y : Str} (i : Str)
    (ha : ∀ c ∈ a, isGoSpace c = true) (hy : ∀ c, (y ++ i ++ [q]).head? = some c → isGoSpace c = false) :
    trimSpace (a ++ (y ++ i ++ [q])) = y ++ i ++ [q] := by
  have := trimFunc_of_parts (p := isGoSpace) (a := a) (y := y ++ i ++ [q]) (b := []) ha (by simp) hy
    (by intro c hc; simp at hc; rw [← hc]; exact quote_not_goSpace hq)
  simpa [trimSpace] using this

/-- evaluation of a text `x tail` where `x` is not blank -/
theorem evaluateText_comparison {q : Char} {x y z w1 w2 lit : Str} (ne : Bool)
    (hok : TailOk q w1 w2 lit) (hy : Trimmed WhiteSpace x y) (hne : y ≠ []) (hnl : '\n' ∉ x)
    (hz : Trimmed Quote y z) :
    evaluateText (x ++ compTail ne q w1 w2 lit) = evaluateOp z (modelOp ne) lit := by
  have hq := hok.1
  have hyz := trimQuotes_eq hz
  obtain ⟨a, b, rfl, ha, hb, hh, hl⟩ := hy
  have hT := isTail_of_ok ne hok
  generalize hTd : compTail ne q w1 w2 lit = T at hT
  -- split off the white space in front of the operator
  have e0 := takeWhile_append_dropWhile' isReSpace (y ++ b).reverse
  generalize hb2 : ((y ++ b).reverse.takeWhile isReSpace) = b2r at e0
  generalize hL : ((y ++ b).reverse.dropWhile isReSpace) = Lr at e0
  have e1 : Lr.reverse ++ b2r.reverse = y ++ b := by
    rw [← List.reverse_append, e0, List.reverse_reverse]
  have hb2sp : ∀ c ∈ b2r.reverse, isReSpace c = true := by
    intro c hc; rw [List.mem_reverse, ← hb2] at hc; exact mem_takeWhile c hc
  have hLlast : ∀ c i, Lr.reverse = i ++ [c] → isReSpace c = false := by
    intro c i he
    have : Lr = c :: i.reverse := by
      have := congrArg List.reverse he
      simpa using this
    have h2 := List.head?_dropWhile_not isReSpace (y ++ b).reverse
    rw [hL, this] at h2
    simpa using h2
  generalize hLL : Lr.reverse = L at *
  generalize hBB : b2r.reverse = b2 at *
  -- y is a prefix of L
  have hyL : ∃ b0, L = y ++ b0 ∧ b = b0 ++ b2 := by
    rcases List.append_eq_append_iff.mp e1 with ⟨c, h1, h2⟩ | ⟨c, h1, h2⟩
    · -- y = L ++ c, b2 = c ++ b
      by_cases hc : c = []
      · subst hc; exact ⟨[], by simpa using h1.symm, by simpa using h2.symm⟩
      · obtain ⟨i, d, rfl⟩ := exists_snoc hc
        exfalso
        have hd : WhiteSpace d := by
          rw [← isGoSpace_iff]
          exact reSpace_goSpace (hb2sp d (by rw [h2]; simp))
        refine hl d ?_ hd
        rw [h1]; simp
    · exact ⟨c, h1, h2⟩
  obtain ⟨b0, hL0, hb0⟩ := hyL
  have hLne : L ≠ [] := by rw [hL0]; simp [hne]
  have hnlL : '\n' ∉ L := by
    intro h
    apply hnl
    have : '\n' ∈ y ++ b := by rw [← e1]; simp [h]
    simp at this
    rcases this with h | h
    · simp [h]
    · simp [h]
  have hT' : IsTail q (b2 ++ T) ne lit := by
    obtain ⟨u1, u2, hu, hu1, hu2, hu3⟩ := hT
    refine ⟨b2 ++ u1, u2, by rw [hu]; simp [List.append_assoc], ?_, hu2, hu3⟩
    intro c hc
    rcases List.mem_append.mp hc with h | h
    · exact hb2sp c h
    · exact hu1 c h
  have hTne : b2 ++ T ≠ [] := by
    obtain ⟨i, hi⟩ := isTail_getLast hT'; rw [hi]; simp
  have hfind : matchFrom q [] (L ++ (b2 ++ T)) = some ([] ++ L, modelOp ne, lit) := by
    apply matchFrom_finds (matchTail_eq hq hT') hTne (by simpa using hLne) hnlL
    intro y1 y2 he h2 _
    obtain ⟨i, c, rfl⟩ := exists_snoc h2
    exact matchTail_none_of_prefix hq hT' (hLlast c (y1 ++ i) (by rw [he]; simp))
  obtain ⟨i, hi⟩ := isTail_getLast hT'
  have htrim : trimSpace (a ++ y ++ b ++ T) = L ++ i ++ [q] := by
    have he : a ++ y ++ b ++ T = a ++ (L ++ i ++ [q]) := by
      rw [List.append_assoc L, ← hi, ← List.append_assoc L, e1]; simp [List.append_assoc]
    rw [he]
    apply trimSpace_comparison hq
    · intro c hc; exact (isGoSpace_iff c).mpr (ha c hc)
    · intro c hc
      have hyh : y.head? = some c := by
        rw [hL0] at hc
        cases y with
        | nil => exact absurd rfl hne
        | cons d y => simpa using hc
      have := hh c hyh
      rw [← isGoSpace_iff] at this
      simpa using this
  unfold evaluateText
  simp only [htrim]
  rw [hi, ← List.append_assoc] at hfind
  rw [evaluateComparison_of_match hq hfind]
  simp only
  have hts : trimSpace ([] ++ L) = y := by
    rw [hL0]
    have := trimFunc_of_parts (p := isGoSpace) (a := []) (y := y) (b := b0) (by simp)
      (by intro c hc; exact (isGoSpace_iff c).mpr (hb c (by rw [hb0]; simp [hc])))
      (by intro c hc; have := hh c hc; rw [← isGoSpace_iff] at this; simpa using this)
      (by intro c hc; have := hl c hc; rw [← isGoSpace_iff] at this; simpa using this)
    simpa [trimSpace] using this
  rw [hts, hyz]

/-- a text that starts with the operator is never a comparison, and it is truthy -/
theorem evaluateText_blank {q : Char} {x w1 w2 lit : Str} (ne : Bool)
    (hok : TailOk q w1 w2 lit) (hx : ∀ c ∈ x, WhiteSpace c) :
    evaluateText (x ++ compTail ne q w1 w2 lit) = true := by
  have hq := hok.1
  have hok' : TailOk q [] w2 lit := ⟨hq, by simp, hok.2.2.1, hok.2.2.2⟩
  have hT := isTail_of_ok ne hok'
  have hhead : ∃ d r, compTail ne q [] w2 lit = d :: r ∧ isReSpace d = false ∧
      isGoSpace d = false ∧ (d = '=' ∨ d = '!') := by
    cases ne
    · exact ⟨'=', _, rfl, by decide, by decide, by simp⟩
    · exact ⟨'!', _, rfl, by decide, by decide, by simp⟩
  obtain ⟨d, r, hd, hd1, hd2, hd3⟩ := hhead
  have htrim : trimSpace (x ++ compTail ne q w1 w2 lit) = compTail ne q [] w2 lit := by
    have he : x ++ compTail ne q w1 w2 lit = (x ++ w1) ++ ([] ++ (opText ne ++ w2 ++ q :: lit) ++ [q]) := by
      simp [compTail]
    rw [he, trimSpace_comparison hq]
    · simp [compTail]
    · intro c hc
      rcases List.mem_append.mp hc with h | h
      · exact (isGoSpace_iff c).mpr (hx c h)
      · exact reSpace_goSpace ((isReSpace_iff c).mpr (hok.2.1 c h))
    · intro c hc
      have he2 : [] ++ (opText ne ++ w2 ++ q :: lit) ++ [q] = compTail ne q [] w2 lit := by
        simp [compTail]
      rw [he2, hd] at hc
      simp at hc
      rw [← hc]; exact hd2
  have hnone : matchFrom q [] (compTail ne q [] w2 lit) = none := by
    cases hm : matchFrom q [] (compTail ne q [] w2 lit) with
    | none => rfl
    | some p =>
      obtain ⟨l, op, lit'⟩ := p
      obtain ⟨y, t, ne', e1, e2, e3, _, e5, _⟩ := matchFrom_some hm
      obtain ⟨_, _, w, w', hw, hw', hww, s, hs1, hs2⟩ := tail_unique hq hT e5
        (l := []) (l' := y) (by simpa using e1)
      exfalso
      have hyne : y ≠ [] := by simpa [e2] using e3
      cases y with
      | nil => exact hyne rfl
      | cons c y =>
        simp at hww
        rw [hd, hww] at hs1
        simp at hs1
        have := hw c (by rw [hww]; simp)
        rw [← hs1.1, hd1] at this; cases this
  unfold evaluateText
  simp only [htrim]
  have hlast : compTail ne q [] w2 lit = ([] ++ opText ne ++ w2 ++ q :: lit) ++ [q] := rfl
  have hc : evaluateComparison (compTail ne q [] w2 lit) = none := by
    rw [hlast] at hnone ⊢
    exact evaluateComparison_of_none hq hnone
  rw [hc]
  simp only
  unfold evaluateTruthy
  have htrim2 : trimSpace (compTail ne q [] w2 lit) = compTail ne q [] w2 lit := by
    have := trimSpace_comparison hq (a := []) (y := []) ([] ++ opText ne ++ w2 ++ q :: lit) (by simp)
      (by intro c hc
          have : (d :: r).head? = some c := by rw [← hd]; simpa [compTail] using hc
          simp at this; rw [← this]; exact hd2)
    simpa [compTail] using this
  rw [hd] at htrim2
  simp only [hd, htrim2]
  rw [if_neg (by simp)]
  have : equalFoldFalse (d :: r) = false := by
    unfold equalFoldFalse
    split
    · rename_i a b c d' e he
      simp at he
      rcases hd3 with h | h <;> subst h <;> rw [← he.1] <;> simp
    · rfl
  rw [this]; rfl

theorem evaluateComparison_some {s : Str} {b : Bool} (h : evaluateComparison s = some b) :
    IsComparison s := by
  have conv : ∀ {q : Char} {l lit : Str} {op : CmpOp}, Quote q →
      matchFrom q [] s = some (l, op, lit) → IsComparison s := by
    intro q l lit op hq hm
    obtain ⟨y, t, ne, e1, e2, e3, _, e5, e6⟩ := matchFrom_some hm
    obtain ⟨w1, w2, hok, ht⟩ := isTail_ok hq e5
    refine ⟨ne, q, y, w1, w2, lit, hok, by rw [e1, ht], ?_, e6⟩
    simpa [e2] using e3
  unfold evaluateComparison at h
  split at h
  · rename_i hm; exact conv (Or.inl rfl) hm
  · split at h
    · rename_i hm; exact conv (Or.inr rfl) hm
    · cases h

theorem equalFoldFalse_iff (s : Str) : equalFoldFalse s = true ↔ IsFalseWord s := by
  unfold equalFoldFalse IsFalseWord
  split
  · rename_i a b c d e
    constructor
    · intro h
      simp only [Bool.and_eq_true, Bool.or_eq_true, decide_eq_true_eq] at h
      refine ⟨a, b, c, d, e, rfl, ?_⟩
      simp only [List.mem_cons, List.not_mem_nil, or_false]
      exact ⟨h.1.1.1.1, h.1.1.1.2, h.1.1.2, by rcases h.1.2 with (h|h)|h <;> simp [h], h.2⟩
    · rintro ⟨a', b', c', d', e', he, h⟩
      simp only [List.cons.injEq, and_true] at he
      obtain ⟨rfl, rfl, rfl, rfl, rfl⟩ := he
      simp only [List.mem_cons, List.not_mem_nil, or_false] at h
      simp only [Bool.and_eq_true, Bool.or_eq_true, decide_eq_true_eq]
      obtain ⟨h1, h2, h3, h4, h5⟩ := h
      exact ⟨⟨⟨⟨h1, h2⟩, h3⟩, by rcases h4 with h|h|h <;> simp [h]⟩, h5⟩
  · rename_i hn
    simp only [Bool.false_eq_true, false_iff]
    rintro ⟨a, b, c, d, e, rfl, _⟩
    exact hn a b c d e rfl

/-- interpolation of a single reference followed by plain text -/
theorem interpolate_ref_plain {t v x rest : Str} {ctx : Ctx} (ht : IsRef t v)
    (hx : value ctx.vars.get? ctx.env v = some x) (hd : '$' ∉ rest) (hn : NoNul rest)
    (hnx : NoNul x) : interpolate (t ++ rest) ctx = .ok (x ++ rest) := by
  have hl : resolveVar ctx v = .ok x := by rw [resolveVar_value, hx]
  have hs : substRefs (resolveVar ctx) 0 (replaceEscapes (t ++ rest)) = (x ++ rest, []) := by
    rw [replaceEscapes_ref ht, substRefs_ref_ok ht hl]
    have h1 : replaceEscapes rest = rest := by
      have := replaceEscapes_no_dollar (a := rest) (r := []) hd
      simpa [replaceEscapes] using this
    have h2 : substRefs (resolveVar ctx) 0 rest = (rest, []) := by
      have := substRefs_no_dollar (look := resolveVar ctx) (a := rest) (r := []) hd
      simpa [substRefs] using this
    rw [h1, h2]
  unfold interpolate interpolateFull
  simp only [hs]
  have := replaceAll_no_nul (a := x ++ rest) (r := []) (by
    simp only [List.mem_append, not_or]; exact ⟨hnx, hn⟩) "${{".toList
  simp only [List.append_nil] at this
  show Except.ok (replaceAll escapePlaceholder "${{".toList 0 (x ++ rest)) = _
  rw [this]; simp [replaceAll]

/-- a character that occurs nowhere in the fixed parts of a comparison tail nor in the literal -/
theorem compTail_free {d q : Char} {w1 w2 lit : Str} {ne : Bool} (hb : isReSpace d = false)
    (h1 : d ≠ '=') (h2 : d ≠ '!') (h3 : d ≠ '\'') (h4 : d ≠ '"')
    (hok : TailOk q w1 w2 lit) (hl : d ∉ lit) : d ∉ compTail ne q w1 w2 lit := by
  have hw : ∀ w : Str, (∀ c ∈ w, Blank c) → d ∉ w := by
    intro w hw hm
    have := (isReSpace_iff d).mpr (hw d hm)
    rw [hb] at this; cases this
  have hq : d ≠ q := by rcases hok.1 with h | h <;> rw [h] <;> assumption
  unfold compTail
  simp only [List.mem_append, List.mem_cons, List.not_mem_nil, or_false, not_or]
  refine ⟨⟨⟨⟨hw w1 hok.2.1, ?_⟩, hw w2 hok.2.2.1⟩, hq, hl⟩, hq⟩
  cases ne <;> simp [opText, h1, h2]

theorem firstUndefined_exists {val : Str → Option Str} {ts : List Tok} {n : Str}
    (hn : n ∈ refs ts) (hv : val n = none) : ∃ m, FirstUndefined val ts m := by
  unfold FirstUndefined
  generalize refs ts = ns at hn
  induction ns with
  | nil => simp at hn
  | cons m ns ih =>
    cases hm : val m with
    | none => exact ⟨m, [], ns, rfl, hm, by simp⟩
    | some x =>
      rcases List.mem_cons.mp hn with h | h
      · subst h; rw [hv] at hm; cases hm
      · obtain ⟨k, a, b, hab, hk, ha⟩ := ih h
        refine ⟨k, m :: a, b, by rw [hab]; rfl, hk, ?_⟩
        intro y hy
        rcases List.mem_cons.mp hy with h | h
        · subst h; simp [hm]
        · exact ha y h

end Bab
