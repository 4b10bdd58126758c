import Verif.Model.View
import Verif.Proof.GoMap
import Verif.Props.Writer
import Mathlib.Tactic.ByContra
/-
C56 and C57: the state behind the view of parallel items.
-/

namespace Bab.View
open Bab

namespace Spec

/-- `x` is `a` or below it in the tree of items -/
inductive Desc (items : GoMap Item) : Str → Str → Prop
  | self (a : Str) : Desc items a a
  | child {a c x : Str} {it : Item} : items.get? a = some it → c ∈ it.children → Desc items c x → Desc items a x

/-- `x` is below `a` -/
def Below (items : GoMap Item) (a x : Str) : Prop := ∃ it c, items.get? a = some it ∧ c ∈ it.children ∧ Desc items c x

/-- the last `n` elements; all of them if `n` is 0 -/
def lastN (n : Nat) (l : List Str) : List Str := if n = 0 then l else l.drop (l.length - n)

/-- the item is new or gets a child, which replaces its lines -/
def Resets (key : Str) (m : Msg) : Prop :=
  ∃ k p l, m = .register k p l ∧ (k = key ∨ (p ≠ [] ∧ p = key))

/-- the line a message adds to an item -/
def lineOf (key : Str) : Msg → Option Str
  | .output k l => if k = key then some l else none
  | _ => none

/-- keys of children are longer than those of their parents, as for `pathToKey` -/
def Growing (m : Msg) : Prop := ∀ k p l, m = .register k p l → p ≠ [] → p.length < k.length

end Spec

open Spec

/-! ## C56, clearing -/

theorem get?_del (m : GoMap Item) (k x : Str) : (m.del k).get? x = if x = k then none else m.get? x := by
  induction m with
  | nil => simp [GoMap.del, GoMap.get?]
  | cons p m ih =>
    obtain ⟨a, v⟩ := p
    unfold GoMap.del at ih ⊢
    by_cases h : a = k
    · rw [List.filter_cons_of_neg (by simp [h]), ih]
      by_cases hx : x = k
      · rw [if_pos hx, if_pos hx]
      · rw [if_neg hx, if_neg hx, GoMap.get?, if_neg (by rw [h]; exact fun e => hx e.symm)]
    · rw [List.filter_cons_of_pos (by simp [h]), GoMap.get?, ih, GoMap.get?]
      by_cases ha : a = x
      · rw [if_pos ha, if_pos ha, if_neg (by rw [← ha]; exact h)]
      · rw [if_neg ha, if_neg ha]

theorem desc_trans {items : GoMap Item} {a b c : Str} (h1 : Desc items a b) (h2 : Desc items b c) : Desc items a c := by
  induction h1 with
  | self => exact h2
  | child hg hc _ ih => exact .child hg hc (ih h2)

theorem desc_iff {items : GoMap Item} {a x : Str} : Desc items a x ↔ x = a ∨ Below items a x := by
  constructor
  · intro h
    cases h with
    | self => exact .inl rfl
    | child hg hc hd => exact .inr ⟨_, _, hg, hc, hd⟩
  · rintro (rfl | ⟨it, c, hg, hc, hd⟩)
    · exact .self _
    · exact .child hg hc hd

/-- children have longer keys, of at most this length -/
def Bounded (L : Nat) (items : GoMap Item) : Prop :=
  ∀ k it, items.get? k = some it → ∀ c ∈ it.children, k.length < c.length ∧ c.length ≤ L

/-- `its` is `items` without the set `S` -/
def Minus (items its : GoMap Item) (S : Str → Prop) : Prop :=
  ∀ x, (S x → its.get? x = none) ∧ (¬ S x → its.get? x = items.get? x)

theorem minus_sub {items its S} (h : Minus items its S) {k : Str} {it : Item} (hg : its.get? k = some it) :
    items.get? k = some it := by
  by_cases hs : S k
  · rw [(h k).1 hs] at hg; cases hg
  · rw [← (h k).2 hs]; exact hg

theorem desc_mono {items its : GoMap Item} (h : ∀ k it, its.get? k = some it → items.get? k = some it) {a x : Str}
    (hd : Desc its a x) : Desc items a x := by
  induction hd with
  | self => exact .self _
  | child hg hc _ ih => exact .child (h _ _ hg) hc ih

theorem desc_minus {items its S} (h : Minus items its S) (hclosed : ∀ a x, S a → Desc items a x → S x) {a x : Str}
    (hd : Desc items a x) : S x ∨ Desc its a x := by
  induction hd with
  | self => exact .inr (.self _)
  | @child a c x it hg hc hd ih =>
    by_cases hs : S a
    · exact .inl (hclosed a x hs (.child hg hc hd))
    · rcases ih with ih | ih
      · exact .inl ih
      · exact .inr (.child (by rw [(h a).2 hs]; exact hg) hc ih)

theorem removeTree_spec (L : Nat) : ∀ (fuel : Nat) (key : Str) (items : GoMap Item), Bounded L items → key.length ≤ L →
    L + 1 ≤ fuel + key.length → ∃ its, removeTree fuel key items = some its ∧ Minus items its (Desc items key) := by
  intro fuel
  induction fuel with
  | zero => intro key items _ h1 h2; omega
  | succ fuel ih =>
    intro key items hb hl hf
    rw [removeTree]
    cases hg : items.get? key with
    | none =>
      refine ⟨_, rfl, ?_⟩
      intro x
      rw [get?_del]
      constructor
      · intro hd
        cases hd with
        | self => rw [if_pos rfl]
        | child hg' => rw [hg] at hg'; cases hg'
      · intro hd
        rw [if_neg]
        rintro rfl
        exact hd (.self _)
    | some it =>
      dsimp only
      -- the children, one after the other
      have fold : ∀ (cs : List Str) (S : Str → Prop) (cur : GoMap Item), (∀ c ∈ cs, key.length < c.length ∧ c.length ≤ L) →
          Minus items cur S → (∀ a x, S a → Desc items a x → S x) →
          ∃ its, cs.foldlM (fun its ck => removeTree fuel ck its) cur = some its ∧
            Minus items its (fun x => S x ∨ ∃ c ∈ cs, Desc items c x) := by
        intro cs
        induction cs with
        | nil =>
          intro S cur _ hm _
          refine ⟨cur, rfl, ?_⟩
          intro x
          refine ⟨fun h => (hm x).1 (by rcases h with h | ⟨c, hc, _⟩; exact h; cases hc), fun h => (hm x).2 (fun hs => h (.inl hs))⟩
        | cons c cs ihc =>
          intro S cur hcs hm hclosed
          obtain ⟨hc1, hc2⟩ := hcs c (by simp)
          have hbcur : Bounded L cur := fun k it hk => hb k it (minus_sub hm hk)
          obtain ⟨its1, e1, hm1⟩ := ih c cur hbcur hc2 (by omega)
          have hm2 : Minus items its1 (fun x => S x ∨ Desc items c x) := by
            intro x
            constructor
            · rintro (h | h)
              · by_cases hd : Desc cur c x
                · exact (hm1 x).1 hd
                · rw [(hm1 x).2 hd]; exact (hm x).1 h
              · rcases desc_minus hm hclosed h with h' | h'
                · by_cases hd : Desc cur c x
                  · exact (hm1 x).1 hd
                  · rw [(hm1 x).2 hd]; exact (hm x).1 h'
                · exact (hm1 x).1 h'
            · intro h
              have hd : ¬ Desc cur c x := fun hd => h (.inr (desc_mono (fun _ _ hk => minus_sub hm hk) hd))
              rw [(hm1 x).2 hd]
              exact (hm x).2 (fun hs => h (.inl hs))
          obtain ⟨its, e2, hm3⟩ := ihc _ its1 (fun c' hc' => hcs c' (by simp [hc'])) hm2 (by
            rintro a x (h | h) hd
            · exact .inl (hclosed a x h hd)
            · exact .inr (desc_trans h hd))
          refine ⟨its, ?_, ?_⟩
          · rw [List.foldlM_cons, e1]; exact e2
          · intro x
            constructor
            · rintro (h | ⟨c', hc', hd⟩)
              · exact (hm3 x).1 (.inl (.inl h))
              · rcases List.mem_cons.mp hc' with rfl | hc'
                · exact (hm3 x).1 (.inl (.inr hd))
                · exact (hm3 x).1 (.inr ⟨c', hc', hd⟩)
            · intro h
              refine (hm3 x).2 ?_
              rintro ((h' | h') | ⟨c', hc', hd⟩)
              · exact h (.inl h')
              · exact h (.inr ⟨c, by simp, h'⟩)
              · exact h (.inr ⟨c', by simp [hc'], hd⟩)
      obtain ⟨its, e, hm⟩ := fold it.children (fun _ => False) items (fun c hc => hb key it hg c hc)
        (fun x => ⟨fun h => h.elim, fun _ => rfl⟩) (fun _ _ h => h.elim)
      refine ⟨its.del key, by rw [e]; rfl, ?_⟩
      intro x
      rw [get?_del]
      constructor
      · intro hd
        rcases desc_iff.mp hd with rfl | ⟨it', c, hg', hc, hd⟩
        · rw [if_pos rfl]
        · rw [hg] at hg'
          obtain rfl := Option.some.inj hg'
          split
          · rfl
          · exact (hm x).1 (.inr ⟨c, hc, hd⟩)
      · intro hd
        rw [if_neg (fun e => hd (by rw [e]; exact .self _))]
        refine (hm x).2 ?_
        rintro (h | ⟨c, hc, h⟩)
        · exact h
        · exact hd (.child hg hc h)

theorem le_foldl_max (l : List Nat) (n : Nat) : n ≤ l.foldl max n ∧ ∀ x ∈ l, x ≤ l.foldl max n := by
  induction l generalizing n with
  | nil => exact ⟨Nat.le_refl _, fun x h => by cases h⟩
  | cons a l ih =>
    obtain ⟨h1, h2⟩ := ih (max n a)
    rw [List.foldl_cons]
    refine ⟨by omega, ?_⟩
    intro x hx
    rcases List.mem_cons.mp hx with rfl | hx
    · omega
    · exact h2 x hx

theorem le_longest {items : GoMap Item} {k : Str} {it : Item} (hg : items.get? k = some it) {c : Str} (hc : c ∈ it.children) :
    c.length ≤ longest items := by
  refine (le_foldl_max _ 0).2 _ ?_
  rw [List.mem_flatMap]
  exact ⟨(k, it), GoMap.mem_of_get? hg, List.mem_map.mpr ⟨c, hc, rfl⟩⟩

/-- children have longer keys than their parents -/
def TreeLike (items : GoMap Item) : Prop := ∀ k it, items.get? k = some it → ∀ c ∈ it.children, k.length < c.length

theorem desc_length {items : GoMap Item} (h : TreeLike items) {a x : Str} (hd : Desc items a x) : a.length ≤ x.length := by
  induction hd with
  | self => exact Nat.le_refl _
  | child hg hc _ ih => have := h _ _ hg _ hc; omega

theorem not_below_self {items : GoMap Item} (h : TreeLike items) (a : Str) : ¬ Below items a a := by
  rintro ⟨it, c, hg, hc, hd⟩
  have h1 := h _ _ hg _ hc
  have h2 := desc_length h hd
  omega

theorem clear_items {b : Base} (h : TreeLike b.items) (key : Str) :
    ∃ b', clearChildren b key = some b' ∧ b'.roots = b.roots ∧ b'.maxLines = b.maxLines ∧ b'.cancels = b.cancels ∧ b'.cancelled = b.cancelled ∧
      ∀ x, (Below b.items key x → b'.items.get? x = none) ∧
        (¬ Below b.items key x → x ≠ key → b'.items.get? x = b.items.get? x) ∧
        (x = key → b'.items.get? x = (b.items.get? x).map (fun it => { it with children := [] })) := by
  unfold clearChildren
  cases hg : b.items.get? key with
  | none =>
    refine ⟨b, rfl, rfl, rfl, rfl, rfl, ?_⟩
    intro x
    refine ⟨?_, fun _ _ => rfl, ?_⟩
    · rintro ⟨it, c, hg', _⟩; rw [hg] at hg'; cases hg'
    · rintro rfl; rw [hg]; rfl
  | some it =>
    dsimp only
    have hb : Bounded (longest b.items) b.items := fun k it hk c hc => ⟨h k it hk c hc, le_longest hk hc⟩
    have fold : ∀ (cs : List Str) (S : Str → Prop) (cur : GoMap Item), (∀ c ∈ cs, key.length < c.length ∧ c.length ≤ longest b.items) →
        Minus b.items cur S → (∀ a x, S a → Desc b.items a x → S x) →
        ∃ its, cs.foldlM (fun its ck => removeTree (longest b.items + 1) ck its) cur = some its ∧
          Minus b.items its (fun x => S x ∨ ∃ c ∈ cs, Desc b.items c x) := by
      intro cs
      induction cs with
      | nil =>
        intro S cur _ hm _
        refine ⟨cur, rfl, ?_⟩
        intro x
        refine ⟨fun h => (hm x).1 (by rcases h with h | ⟨c, hc, _⟩; exact h; cases hc), fun h => (hm x).2 (fun hs => h (.inl hs))⟩
      | cons c cs ihc =>
        intro S cur hcs hm hclosed
        obtain ⟨hc1, hc2⟩ := hcs c (by simp)
        have hbcur : Bounded (longest b.items) cur := fun k it hk => hb k it (minus_sub hm hk)
        obtain ⟨its1, e1, hm1⟩ := removeTree_spec (longest b.items) (longest b.items + 1) c cur hbcur hc2 (by omega)
        have hm2 : Minus b.items its1 (fun x => S x ∨ Desc b.items c x) := by
          intro x
          constructor
          · rintro (h | h)
            · by_cases hd : Desc cur c x
              · exact (hm1 x).1 hd
              · rw [(hm1 x).2 hd]; exact (hm x).1 h
            · rcases desc_minus hm hclosed h with h' | h'
              · by_cases hd : Desc cur c x
                · exact (hm1 x).1 hd
                · rw [(hm1 x).2 hd]; exact (hm x).1 h'
              · exact (hm1 x).1 h'
          · intro h
            have hd : ¬ Desc cur c x := fun hd => h (.inr (desc_mono (fun _ _ hk => minus_sub hm hk) hd))
            rw [(hm1 x).2 hd]
            exact (hm x).2 (fun hs => h (.inl hs))
        obtain ⟨its, e2, hm3⟩ := ihc _ its1 (fun c' hc' => hcs c' (by simp [hc'])) hm2 (by
          rintro a x (h | h) hd
          · exact .inl (hclosed a x h hd)
          · exact .inr (desc_trans h hd))
        refine ⟨its, ?_, ?_⟩
        · rw [List.foldlM_cons, e1]; exact e2
        · intro x
          constructor
          · rintro (h | ⟨c', hc', hd⟩)
            · exact (hm3 x).1 (.inl (.inl h))
            · rcases List.mem_cons.mp hc' with rfl | hc'
              · exact (hm3 x).1 (.inl (.inr hd))
              · exact (hm3 x).1 (.inr ⟨c', hc', hd⟩)
          · intro h
            refine (hm3 x).2 ?_
            rintro ((h' | h') | ⟨c', hc', hd⟩)
            · exact h (.inl h')
            · exact h (.inr ⟨c, by simp, h'⟩)
            · exact h (.inr ⟨c', by simp [hc'], hd⟩)
    obtain ⟨its, e, hm⟩ := fold it.children (fun _ => False) b.items (fun c hc => hb key it hg c hc)
      (fun x => ⟨fun h => h.elim, fun _ => rfl⟩) (fun _ _ h => h.elim)
    have hm' : Minus b.items its (Below b.items key) := by
      intro x
      constructor
      · rintro ⟨it', c, hg', hc, hd⟩
        rw [hg] at hg'
        obtain rfl := Option.some.inj hg'
        exact (hm x).1 (.inr ⟨c, hc, hd⟩)
      · intro hnb
        refine (hm x).2 ?_
        rintro (h | ⟨c, hc, hd⟩)
        · exact h
        · exact hnb ⟨it, c, hg, hc, hd⟩
    have hkey : its.get? key = some it := by rw [(hm' key).2 (not_below_self h key), hg]
    refine ⟨{ b with items := its.set key { it with children := [] } }, by rw [e]; simp only [Option.map_some, hkey], rfl, rfl, rfl, rfl, ?_⟩
    intro x
    dsimp only
    refine ⟨?_, ?_, ?_⟩
    · intro hx
      have hne : x ≠ key := by rintro rfl; exact not_below_self h _ hx
      rw [GoMap.get?_set_ne _ _ (fun e => hne e.symm)]
      exact (hm' x).1 hx
    · intro hx hne
      rw [GoMap.get?_set_ne _ _ (fun e => hne e.symm)]
      exact (hm' x).2 hx
    · rintro rfl
      rw [GoMap.get?_set_self, hg]; rfl

theorem treeLike_set {items : GoMap Item} (h : TreeLike items) {k : Str} {it : Item} (hc : ∀ c ∈ it.children, k.length < c.length) :
    TreeLike (items.set k it) := by
  intro x it' hx
  by_cases e : x = k
  · subst e
    rw [GoMap.get?_set_self] at hx
    obtain rfl := Option.some.inj hx
    exact hc
  · rw [GoMap.get?_set_ne _ _ (fun e' => e e'.symm)] at hx
    exact h x it' hx

theorem treeLike_handle {b : Base} (h : TreeLike b.items) {m : Msg} (hm : Growing m) :
    ∃ b', handle b m = some b' ∧ TreeLike b'.items ∧ b'.roots = b.roots ∧ b'.maxLines = b.maxLines := by
  cases m with
  | size => exact ⟨b, rfl, h, rfl, rfl⟩
  | register key parent label =>
    have h1 : TreeLike (b.items.set key { label := label }) := treeLike_set h (fun c hc => by cases hc)
    rw [handle]
    split
    · next hp =>
      split
      · next p hpp =>
        refine ⟨_, rfl, treeLike_set h1 ?_, rfl, rfl⟩
        intro c hc
        rcases List.mem_append.mp hc with hc | hc
        · exact h1 parent p hpp c hc
        · rw [List.mem_singleton] at hc
          rw [hc]
          exact hm key parent label rfl hp
      · exact ⟨_, rfl, h1, rfl, rfl⟩
    · exact ⟨_, rfl, h1, rfl, rfl⟩
  | start key =>
    rw [handle]
    split
    · next it hit => exact ⟨_, rfl, treeLike_set h (fun c hc => h key it hit c hc), rfl, rfl⟩
    · exact ⟨b, rfl, h, rfl, rfl⟩
  | output key line =>
    rw [handle]
    split
    · next it hit => exact ⟨_, rfl, treeLike_set h (fun c hc => h key it hit c hc), rfl, rfl⟩
    · exact ⟨b, rfl, h, rfl, rfl⟩
  | done key f =>
    rw [handle]
    split
    · next it hit => exact ⟨_, rfl, treeLike_set h (fun c hc => h key it hit c hc), rfl, rfl⟩
    · exact ⟨b, rfl, h, rfl, rfl⟩
  | clearChildren key =>
    obtain ⟨b', e, e2, e3, _, _, hx⟩ := clear_items h key
    refine ⟨b', e, ?_, e2, e3⟩
    intro k it hk c hc
    obtain ⟨h1, h2, h3⟩ := hx k
    by_cases hkk : k = key
    · rw [h3 hkk] at hk
      obtain ⟨it', _, rfl⟩ := Option.map_eq_some_iff.mp hk
      cases hc
    · by_cases hb : Below b.items key k
      · rw [h1 hb] at hk; cases hk
      · rw [h2 hb hkk] at hk
        exact h k it hk c hc
  | allDone => exact ⟨_, rfl, h, rfl, rfl⟩
  | ctrlC =>
    rw [handle]
    split
    · exact ⟨_, rfl, h, rfl, rfl⟩
    · exact ⟨_, rfl, h, rfl, rfl⟩

theorem treeLike_new (labels : List Str) (n : Nat) : TreeLike (newBase labels n).items := by
  intro k it hk c hc
  have := GoMap.mem_of_get? hk
  unfold newBase at this
  obtain ⟨q, _, e⟩ := List.mem_map.mp this
  obtain ⟨_, rfl⟩ := Prod.mk.inj e
  cases hc

theorem history_append (b : Base) (x y : List Msg) : history b (x ++ y) = (history b x).bind (fun b' => history b' y) := by
  unfold history; rw [List.foldlM_append]; rfl

theorem treeLike_history {msgs : List Msg} : ∀ {b : Base}, TreeLike b.items → (∀ m ∈ msgs, Growing m) →
    ∃ b', history b msgs = some b' ∧ TreeLike b'.items ∧ b'.roots = b.roots ∧ b'.maxLines = b.maxLines := by
  induction msgs with
  | nil => intro b h _; exact ⟨b, rfl, h, rfl, rfl⟩
  | cons m ms ih =>
    intro b h hg
    obtain ⟨b1, e1, h1, r1, x1⟩ := treeLike_handle h (hg m (by simp))
    obtain ⟨b2, e2, h2, r2, x2⟩ := ih h1 (fun m' hm' => hg m' (by simp [hm']))
    refine ⟨b2, ?_, h2, r2.trans r1, x2.trans x1⟩
    unfold history at *
    rw [List.foldlM_cons, e1]; exact e2

/-- the keys of places in the tree of items grow -/
theorem pathToKey_grows (p : List Nat) (i : Nat) (hp : p ≠ []) : (pathToKey p).length < (pathToKey (p ++ [i])).length := by
  induction p with
  | nil => exact absurd rfl hp
  | cons n p ih =>
    cases p with
    | nil =>
      rw [pathToKey_one, List.cons_append, List.nil_append, pathToKey_cons]
      simp
    | cons m p =>
      rw [List.cons_append, List.cons_append, pathToKey_cons, pathToKey_cons]
      have := ih (by simp)
      rw [List.cons_append] at this
      simp only [List.length_append, List.length_cons]
      omega

/-- the messages of the runner register items under the key of the place they are in -/
theorem growing_register (p : List Nat) (i : Nat) (label : Str) :
    Growing (.register (pathToKey (p ++ [i])) (pathToKey p) label) := by
  intro k q l h hne
  cases h
  by_cases hp : p = []
  · subst hp
    exact absurd rfl hne
  · exact pathToKey_grows p i hp

/-- C56: clearing an item removes everything below it and nothing else; in particular it always ends. -/
theorem C56_clear {labels : List Str} {n : Nat} {msgs : List Msg} (hg : ∀ m ∈ msgs, Growing m) (key : Str) :
    ∃ b b', history (newBase labels n) msgs = some b ∧ history (newBase labels n) (msgs ++ [.clearChildren key]) = some b' ∧
      ∀ x, (Below b.items key x → b'.items.get? x = none) ∧
        (¬ Below b.items key x → x ≠ key → b'.items.get? x = b.items.get? x) ∧
        (x = key → b'.items.get? x = (b.items.get? x).map (fun it => { it with children := [] })) := by
  obtain ⟨b, e, h, _, _⟩ := treeLike_history (treeLike_new labels n) hg
  obtain ⟨b', e', _, _, _, _, hx⟩ := clear_items h key
  refine ⟨b, b', e, ?_, hx⟩
  rw [history_append, e]
  show history b [.clearChildren key] = some b'
  unfold history
  rw [List.foldlM_cons, handle, e']; rfl

/-! ## C56, lines -/

theorem lastN_snoc (n : Nat) (l : List Str) (x : Str) :
    (let k := lastN n l ++ [x]
     if n > 0 ∧ k.length > n then k.drop (k.length - n) else k) = lastN n (l ++ [x]) := by
  dsimp only
  unfold lastN
  by_cases hn : n = 0
  · simp [hn]
  · rw [if_neg hn, if_neg hn]
    have hlen : (l.drop (l.length - n) ++ [x]).length = min l.length n + 1 := by
      simp only [List.length_append, List.length_drop, List.length_cons, List.length_nil]; omega
    rw [hlen]
    by_cases h : min l.length n + 1 > n
    · rw [if_pos ⟨by omega, h⟩]
      have e1 : min l.length n + 1 - n = 1 := by omega
      rw [e1, List.length_append, List.length_singleton]
      rw [List.drop_append, List.drop_append, List.drop_drop]
      have e2 : l.length - n + 1 = l.length + 1 - n := by omega
      have e3 : 1 - (l.drop (l.length - n)).length = l.length + 1 - n - l.length := by
        rw [List.length_drop]; omega
      rw [e2, e3]
    · rw [if_neg (by omega)]
      have e1 : l.length - n = 0 := by omega
      have e2 : (l ++ [x]).length - n = 0 := by simp; omega
      rw [e1, e2, List.drop_zero, List.drop_zero]

/-- the lines of a message since the item is there -/
def LinesSince (key : Str) (n : Nat) (hist : List Msg) (lines : List Str) : Prop :=
  ∃ pre suf, hist = pre ++ suf ∧ (∀ m ∈ suf, ¬ Resets key m) ∧
    (pre = [] ∨ ∃ pre' r, pre = pre' ++ [r] ∧ Resets key r) ∧ lines = lastN n (suf.filterMap (lineOf key))

theorem since_keep {key : Str} {n : Nat} {hist : List Msg} {lines : List Str} (h : LinesSince key n hist lines) {m : Msg}
    (hr : ¬ Resets key m) (hl : lineOf key m = none) : LinesSince key n (hist ++ [m]) lines := by
  obtain ⟨pre, suf, e, h1, h2, h3⟩ := h
  refine ⟨pre, suf ++ [m], by rw [e, List.append_assoc], ?_, h2, ?_⟩
  · intro x hx
    rcases List.mem_append.mp hx with hx | hx
    · exact h1 x hx
    · rw [List.mem_singleton] at hx; rw [hx]; exact hr
  · rw [List.filterMap_append, List.filterMap_cons_none hl, List.filterMap_nil, List.append_nil]; exact h3

theorem since_reset {key : Str} {n : Nat} {hist : List Msg} {m : Msg} (hr : Resets key m) : LinesSince key n (hist ++ [m]) [] := by
  refine ⟨hist ++ [m], [], by rw [List.append_nil], (fun x hx => by cases hx), .inr ⟨hist, m, rfl, hr⟩, ?_⟩
  simp [lastN]

theorem since_add {key : Str} {n : Nat} {hist : List Msg} {lines : List Str} (h : LinesSince key n hist lines) (line : Str) :
    LinesSince key n (hist ++ [.output key line])
      (let k := lines ++ [line]
       if n > 0 ∧ k.length > n then k.drop (k.length - n) else k) := by
  obtain ⟨pre, suf, e, h1, h2, h3⟩ := h
  refine ⟨pre, suf ++ [.output key line], by rw [e, List.append_assoc], ?_, h2, ?_⟩
  · intro x hx
    rcases List.mem_append.mp hx with hx | hx
    · exact h1 x hx
    · rw [List.mem_singleton] at hx; rw [hx]
      rintro ⟨_, _, _, h, _⟩; cases h
  · have : lineOf key (.output key line) = some line := by simp [lineOf]
    rw [List.filterMap_append, List.filterMap_cons_some this, List.filterMap_nil, ← lastN_snoc, ← h3]

theorem lines_handle {b b' : Base} {hist : List Msg} {m : Msg} (hgrow : Growing m) (ht : TreeLike b.items)
    (h : ∀ key it, b.items.get? key = some it → LinesSince key b.maxLines hist it.lines) (hs : handle b m = some b') :
    ∀ key it, b'.items.get? key = some it → LinesSince key b.maxLines (hist ++ [m]) it.lines := by
  intro key it hit
  have noReset : (∀ k p l, m ≠ .register k p l) → ¬ Resets key m := by
    rintro hne ⟨k, p, l, e, _⟩; exact hne k p l e
  have changed : ∀ (k : Str) (f : Item → Item), (∀ i, (f i).lines = i.lines) → (∀ a c l, m ≠ .register a c l) → lineOf key m = none →
      ∀ it0, b.items.get? k = some it0 → b' = { b with items := b.items.set k (f it0) } →
      LinesSince key b.maxLines (hist ++ [m]) it.lines := by
    intro k f hf hne hl it0 h0 e
    rw [e] at hit
    dsimp only at hit
    by_cases hk : key = k
    · subst hk
      rw [GoMap.get?_set_self] at hit
      obtain rfl := Option.some.inj hit
      rw [hf]
      exact since_keep (h key it0 h0) (noReset hne) hl
    · rw [GoMap.get?_set_ne _ _ (fun e => hk e.symm)] at hit
      exact since_keep (h key it hit) (noReset hne) hl
  cases m with
  | size =>
    obtain rfl := Option.some.inj hs
    exact since_keep (h key it hit) (noReset (fun _ _ _ => by simp)) rfl
  | register k p l =>
    rw [handle] at hs
    have h1 : ∀ it, (b.items.set k { label := l }).get? key = some it → ¬ (p ≠ [] ∧ p = key) →
        LinesSince key b.maxLines (hist ++ [.register k p l]) it.lines := by
      intro it hit hp
      by_cases hk : key = k
      · subst hk
        rw [GoMap.get?_set_self] at hit
        obtain rfl := Option.some.inj hit
        exact since_reset ⟨_, _, _, rfl, .inl rfl⟩
      · rw [GoMap.get?_set_ne _ _ (fun e => hk e.symm)] at hit
        refine since_keep (h key it hit) ?_ rfl
        rintro ⟨k', p', l', e, h'⟩
        cases e
        rcases h' with h' | h'
        · exact hk h'.symm
        · exact hp h'
    split at hs
    · next hp =>
      split at hs
      · next q hq =>
        obtain rfl := Option.some.inj hs
        dsimp only at hit
        by_cases hk : key = p
        · subst hk
          rw [GoMap.get?_set_self] at hit
          obtain rfl := Option.some.inj hit
          exact since_reset ⟨_, _, _, rfl, .inr ⟨hp, rfl⟩⟩
        · rw [GoMap.get?_set_ne _ _ (fun e => hk e.symm)] at hit
          exact h1 it hit (fun e => hk e.2.symm)
      · next hq =>
        obtain rfl := Option.some.inj hs
        refine h1 it hit ?_
        rintro ⟨_, rfl⟩
        dsimp only at hit
        rw [hq] at hit; cases hit
    · next hp =>
      obtain rfl := Option.some.inj hs
      exact h1 it hit (fun e => hp e.1)
  | start k =>
    rw [handle] at hs
    split at hs
    · next it0 h0 =>
      exact changed k (fun i => { i with started := true }) (fun _ => rfl) (fun _ _ _ => by simp) rfl it0 h0 (Option.some.inj hs).symm
    · obtain rfl := Option.some.inj hs
      exact since_keep (h key it hit) (noReset (fun _ _ _ => by simp)) rfl
  | done k f =>
    rw [handle] at hs
    split at hs
    · next it0 h0 =>
      exact changed k (fun i => { i with done := true, outcome := f }) (fun _ => rfl) (fun _ _ _ => by simp) rfl it0 h0
        (Option.some.inj hs).symm
    · obtain rfl := Option.some.inj hs
      exact since_keep (h key it hit) (noReset (fun _ _ _ => by simp)) rfl
  | output k line =>
    rw [handle] at hs
    by_cases hk : key = k
    · subst hk
      split at hs
      · next it0 h0 =>
        obtain rfl := Option.some.inj hs
        dsimp only at hit
        rw [GoMap.get?_set_self] at hit
        obtain rfl := Option.some.inj hit
        exact since_add (h key it0 h0) line
      · next h0 =>
        obtain rfl := Option.some.inj hs
        rw [h0] at hit; cases hit
    · have hl : lineOf key (.output k line) = none := by rw [lineOf, if_neg (fun e => hk e.symm)]
      split at hs
      · next it0 h0 =>
        obtain rfl := Option.some.inj hs
        dsimp only at hit
        rw [GoMap.get?_set_ne _ _ (fun e => hk e.symm)] at hit
        exact since_keep (h key it hit) (noReset (fun _ _ _ => by simp)) hl
      · obtain rfl := Option.some.inj hs
        exact since_keep (h key it hit) (noReset (fun _ _ _ => by simp)) hl
  | clearChildren k =>
    obtain ⟨b2, e, _, _, _, _, hx⟩ := clear_items ht k
    rw [handle, e] at hs
    obtain rfl := Option.some.inj hs
    obtain ⟨h1, h2, h3⟩ := hx key
    by_cases hkk : key = k
    · rw [h3 hkk] at hit
      obtain ⟨it', hit', rfl⟩ := Option.map_eq_some_iff.mp hit
      exact since_keep (h key it' hit') (noReset (fun _ _ _ => by simp)) rfl
    · by_cases hb : Below b.items k key
      · rw [h1 hb] at hit; cases hit
      · rw [h2 hb hkk] at hit
        exact since_keep (h key it hit) (noReset (fun _ _ _ => by simp)) rfl
  | allDone =>
    obtain rfl := Option.some.inj hs
    exact since_keep (h key it hit) (noReset (fun _ _ _ => by simp)) rfl
  | ctrlC =>
    rw [handle] at hs
    split at hs <;> obtain rfl := Option.some.inj hs <;>
      exact since_keep (h key it hit) (noReset (fun _ _ _ => by simp)) rfl

theorem lines_history (msgs : List Msg) : ∀ {b b' : Base} {hist : List Msg}, (∀ m ∈ msgs, Growing m) → TreeLike b.items →
    (∀ key it, b.items.get? key = some it → LinesSince key b.maxLines hist it.lines) → history b msgs = some b' →
    ∀ key it, b'.items.get? key = some it → LinesSince key b.maxLines (hist ++ msgs) it.lines := by
  induction msgs with
  | nil =>
    intro b b' hist _ _ h hs
    obtain rfl := Option.some.inj hs
    rw [List.append_nil]; exact h
  | cons m ms ih =>
    intro b b' hist hg ht h hs
    obtain ⟨b1, e1, h1, _, x1⟩ := treeLike_handle ht (hg m (by simp))
    have hl := lines_handle (hg m (by simp)) ht h e1
    have hs' : history b1 ms = some b' := by
      unfold history at hs ⊢
      rw [List.foldlM_cons, e1] at hs
      exact hs
    rw [← x1] at hl
    have := ih (fun m' hm' => hg m' (by simp [hm'])) h1 hl hs'
    rw [x1, List.append_assoc] at this
    exact this

/-- C56: each item shows the most recent lines it was sent since it was registered or last got a child, in order, at most
the configured number. -/
theorem C56_lines {labels : List Str} {n : Nat} {msgs : List Msg} (hg : ∀ m ∈ msgs, Growing m) {b : Base}
    (hb : history (newBase labels n) msgs = some b) {key : Str} {it : Item} (hit : b.items.get? key = some it) :
    (∃ pre suf, msgs = pre ++ suf ∧ (∀ m ∈ suf, ¬ Resets key m) ∧
      (pre = [] ∨ ∃ pre' r, pre = pre' ++ [r] ∧ Resets key r) ∧ it.lines = lastN n (suf.filterMap (lineOf key))) ∧
    (0 < n → it.lines.length ≤ n) := by
  have h := lines_history msgs (hist := []) hg (treeLike_new labels n) (by
    intro k i hk
    have := GoMap.mem_of_get? hk
    unfold newBase at this
    obtain ⟨q, _, e⟩ := List.mem_map.mp this
    obtain ⟨_, rfl⟩ := Prod.mk.inj e
    exact ⟨[], [], rfl, (fun m hm => by cases hm), .inl rfl, by simp [lastN]⟩) hb key it hit
  rw [List.nil_append] at h
  refine ⟨h, ?_⟩
  intro hn
  obtain ⟨_, _, _, _, _, e⟩ := h
  rw [e]
  show (lastN n _).length ≤ n
  unfold lastN
  rw [if_neg (by omega), List.length_drop]
  omega

/-- C56: ctrl+c cancels the work once, however often it is pressed. -/
theorem C56_cancel_once {labels : List Str} {n : Nat} {msgs : List Msg} (hg : ∀ m ∈ msgs, Growing m) {b : Base}
    (hb : history (newBase labels n) msgs = some b) : (Msg.ctrlC ∈ msgs → b.cancels = 1) ∧ (Msg.ctrlC ∉ msgs → b.cancels = 0) := by
  have key : ∀ (msgs : List Msg) {b0 b : Base}, (∀ m ∈ msgs, Growing m) → TreeLike b0.items → b0.cancels = (if b0.cancelled then 1 else 0) →
      history b0 msgs = some b → b.cancels = (if b.cancelled then 1 else 0) ∧
        (b.cancelled = true ↔ b0.cancelled = true ∨ Msg.ctrlC ∈ msgs) := by
    intro msgs
    induction msgs with
    | nil =>
      intro b0 b _ _ h hs
      obtain rfl := Option.some.inj hs
      exact ⟨h, by simp⟩
    | cons m ms ih =>
      intro b0 b hg ht h hs
      obtain ⟨b1, e1, h1, _, _⟩ := treeLike_handle ht (hg m (by simp))
      have hs' : history b1 ms = some b := by
        unfold history at hs ⊢
        rw [List.foldlM_cons, e1] at hs
        exact hs
      have step : b1.cancels = (if b1.cancelled then 1 else 0) ∧ (b1.cancelled = true ↔ b0.cancelled = true ∨ m = .ctrlC) := by
        cases m with
        | size => obtain rfl := Option.some.inj e1; exact ⟨h, by simp⟩
        | register k p l =>
          rw [handle] at e1
          split at e1
          · split at e1 <;> obtain rfl := Option.some.inj e1 <;> exact ⟨h, by simp⟩
          · obtain rfl := Option.some.inj e1; exact ⟨h, by simp⟩
        | start k => rw [handle] at e1; split at e1 <;> obtain rfl := Option.some.inj e1 <;> exact ⟨h, by simp⟩
        | output k l => rw [handle] at e1; split at e1 <;> obtain rfl := Option.some.inj e1 <;> exact ⟨h, by simp⟩
        | done k f => rw [handle] at e1; split at e1 <;> obtain rfl := Option.some.inj e1 <;> exact ⟨h, by simp⟩
        | clearChildren k =>
          obtain ⟨b2, e, _, _, c1, c2, _⟩ := clear_items ht k
          rw [handle, e] at e1
          obtain rfl := Option.some.inj e1
          rw [c1, c2]; exact ⟨h, by simp⟩
        | allDone => obtain rfl := Option.some.inj e1; exact ⟨h, by simp⟩
        | ctrlC =>
          rw [handle] at e1
          split at e1
          · next hc => obtain rfl := Option.some.inj e1; exact ⟨h, by simp [hc]⟩
          · next hc =>
            obtain rfl := Option.some.inj e1
            simp only [Bool.not_eq_true] at hc
            simp [hc] at h
            simp [h]
      obtain ⟨r1, r2⟩ := ih (fun m' hm' => hg m' (by simp [hm'])) h1 step.1 hs'
      refine ⟨r1, ?_⟩
      rw [r2, step.2]
      rw [List.mem_cons, or_assoc]
      constructor
      · rintro (h | h | h)
        · exact .inl h
        · exact .inr (.inl h.symm)
        · exact .inr (.inr h)
      · rintro (h | h | h)
        · exact .inl h
        · exact .inr (.inl h.symm)
        · exact .inr (.inr h)
  obtain ⟨h1, h2⟩ := key msgs hg (treeLike_new labels n) rfl hb
  have h0 : (newBase labels n).cancelled = false := rfl
  rw [h0] at h2
  constructor
  · intro h
    rw [h1, if_pos (h2.mpr (.inr h))]
  · intro h
    rw [h1, if_neg]
    intro hc
    rcases h2.mp hc with h' | h'
    · cases h'
    · exact h h'

/-! ## C57 -/

/-- the tab view after a history of messages -/
def tabHistory (labels : List Str) (msgs : List TabMsg) : Option Tabs :=
  msgs.foldlM Tabs.update ⟨newBase labels 0, 0⟩

theorem clamp_id {t : Tabs} (h1 : 0 ≤ t.active) (h2 : t.active < t.base.roots.length) : t.clamp = t := by
  unfold Tabs.clamp
  rw [if_neg (by omega)]
  dsimp only
  rw [if_neg (by omega), if_neg (by omega)]

/-- messages that arrive from the runner have growing keys -/
def TabGrowing (m : TabMsg) : Prop := ∀ x, m = .base x → Growing x

theorem tab_step {t : Tabs} {m : TabMsg} (hg : TabGrowing m) (ht : TreeLike t.base.items) (hr : 0 < t.base.roots.length) (h1 : 0 ≤ t.active)
    (h2 : t.active < t.base.roots.length) :
    ∃ t', t.update m = some t' ∧ TreeLike t'.base.items ∧ t'.base.roots = t.base.roots ∧
      t'.active = match m with
        | .next => (t.active + 1) % (t.base.roots.length : Int)
        | .prev => (t.active - 1) % (t.base.roots.length : Int)
        | _ => t.active := by
  have range : ∀ x : Int, 0 ≤ x % (t.base.roots.length : Int) ∧ x % (t.base.roots.length : Int) < t.base.roots.length := by
    intro x; exact ⟨Int.emod_nonneg _ (by omega), Int.emod_lt_of_pos _ (by omega)⟩
  cases m with
  | base x =>
    obtain ⟨b', e, hb, hroots, _⟩ := treeLike_handle ht (hg x rfl)
    have hcl : Tabs.clamp { t with base := b' } = { t with base := b' } := clamp_id h1 (by dsimp only; rw [hroots]; exact h2)
    refine ⟨{ t with base := b' }, ?_, hb, hroots, rfl⟩
    cases x <;> rw [Tabs.update, e] <;> first | rfl | exact congrArg some hcl | (intro h; cases h)
  | next =>
    have e : (t.active + 1).tmod t.base.roots.length = (t.active + 1) % (t.base.roots.length : Int) :=
      Int.tmod_eq_emod_of_nonneg (by omega)
    obtain ⟨r1, r2⟩ := range (t.active + 1)
    refine ⟨{ t with active := (t.active + 1) % (t.base.roots.length : Int) }, ?_, ht, rfl, rfl⟩
    rw [Tabs.update, if_pos hr, e]
    congr 1
    exact clamp_id r1 r2
  | prev =>
    have e : (t.active - 1 + t.base.roots.length).tmod t.base.roots.length = (t.active - 1) % (t.base.roots.length : Int) := by
      rw [Int.tmod_eq_emod_of_nonneg (by omega), Int.add_emod_right]
    obtain ⟨r1, r2⟩ := range (t.active - 1)
    refine ⟨{ t with active := (t.active - 1) % (t.base.roots.length : Int) }, ?_, ht, rfl, rfl⟩
    rw [Tabs.update, if_pos hr, e]
    congr 1
    exact clamp_id r1 r2
  | other => exact ⟨t, rfl, ht, rfl, rfl⟩

namespace Spec

/-- how many tabs further right the keys lead -/
def shift : List TabMsg → Int
  | [] => 0
  | .next :: r => 1 + shift r
  | .prev :: r => shift r - 1
  | _ :: r => shift r

end Spec

theorem tab_run (msgs : List TabMsg) : ∀ {t : Tabs}, (∀ m ∈ msgs, TabGrowing m) → TreeLike t.base.items → 0 < t.base.roots.length →
    0 ≤ t.active → t.active < t.base.roots.length →
    ∃ t', msgs.foldlM Tabs.update t = some t' ∧ t'.base.roots = t.base.roots ∧
      t'.active = (t.active + shift msgs) % (t.base.roots.length : Int) := by
  induction msgs with
  | nil =>
    intro t _ _ _ h1 h2
    refine ⟨t, rfl, rfl, ?_⟩
    rw [shift, Int.add_zero, Int.emod_eq_of_lt h1 h2]
  | cons m ms ih =>
    intro t hg ht hr h1 h2
    obtain ⟨t1, e1, ht1, hr1, ha1⟩ := tab_step (hg m (by simp)) ht hr h1 h2
    have range : 0 ≤ t1.active ∧ t1.active < t.base.roots.length := by
      rw [ha1]
      cases m with
      | next => exact ⟨Int.emod_nonneg _ (by omega), Int.emod_lt_of_pos _ (by omega)⟩
      | prev => exact ⟨Int.emod_nonneg _ (by omega), Int.emod_lt_of_pos _ (by omega)⟩
      | base => exact ⟨h1, h2⟩
      | other => exact ⟨h1, h2⟩
    obtain ⟨t2, e2, hr2, ha2⟩ := ih (t := t1) (fun m' hm' => hg m' (by simp [hm'])) ht1 (by rw [hr1]; exact hr) range.1 (by rw [hr1]; exact range.2)
    refine ⟨t2, ?_, hr2.trans hr1, ?_⟩
    · rw [List.foldlM_cons, e1]; exact e2
    · rw [ha2, hr1, ha1]
      cases m with
      | next => dsimp only; rw [Int.emod_add_emod, shift]; congr 1; omega
      | prev => dsimp only; rw [Int.emod_add_emod, shift]; congr 1; omega
      | base => rfl
      | other => rfl

/-- C57: after any history the active tab is an existing one, namely the one as many tabs to the right (going round) as the
keys lead. -/
theorem C57_active {labels : List Str} (hl : labels ≠ []) {msgs : List TabMsg} (hg : ∀ m ∈ msgs, TabGrowing m) :
    ∃ t, tabHistory labels msgs = some t ∧ 0 ≤ t.active ∧ t.active < labels.length ∧ t.base.roots.length = labels.length ∧
      t.active = shift msgs % (labels.length : Int) := by
  have hroots : (newBase labels 0).roots.length = labels.length := by simp [newBase]
  have hpos : 0 < labels.length := List.length_pos_iff.mpr hl
  obtain ⟨t, e, hr, ha⟩ := tab_run msgs (t := ⟨newBase labels 0, 0⟩) hg (treeLike_new labels 0) (by rw [hroots]; exact hpos)
    (Int.le_refl _) (by dsimp only; rw [hroots]; omega)
  dsimp only at ha hr
  rw [hroots, Int.zero_add] at ha
  refine ⟨t, e, ?_, ?_, by rw [hr, hroots], ha⟩
  · rw [ha]; exact Int.emod_nonneg _ (by omega)
  · rw [ha]; exact Int.emod_lt_of_pos _ (by omega)

/-- C57: going to the next tab and back, or back and to the next one, returns to the same tab. -/
theorem C57_inverse {labels : List Str} (hl : labels ≠ []) {msgs : List TabMsg} (hg : ∀ m ∈ msgs, TabGrowing m) :
    (tabHistory labels (msgs ++ [.next, .prev])).map (·.active) = (tabHistory labels msgs).map (·.active) ∧
    (tabHistory labels (msgs ++ [.prev, .next])).map (·.active) = (tabHistory labels msgs).map (·.active) := by
  have hshift : ∀ (x y : List TabMsg), shift (x ++ y) = shift x + shift y := by
    intro x y
    induction x with
    | nil => simp [shift]
    | cons m x ih =>
      rw [List.cons_append]
      cases m <;> simp only [shift, ih] <;> omega
  have grow : ∀ m m' : TabMsg, (∀ x, m ≠ .base x) → (∀ x, m' ≠ .base x) → ∀ k ∈ msgs ++ [m, m'], TabGrowing k := by
    intro m m' h h' k hk
    rcases List.mem_append.mp hk with hk | hk
    · exact hg k hk
    · simp only [List.mem_cons, List.not_mem_nil, or_false] at hk
      rcases hk with rfl | rfl
      · intro x e; exact absurd e (h x)
      · intro x e; exact absurd e (h' x)
  obtain ⟨t, e, _, _, _, ha⟩ := C57_active hl hg
  obtain ⟨t1, e1, _, _, _, ha1⟩ := C57_active hl (grow .next .prev (fun _ => by simp) (fun _ => by simp))
  obtain ⟨t2, e2, _, _, _, ha2⟩ := C57_active hl (grow .prev .next (fun _ => by simp) (fun _ => by simp))
  have s1 : shift (msgs ++ [.next, .prev]) = shift msgs := by rw [hshift]; simp [shift]
  have s2 : shift (msgs ++ [.prev, .next]) = shift msgs := by rw [hshift]; simp [shift]
  rw [e, e1, e2]
  simp only [Option.map_some, Option.some.injEq]
  rw [ha1, ha2, s1, s2, ha]
  exact ⟨rfl, rfl⟩

/-- C57: the item of every tab is always there, as long as no nested item has the key of a tab. -/
theorem C57_roots_present {labels : List Str} {n : Nat} {msgs : List Msg} (hg : ∀ m ∈ msgs, Growing m)
    (hk : ∀ k p l, Msg.register k p l ∈ msgs → ∀ i, k ≠ itemKey i) {b : Base}
    (hb : history (newBase labels n) msgs = some b) : ∀ r ∈ b.roots, b.items.get? r ≠ none := by
  -- children are never roots
  have key : ∀ (msgs : List Msg) {b0 b : Base}, (∀ m ∈ msgs, Growing m) → (∀ k p l, Msg.register k p l ∈ msgs → ∀ i, k ≠ itemKey i) →
      TreeLike b0.items → (∀ k it, b0.items.get? k = some it → ∀ c ∈ it.children, ∀ i, c ≠ itemKey i) →
      (∀ r ∈ b0.roots, (∃ i, r = itemKey i) ∧ b0.items.get? r ≠ none) →
      history b0 msgs = some b → ∀ r ∈ b.roots, (∃ i, r = itemKey i) ∧ b.items.get? r ≠ none := by
    intro msgs
    induction msgs with
    | nil =>
      intro b0 b _ _ _ _ h hs
      obtain rfl := Option.some.inj hs
      exact h
    | cons m ms ih =>
      intro b0 b hg hk ht hch hr hs
      obtain ⟨b1, e1, h1, hroots, _⟩ := treeLike_handle ht (hg m (by simp))
      have hs' : history b1 ms = some b := by
        unfold history at hs ⊢
        rw [List.foldlM_cons, e1] at hs
        exact hs
      have setGet : ∀ (items : GoMap Item) (k : Str) (v : Item) (r : Str), items.get? r ≠ none → (items.set k v).get? r ≠ none := by
        intro items k v r h
        by_cases e : r = k
        · rw [e, GoMap.get?_set_self]; simp
        · rw [GoMap.get?_set_ne _ _ (fun e' => e e'.symm)]; exact h
      have setCh : ∀ (items : GoMap Item) (k : Str) (v : Item),
          (∀ k it, items.get? k = some it → ∀ c ∈ it.children, ∀ i, c ≠ itemKey i) → (∀ c ∈ v.children, ∀ i, c ≠ itemKey i) →
          ∀ k' it, (items.set k v).get? k' = some it → ∀ c ∈ it.children, ∀ i, c ≠ itemKey i := by
        intro items k v h hv k' it hit
        by_cases e : k' = k
        · rw [e, GoMap.get?_set_self] at hit
          obtain rfl := Option.some.inj hit
          exact hv
        · rw [GoMap.get?_set_ne _ _ (fun e' => e e'.symm)] at hit
          exact h k' it hit
      have step : (∀ k it, b1.items.get? k = some it → ∀ c ∈ it.children, ∀ i, c ≠ itemKey i) ∧
          ∀ r ∈ b0.roots, b1.items.get? r ≠ none := by
        cases m with
        | size => obtain rfl := Option.some.inj e1; exact ⟨hch, fun r h => (hr r h).2⟩
        | allDone => obtain rfl := Option.some.inj e1; exact ⟨hch, fun r h => (hr r h).2⟩
        | ctrlC => rw [handle] at e1; split at e1 <;> obtain rfl := Option.some.inj e1 <;> exact ⟨hch, fun r h => (hr r h).2⟩
        | start k =>
          rw [handle] at e1
          split at e1
          · next it0 h0 =>
            obtain rfl := Option.some.inj e1
            exact ⟨setCh _ _ _ hch (hch k it0 h0), fun r h => setGet _ _ _ _ (hr r h).2⟩
          · obtain rfl := Option.some.inj e1; exact ⟨hch, fun r h => (hr r h).2⟩
        | output k l =>
          rw [handle] at e1
          split at e1
          · next it0 h0 =>
            obtain rfl := Option.some.inj e1
            exact ⟨setCh _ _ _ hch (hch k it0 h0), fun r h => setGet _ _ _ _ (hr r h).2⟩
          · obtain rfl := Option.some.inj e1; exact ⟨hch, fun r h => (hr r h).2⟩
        | done k f =>
          rw [handle] at e1
          split at e1
          · next it0 h0 =>
            obtain rfl := Option.some.inj e1
            exact ⟨setCh _ _ _ hch (hch k it0 h0), fun r h => setGet _ _ _ _ (hr r h).2⟩
          · obtain rfl := Option.some.inj e1; exact ⟨hch, fun r h => (hr r h).2⟩
        | register k p l =>
          have c1 := setCh b0.items k { label := l } hch (fun c hc => by cases hc)
          have g1 := fun r (h : r ∈ b0.roots) => setGet b0.items k { label := l } r (hr r h).2
          rw [handle] at e1
          split at e1
          · split at e1
            · next q hq =>
              obtain rfl := Option.some.inj e1
              refine ⟨setCh _ _ _ c1 ?_, fun r h => setGet _ _ _ _ (g1 r h)⟩
              intro c hc
              rcases List.mem_append.mp hc with hc | hc
              · exact c1 p q hq c hc
              · rw [List.mem_singleton] at hc
                rw [hc]
                exact hk k p l (by simp)
            · obtain rfl := Option.some.inj e1; exact ⟨c1, g1⟩
          · obtain rfl := Option.some.inj e1; exact ⟨c1, g1⟩
        | clearChildren k =>
          obtain ⟨b2, e, _, _, _, _, hx⟩ := clear_items ht k
          rw [handle, e] at e1
          obtain rfl := Option.some.inj e1
          constructor
          · intro k' it hk' c hc
            obtain ⟨x1, x2, x3⟩ := hx k'
            by_cases hkk : k' = k
            · rw [x3 hkk] at hk'
              obtain ⟨it', _, rfl⟩ := Option.map_eq_some_iff.mp hk'
              cases hc
            · by_cases hb : Below b0.items k k'
              · rw [x1 hb] at hk'; cases hk'
              · rw [x2 hb hkk] at hk'
                exact hch k' it hk' c hc
          · intro r hrr
            obtain ⟨⟨i, hi⟩, hget⟩ := hr r hrr
            obtain ⟨x1, x2, x3⟩ := hx r
            have notBelow : ∀ a x, Desc b0.items a x → (x = a ∨ ∀ i, x ≠ itemKey i) := by
              intro a x hd
              induction hd with
              | self => exact .inl rfl
              | child hg hc _ ih =>
                rcases ih with rfl | ih
                · exact .inr (hch _ _ hg _ hc)
                · exact .inr ih
            have hnb : ¬ Below b0.items k r := by
              rintro ⟨it, c, hg', hc, hd⟩
              rcases notBelow c r hd with rfl | h'
              · exact hch k it hg' r hc i hi
              · exact h' i hi
            by_cases hkk : r = k
            · rw [x3 hkk]
              cases hq : b0.items.get? r with
              | none => exact absurd hq hget
              | some _ => simp
            · rw [x2 hnb hkk]; exact hget
      exact ih (fun m' hm' => hg m' (by simp [hm'])) (fun k p l h => hk k p l (by simp [h])) h1 step.1
        (fun r h => by rw [hroots] at h; exact ⟨(hr r h).1, step.2 r h⟩) hs'
  intro r hr
  refine (key msgs hg hk (treeLike_new labels n) ?_ ?_ hb r hr).2
  · intro k it hk' c hc
    have := GoMap.mem_of_get? hk'
    unfold newBase at this
    obtain ⟨q, _, e⟩ := List.mem_map.mp this
    obtain ⟨_, rfl⟩ := Prod.mk.inj e
    cases hc
  · intro r hr
    unfold newBase at hr ⊢
    dsimp only at hr ⊢
    obtain ⟨i, hi, rfl⟩ := List.mem_map.mp hr
    refine ⟨⟨i, rfl⟩, ?_⟩
    rw [← GoMap.mem_keys_iff]
    unfold GoMap.keys
    rw [List.map_map, List.mem_map]
    rw [List.mem_range] at hi
    exact ⟨(labels[i], i), List.mk_mem_zipIdx_iff_getElem?.mpr (List.getElem?_eq_getElem hi), rfl⟩

/-- the keys of nested items are not those of tabs -/
theorem nested_not_root (p : List Nat) (i j : Nat) (hp : p ≠ []) : pathToKey (p ++ [i]) ≠ itemKey j := by
  intro h
  have : pathToKey (p ++ [i]) = pathToKey [j] := by rw [h, pathToKey_one]; rfl
  have := C48_keys_distinct _ _ this
  have := congrArg List.length this
  simp only [List.length_append, List.length_cons, List.length_nil] at this
  have := List.length_pos_iff.mpr hp
  omega

/-- item 0 has a nested block with two items; after it ends, only the line sent last is shown -/
example :
    let msgs := [Msg.output "0".toList "old".toList, .register "0.0".toList "0".toList "x".toList, .register "0.1".toList "0".toList "y".toList,
      .start "0.0".toList, .output "0.0".toList "a".toList, .output "0.0".toList "b".toList, .output "0.0".toList "c".toList]
    let b := history (newBase ["A".toList, "B".toList] 2) msgs
    let b' := history (newBase ["A".toList, "B".toList] 2) (msgs ++ [.clearChildren "0".toList, .output "0".toList "done".toList])
    (b.bind (fun b => b.items.get? "0.0".toList)).map (·.lines) = some ["b".toList, "c".toList] ∧
    b'.map (fun b => b.items.keys) = some ["0".toList, "1".toList] ∧
    (b'.bind (fun b => b.items.get? "0".toList)).map (·.lines) = some ["done".toList] := by decide +kernel

example : (tabHistory ["A".toList, "B".toList, "C".toList] [.prev, .other, .next, .prev]).map (·.active) = some 2 := by decide +kernel

end Bab.View
