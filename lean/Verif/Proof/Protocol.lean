import Verif.Spec.Protocol
import Verif.Props.View
import Mathlib.Data.List.Forall2
/-
Invariants for C68: the view and the goroutines agree.
-/

namespace Bab.View
open Bab Spec

/-- the blocks below a node are as `executeParallelTUI` makes them -/
inductive Good : Node → Prop
  | waiting : Good .waiting
  | idle {out} : Good (.idle out)
  | adding {out} {labels} {n : Nat} (h : n ≤ labels.length) : Good (.adding out labels n)
  | block {out : List Str} {labels : List Str} {kids : List Node} {errs : List Outcome} (h1 : kids.length = labels.length) (h2 : errs.length = labels.length) (h3 : ∀ k ∈ kids, Good k)
      (h4 : ∀ (i : Nat) (r : List Str) (o : Outcome), kids[i]? = some (Node.ended r o) → errs[i]? = some o) : Good (.block out labels kids errs)
  | summing {out labels errs} : Good (.summing out labels errs)
  | ended {out : List Str} {o : Outcome} : Good (.ended out o)

/-- the view knows an item and everything below it -/
def Held (n : Nat) (items : GoMap Item) (p : List Nat) (x : Str × Node) : Prop :=
  ∀ q, (∀ y, find x q = some y → ∃ it, items.get? (pathToKey (p ++ q)) = some it ∧ Fits n (p ++ q) y it) ∧
    (find x q = none → items.get? (pathToKey (p ++ q)) = none)

theorem key_inj {p q : List Nat} : pathToKey p = pathToKey q ↔ p = q := ⟨C48_keys_distinct p q, fun h => by rw [h]⟩

theorem find_sub {x x' : Str × Node} (h : sub x.2 = sub x'.2) (i : Nat) (q : List Nat) : find x (i :: q) = find x' (i :: q) := by
  rw [find, find, h]

theorem held_self {n : Nat} {items : GoMap Item} {p : List Nat} {x : Str × Node} (h : Held n items p x) :
    ∃ it, items.get? (pathToKey p) = some it ∧ Fits n p x it := by
  have := (h []).1 x rfl
  rwa [List.append_nil] at this

/-- nothing changes in the view -/
theorem held_same {n : Nat} {items : GoMap Item} {p : List Nat} {l : Str} {k k' : Node} (h : Held n items p (l, k)) (hs : sub k = sub k')
    (hf : ∀ it, Fits n p (l, k) it → Fits n p (l, k') it) : Held n items p (l, k') := by
  intro q
  cases q with
  | nil =>
    rw [List.append_nil]
    obtain ⟨it, h1, h2⟩ := held_self h
    exact ⟨fun y hy => by cases hy; exact ⟨it, h1, hf it h2⟩, fun hy => by cases hy⟩
  | cons i q => rw [← find_sub (x := (l, k)) (x' := (l, k')) hs]; exact h (i :: q)

/-- the item itself changes in the view -/
theorem held_set {n : Nat} {items : GoMap Item} {p : List Nat} {l : Str} {k k' : Node} (h : Held n items p (l, k)) (hs : sub k = sub k')
    {it' : Item} (hf : Fits n p (l, k') it') : Held n (items.set (pathToKey p) it') p (l, k') := by
  intro q
  cases q with
  | nil =>
    rw [List.append_nil, GoMap.get?_set_self]
    exact ⟨fun y hy => by cases hy; exact ⟨it', rfl, hf⟩, fun hy => by cases hy⟩
  | cons i q =>
    have hne : pathToKey p ≠ pathToKey (p ++ i :: q) := by
      rw [Ne, key_inj]
      intro e
      have := congrArg List.length e
      simp at this
    rw [← find_sub (x := (l, k)) (x' := (l, k')) hs, GoMap.get?_set_ne _ _ hne]
    exact h (i :: q)

theorem frame_set {items : GoMap Item} {p : List Nat} {it' : Item} {x : Str} (hx : ∀ q, x ≠ pathToKey (p ++ q)) :
    (items.set (pathToKey p) it').get? x = items.get? x := by
  refine GoMap.get?_set_ne _ _ ?_
  intro e
  exact hx [] (by rw [List.append_nil, e])

/-- a nested item -/
theorem held_kid {n : Nat} {items : GoMap Item} {p : List Nat} {x y : Str × Node} (h : Held n items p x) {i : Nat} (hy : (sub x.2)[i]? = some y) :
    Held n items (p ++ [i]) y := by
  intro q
  have := h (i :: q)
  rw [find, hy] at this
  rwa [List.append_assoc]

/-- everything below an item is at a place below it -/
theorem desc_place {n : Nat} {items : GoMap Item} {p : List Nat} {x : Str × Node} (h : Held n items p x) :
    ∀ {a z : Str}, Desc items a z → ∀ {q y}, a = pathToKey (p ++ q) → find x q = some y → ∃ r, z = pathToKey (p ++ (q ++ r)) := by
  intro a z hd
  induction hd with
  | self a => intro q y e _; exact ⟨[], by rw [List.append_nil]; exact e⟩
  | child hg hc _ ih =>
    intro q y e hy
    obtain ⟨it, h1, h2⟩ := (h q).1 y hy
    rw [e, h1] at hg
    cases hg
    rw [h2.children] at hc
    obtain ⟨j, hj, rfl⟩ := List.mem_map.mp hc
    rw [List.mem_range] at hj
    have hf : find x (q ++ [j]) = some (sub y.2)[j] := by
      have : ∀ (q : List Nat) (x : Str × Node), find x q = some y → find x (q ++ [j]) = some (sub y.2)[j] := by
        intro q
        induction q with
        | nil => intro x hx; cases hx; rw [List.nil_append, find, List.getElem?_eq_getElem hj]; rfl
        | cons i q ihq =>
          intro x hx
          rw [List.cons_append, find]
          rw [find] at hx
          split at hx
          · exact ihq _ hx
          · cases hx
      exact this q x hy
    obtain ⟨r, hr⟩ := ih (by rw [List.append_assoc]) hf
    exact ⟨j :: r, by rw [hr, List.append_assoc]; rfl⟩

/-- and everything that is there at a place below an item is below it -/
theorem place_desc {n : Nat} {items : GoMap Item} : ∀ (q : List Nat) {p : List Nat} {x y : Str × Node}, Held n items p x → find x q = some y →
    Desc items (pathToKey p) (pathToKey (p ++ q)) := by
  intro q
  induction q with
  | nil => intro p x y _ _; rw [List.append_nil]; exact .self _
  | cons i q ih =>
    intro p x y h hy
    rw [find] at hy
    split at hy
    · next z hz =>
      obtain ⟨it, h1, h2⟩ := held_self h
      have := ih (held_kid h hz) hy
      rw [List.append_assoc] at this
      refine .child h1 ?_ this
      rw [h2.children]
      exact List.mem_map.mpr ⟨i, List.mem_range.mpr (List.getElem?_eq_some_iff.mp hz).1, rfl⟩
    · cases hy

theorem clear_done {b b' : Base} {key : Str} (h : clearChildren b key = some b') : b'.done = b.done := by
  unfold clearChildren at h
  split at h
  · cases h; rfl
  · obtain ⟨its, _, h2⟩ := Option.map_eq_some_iff.mp h
    rw [← h2]
    split <;> rfl

/-- another line -/
theorem recent_snoc {n : Nat} {lines out : List Str} (h : lines = recent n out) (t : Str) :
    (if n > 0 ∧ (lines ++ [t]).length > n then (lines ++ [t]).drop ((lines ++ [t]).length - n) else lines ++ [t]) = recent n (out ++ [t]) := by
  subst h
  unfold recent
  by_cases hn : n = 0
  · rw [if_neg (by omega), if_pos hn, if_pos hn]
  · rw [if_neg hn, if_neg hn]
    simp only [List.length_append, List.length_drop, List.length_singleton]
    rw [← List.drop_append_of_le_length (by omega)]
    by_cases h2 : out.length < n
    · rw [if_neg (by omega)]
      congr 1
      omega
    · rw [if_pos (by omega), List.drop_drop]
      congr 1
      omega

/-- the message changes the item itself -/
theorem step_set {b : Base} {p : List Nat} {l : Str} {k k' : Node} {m : Option Msg} (ht : TreeLike b.items) (h : Held b.maxLines b.items p (l, k))
    (hs : sub k = sub k') (hg : Good k') (it it' : Item) (h1 : b.items.get? (pathToKey p) = some it) (hc : it'.children = it.children)
    (hf : Fits b.maxLines p (l, k') it') (hd : deliver b m = some { b with items := b.items.set (pathToKey p) it' }) :
    ∃ b', deliver b m = some b' ∧ Good k' ∧ TreeLike b'.items ∧ Held b.maxLines b'.items p (l, k') ∧
      (∀ x, (∀ q, x ≠ pathToKey (p ++ q)) → b'.items.get? x = b.items.get? x) ∧ b'.roots = b.roots ∧ b'.maxLines = b.maxLines ∧
      b'.cancelled = b.cancelled ∧ b'.done = b.done :=
  ⟨_, hd, hg, treeLike_set ht (by rw [hc]; exact ht _ _ h1), held_set h hs hf, fun _ hx => frame_set hx, rfl, rfl, rfl, rfl⟩

theorem move_held {text : Option (List (Str × Icon)) → Str} {p : List Nat} {k k' : Node} {m : Option Msg} (hm : Move text p k m k') :
    ∀ {l : Str} {b : Base}, p ≠ [] → Good k → TreeLike b.items → Held b.maxLines b.items p (l, k) →
      ∃ b', deliver b m = some b' ∧ Good k' ∧ TreeLike b'.items ∧ Held b.maxLines b'.items p (l, k') ∧
        (∀ x, (∀ q, x ≠ pathToKey (p ++ q)) → b'.items.get? x = b.items.get? x) ∧ b'.roots = b.roots ∧ b'.maxLines = b.maxLines ∧
        b'.cancelled = b.cancelled ∧ b'.done = b.done := by
  induction hm with
  | @abort p =>
    intro l b hp hg ht h
    obtain ⟨it, h1, h2⟩ := held_self h
    exact step_set ht h rfl .ended it { it with done := true, outcome := .cancelled } h1 rfl
      ⟨h2.label, h2.children, h2.lines, fun r o ho => (by cases ho; exact ⟨rfl, rfl⟩), fun hn => absurd rfl (hn [] .cancelled)⟩ (by rw [deliver, handle, h1])
  | @start p =>
    intro l b hp hg ht h
    obtain ⟨it, h1, h2⟩ := held_self h
    have h3 := h2.going (fun r o => by simp)
    exact step_set ht h rfl .idle it { it with started := true } h1 rfl
      ⟨h2.label, h2.children, h2.lines, (fun r o ho => nomatch ho), fun _ => ⟨h3.1, by simp⟩⟩ (by rw [deliver, handle, h1])
  | @line p out t =>
    intro l b hp hg ht h
    obtain ⟨it, h1, h2⟩ := held_self h
    have h3 := h2.going (fun r o => by simp)
    exact step_set ht h rfl .idle it { it with lines := (
        if b.maxLines > 0 ∧ (it.lines ++ [t]).length > b.maxLines then (it.lines ++ [t]).drop ((it.lines ++ [t]).length - b.maxLines)
        else it.lines ++ [t]) } h1 rfl
      ⟨h2.label, h2.children, recent_snoc h2.lines t, (fun r o ho => nomatch ho), fun _ => ⟨h3.1, by simpa using h3.2⟩⟩ (by rw [deliver, handle, h1])
  | @finish p out o =>
    intro l b hp hg ht h
    obtain ⟨it, h1, h2⟩ := held_self h
    exact step_set ht h rfl .ended it { it with done := true, outcome := o } h1 rfl
      ⟨h2.label, h2.children, h2.lines, fun r o ho => (by cases ho; exact ⟨rfl, rfl⟩), fun hn => absurd rfl (hn out o)⟩ (by rw [deliver, handle, h1])
  | @enter p out labels =>
    intro l b hp hg ht h
    refine ⟨b, rfl, .adding (Nat.zero_le _), ht, held_same h (by simp [sub]) ?_, fun _ _ => rfl, rfl, rfl, rfl, rfl⟩
    intro it h2
    have h3 := h2.going (fun r o => by simp)
    exact ⟨h2.label, by simpa [sub] using h2.children, h2.lines, (fun r o ho => nomatch ho), fun _ => ⟨h3.1, by simpa using h3.2⟩⟩
  | @register p out labels n hn =>
    intro l b hp hg ht h
    obtain ⟨it, h1, h2⟩ := held_self h
    have h3 := h2.going (fun r o => by simp)
    have hkey : pathToKey p ≠ [] := by
      intro e
      exact hp (C48_keys_distinct p [] e)
    have hne : pathToKey (p ++ [n]) ≠ pathToKey p := by
      rw [Ne, key_inj]
      intro e
      have := congrArg List.length e
      simp at this
    have hit : (b.items.set (pathToKey (p ++ [n])) ({ label := labels[n] } : Item)).get? (pathToKey p) = some it := by
      rw [GoMap.get?_set_ne _ _ hne, h1]
    have hd : deliver b (some (.register (pathToKey (p ++ [n])) (pathToKey p) labels[n])) = some { b with
        items := (b.items.set (pathToKey (p ++ [n])) { label := labels[n] }).set (pathToKey p)
          { it with children := it.children ++ [pathToKey (p ++ [n])], lines := [] } } := by
      rw [deliver, handle]
      rw [if_pos hkey, hit]
    obtain ⟨b', e1, e2, e3, e4⟩ := treeLike_handle ht (growing_register p n labels[n])
    rw [deliver] at hd
    rw [e1] at hd
    cases hd
    refine ⟨_, e1, .adding (by omega), e2, ?_, ?_, rfl, rfl, rfl, rfl⟩
    · have hs : sub (.adding [] labels (n + 1)) = sub (.adding out labels n) ++ [(labels[n], .waiting)] := by
        simp only [sub]
        rw [List.take_add_one, List.getElem?_eq_getElem hn, List.map_append]
        rfl
      have hlen : (sub (.adding out labels n)).length = n := by
        simp only [sub, List.length_map, List.length_take]
        omega
      intro q
      cases q with
      | nil =>
        rw [List.append_nil, GoMap.get?_set_self]
        refine ⟨fun y hy => ?_, fun hy => by cases hy⟩
        cases hy
        refine ⟨_, rfl, h2.label, ?_, by simp [said, recent], (fun r o ho => nomatch ho), fun _ => ⟨h3.1, by simpa using h3.2⟩⟩
        show it.children ++ _ = _
        rw [h2.children, hs, List.length_append, hlen, List.length_singleton, List.range_succ, List.map_append]
        rfl
      | cons i q =>
        have hp' : pathToKey p ≠ pathToKey (p ++ i :: q) := by
          rw [Ne, key_inj]
          intro e
          have := congrArg List.length e
          simp at this
        rw [GoMap.get?_set_ne _ _ hp']
        have old := h (i :: q)
        rw [find] at old ⊢
        dsimp only at old ⊢
        rw [hs]
        rcases Nat.lt_trichotomy i n with hi | hi | hi
        · rw [List.getElem?_append_left (by omega)]
          have : pathToKey (p ++ [n]) ≠ pathToKey (p ++ i :: q) := by
            rw [Ne, key_inj, List.append_cancel_left_eq, List.cons.injEq]
            omega
          rw [GoMap.get?_set_ne _ _ this]
          exact old
        · subst hi
          rw [List.getElem?_append_right (by omega), hlen, Nat.sub_self]
          cases q with
          | nil =>
            rw [GoMap.get?_set_self]
            refine ⟨fun y hy => ?_, fun hy => by cases hy⟩
            cases hy
            exact ⟨_, rfl, rfl, rfl, by simp [said, recent], (fun r o ho => nomatch ho), fun _ => ⟨rfl, by simp⟩⟩
          | cons j q =>
            have : pathToKey (p ++ [i]) ≠ pathToKey (p ++ i :: j :: q) := by
              rw [Ne, key_inj, List.append_cancel_left_eq]
              simp
            rw [GoMap.get?_set_ne _ _ this]
            refine ⟨(fun y hy => nomatch hy), fun _ => ?_⟩
            rw [List.getElem?_eq_none (by omega)] at old
            exact old.2 rfl
        · rw [List.getElem?_append_right (by omega), hlen]
          have e : ([(labels[n], Node.waiting)])[i - n]? = none := List.getElem?_eq_none (by simp; omega)
          rw [e]
          have : pathToKey (p ++ [n]) ≠ pathToKey (p ++ i :: q) := by
            rw [Ne, key_inj, List.append_cancel_left_eq, List.cons.injEq]
            omega
          rw [GoMap.get?_set_ne _ _ this]
          rw [List.getElem?_eq_none (by omega)] at old
          exact ⟨(fun y hy => nomatch hy), fun _ => old.2 rfl⟩
    · intro x hx
      show GoMap.get? _ x = _
      rw [frame_set hx, GoMap.get?_set_ne _ _ (fun e => hx [n] e.symm)]
  | @fork p out labels =>
    intro l b hp hg ht h
    refine ⟨b, rfl, Good.block (by simp) (by simp) ?_ ?_, ht, held_same h ?_ ?_, fun _ _ => rfl, rfl, rfl, rfl, rfl⟩
    · intro k hk
      obtain ⟨_, _, rfl⟩ := List.mem_map.mp hk
      exact .waiting
    · intro i r o hi
      rw [List.getElem?_map] at hi
      obtain ⟨_, _, e⟩ := Option.map_eq_some_iff.mp hi
      cases e
    · simp only [sub, List.take_length]
      clear h hg
      induction labels with
      | nil => rfl
      | cons a as ih => rw [List.map_cons, List.map_cons, List.zip_cons_cons, ih]
    · intro it h2
      have h3 := h2.going (fun r o => by simp)
      refine ⟨h2.label, ?_, h2.lines, (fun r o ho => nomatch ho), fun _ => ⟨h3.1, by simpa using h3.2⟩⟩
      rw [h2.children]
      simp [sub]
  | @inside p out labels kids errs i k k' m hk _ ih =>
    intro l b hp hg ht h
    cases hg with
    | block g1 g2 g3 g4 =>
    have hi : i < kids.length := (List.getElem?_eq_some_iff.mp hk).1
    have hl : i < labels.length := by omega
    have hkid : (sub (.block out labels kids errs))[i]? = some (labels[i], k) := by
      simp only [sub]
      rw [List.getElem?_zip_eq_some]
      exact ⟨List.getElem?_eq_getElem hl, hk⟩
    obtain ⟨b', e1, e2, e3, e4, e5, e6, e7, e8, e9⟩ := ih (by simp) (g3 k (List.mem_of_getElem? hk)) ht (held_kid h hkid)
    refine ⟨b', e1, .block (by simpa using g1) ?_ ?_ ?_, e3, ?_, ?_, e6, e7, e8, e9⟩
    · cases k' <;> simp [record, g2]
    · intro x hx
      rcases List.mem_or_eq_of_mem_set hx with hx | rfl
      · exact g3 x hx
      · exact e2
    · intro j r o hj
      by_cases hji : i = j
      · subst hji
        rw [List.getElem?_set_self hi] at hj
        cases hj
        rw [record, List.getElem?_set_self (by omega)]
      · rw [List.getElem?_set_ne hji] at hj
        have := g4 j r o hj
        cases k' <;> simp only [record] <;> first | exact this | (rw [List.getElem?_set_ne hji]; exact this)
    · intro q
      cases q with
      | nil =>
        rw [List.append_nil]
        obtain ⟨it, h1, h2⟩ := held_self h
        have h3 := h2.going (fun r o => by simp)
        refine ⟨fun y hy => ?_, fun hy => by cases hy⟩
        cases hy
        refine ⟨it, ?_, h2.label, ?_, h2.lines, (fun r o ho => nomatch ho), fun _ => ⟨h3.1, by simpa using h3.2⟩⟩
        · rw [e5 _ ?_, h1]
          intro q
          rw [Ne, key_inj]
          intro e
          have := congrArg List.length e
          simp at this
        · rw [h2.children]
          simp [sub]
      | cons j q =>
        by_cases hji : i = j
        · subst hji
          have := e4 q
          rw [List.append_assoc] at this
          rw [find]
          have hk' : (sub (.block out labels (kids.set i k') (record errs i k')))[i]? = some (labels[i], k') := by
            simp only [sub]
            rw [List.getElem?_zip_eq_some]
            exact ⟨List.getElem?_eq_getElem hl, List.getElem?_set_self hi⟩
          dsimp only
          rw [hk']
          exact this
        · have old := h (j :: q)
          have hs : find (l, .block out labels (kids.set i k') (record errs i k')) (j :: q) = find (l, .block out labels kids errs) (j :: q) := by
            rw [find, find]
            have : (sub (.block out labels (kids.set i k') (record errs i k')))[j]? = (sub (.block out labels kids errs))[j]? := by
              simp only [sub]
              rw [List.zip_eq_zipWith, List.zip_eq_zipWith, List.getElem?_zipWith, List.getElem?_zipWith, List.getElem?_set_ne hji]
            dsimp only
            rw [this]
          rw [hs, e5 _ ?_]
          · exact old
          · intro r
            rw [Ne, key_inj, List.append_assoc, List.append_cancel_left_eq]
            intro e
            injection e with e _
            exact hji e.symm
    · intro x hx
      refine e5 x ?_
      intro q
      rw [List.append_assoc]
      exact hx _
  | @clear p out labels kids errs hall =>
    intro l b hp hg ht h
    obtain ⟨b', e1, e2, e3, _, e5, hx⟩ := clear_items ht (pathToKey p)
    have htb : TreeLike b'.items := by
      obtain ⟨b'', f1, f2, _, _⟩ := treeLike_handle (m := .clearChildren (pathToKey p)) ht (fun _ _ _ e => by cases e)
      rw [handle, e1] at f1
      cases f1
      exact f2
    obtain ⟨it, h1, h2⟩ := held_self h
    have h3 := h2.going (fun r o => by simp)
    have hbelow : ∀ {x}, Below b.items (pathToKey p) x → ∃ q, q ≠ [] ∧ x = pathToKey (p ++ q) := by
      rintro x ⟨it', c, g1, g2, g3⟩
      rw [h1] at g1
      cases g1
      rw [h2.children] at g2
      obtain ⟨j, hj, rfl⟩ := List.mem_map.mp g2
      rw [List.mem_range] at hj
      obtain ⟨r, hr⟩ := desc_place h g3 (q := [j]) rfl (y := (sub (.block out labels kids errs))[j]) (by
        rw [find, List.getElem?_eq_getElem hj]; rfl)
      exact ⟨j :: r, by simp, hr⟩
    refine ⟨b', e1, .summing, htb, ?_, ?_, e2, e3, e5, clear_done e1⟩
    · intro q
      cases q with
      | nil =>
        rw [List.append_nil, (hx (pathToKey p)).2.2 rfl, h1]
        refine ⟨fun y hy => ?_, fun hy => by cases hy⟩
        cases hy
        exact ⟨_, rfl, h2.label, rfl, h2.lines, (fun r o ho => nomatch ho), fun _ => ⟨h3.1, by simpa using h3.2⟩⟩
      | cons i q =>
        refine ⟨(fun y hy => nomatch hy), fun _ => ?_⟩
        by_cases hb : Below b.items (pathToKey p) (pathToKey (p ++ i :: q))
        · exact (hx _).1 hb
        · have hne : pathToKey (p ++ i :: q) ≠ pathToKey p := by
            rw [Ne, key_inj]
            intro e
            have := congrArg List.length e
            simp at this
          rw [(hx _).2.1 hb hne]
          refine (h (i :: q)).2 ?_
          cases hf : find (l, .block out labels kids errs) (i :: q) with
          | none => rfl
          | some y =>
            refine absurd ?_ hb
            rcases desc_iff.mp (place_desc _ h hf) with e | e
            · exact absurd e hne
            · exact e
    · intro x hx'
      refine (hx x).2.1 ?_ ?_
      · intro hb
        obtain ⟨q, _, e⟩ := hbelow hb
        exact hx' q e
      · exact fun e => hx' [] (by rw [List.append_nil, e])
  | @summary p out labels errs =>
    intro l b hp hg ht h
    obtain ⟨it, h1, h2⟩ := held_self h
    have h3 := h2.going (fun r o => by simp)
    generalize text (renderParallelDone labels errs) = t
    exact step_set ht h rfl .idle it { it with lines := (
        if b.maxLines > 0 ∧ (it.lines ++ [t]).length > b.maxLines then (it.lines ++ [t]).drop ((it.lines ++ [t]).length - b.maxLines)
        else it.lines ++ [t]) } h1 rfl
      ⟨h2.label, h2.children, recent_snoc h2.lines t, (fun r o ho => nomatch ho), fun _ => ⟨h3.1, by simpa using h3.2⟩⟩ (by rw [deliver, handle, h1])
  | @silent p out labels errs =>
    intro l b hp hg ht h
    refine ⟨b, rfl, .idle, ht, held_same h rfl ?_, fun _ _ => rfl, rfl, rfl, rfl, rfl⟩
    intro it h2
    have h3 := h2.going (fun r o => by simp)
    exact ⟨h2.label, h2.children, h2.lines, (fun r o ho => nomatch ho), fun _ => ⟨h3.1, by simpa using h3.2⟩⟩

/-! ### The whole view -/

/-- the view and the goroutines of the block agree -/
structure Inv (s : Sys) : Prop where
  kids : s.kids.length = s.labels.length
  errs : s.errs.length = s.labels.length
  good : ∀ k ∈ s.kids, Good k
  kept : ∀ (i : Nat) (r : List Str) (o : Outcome), s.kids[i]? = some (Node.ended r o) → s.errs[i]? = some o
  tree : TreeLike s.view.items
  held : ∀ i x, (s.labels.zip s.kids)[i]? = some x → Held s.view.maxLines s.view.items [i] x
  only : ∀ k it, s.view.items.get? k = some it → ∃ i q x y, k = pathToKey (i :: q) ∧ (s.labels.zip s.kids)[i]? = some x ∧ find x q = some y
  roots : s.view.roots = (List.range s.labels.length).map (fun i => pathToKey [i])
  over : s.view.done = true ↔ s.over = true

theorem inv_init (labels : List Str) (n : Nat) : Inv (Sys.init labels n) := by
  have hkey : ∀ i, itemKey i = pathToKey [i] := fun i => by rw [pathToKey_one]; rfl
  have hzip : ∀ (i : Nat) (x : Str × Node), (labels.zip (labels.map fun _ => Node.waiting))[i]? = some x ↔ ∃ l, labels[i]? = some l ∧ x = (l, .waiting) := by
    intro i x
    rw [List.getElem?_zip_eq_some, List.getElem?_map]
    constructor
    · rintro ⟨h1, h2⟩
      rw [h1] at h2
      exact ⟨x.1, h1, by rw [Option.map_some] at h2; exact Prod.ext rfl (Option.some.inj h2).symm⟩
    · rintro ⟨l, h1, rfl⟩
      exact ⟨h1, by rw [h1]; rfl⟩
  have hget : ∀ (labels : List Str) (j i : Nat), GoMap.get? ((labels.zipIdx j).map (fun q => (itemKey q.2, ({ label := q.1 } : Item)))) (pathToKey [i]) =
      if j ≤ i then (labels[i - j]?).map (fun l => { label := l }) else none := by
    intro labels
    induction labels with
    | nil => intro j i; simp [GoMap.get?]
    | cons a as ih =>
      intro j i
      rw [List.zipIdx_cons, List.map_cons, GoMap.get?, ih]
      dsimp only
      rw [hkey]
      by_cases h : j = i
      · subst h; simp
      · rw [if_neg (by rw [key_inj]; simpa using h)]
        by_cases h2 : j + 1 ≤ i
        · rw [if_pos h2, if_pos (by omega)]
          have : i - j = (i - (j + 1)) + 1 := by omega
          rw [this, List.getElem?_cons_succ]
        · rw [if_neg h2, if_neg (by omega)]
  have hmem : ∀ k it, GoMap.get? (newBase labels n).items k = some it → ∃ i, k = pathToKey [i] := by
    intro k it h
    obtain ⟨q, _, e⟩ := List.mem_map.mp (GoMap.mem_of_get? h)
    exact ⟨q.2, by rw [← hkey]; exact (congrArg Prod.fst e).symm⟩
  have hnew : ∀ i, (newBase labels n).items.get? (pathToKey [i]) = (labels[i]?).map (fun l => { label := l }) := by
    intro i
    have := hget labels 0 i
    rw [if_pos (Nat.zero_le _), Nat.sub_zero] at this
    exact this
  refine ⟨by simp [Sys.init], by simp [Sys.init], ?_, ?_, treeLike_new labels n, ?_, ?_, ?_, by simp [Sys.init, newBase]⟩
  · intro k hk
    obtain ⟨_, _, rfl⟩ := List.mem_map.mp hk
    exact .waiting
  · intro i r o h
    simp only [Sys.init] at h
    rw [List.getElem?_map] at h
    obtain ⟨_, _, e⟩ := Option.map_eq_some_iff.mp h
    cases e
  · intro i x hx
    obtain ⟨l, hl, rfl⟩ := (hzip i x).mp hx
    intro q
    cases q with
    | nil =>
      refine ⟨fun y hy => ?_, (fun hy => nomatch hy)⟩
      cases hy
      refine ⟨{ label := l }, ?_, rfl, rfl, by simp [said, recent], (fun r o ho => nomatch ho), fun _ => ⟨rfl, by simp⟩⟩
      rw [List.append_nil]
      show (newBase labels n).items.get? (pathToKey [i]) = _
      rw [hnew, hl]
      rfl
    | cons j q =>
      refine ⟨(fun y hy => nomatch hy), fun _ => ?_⟩
      cases hg : (Sys.init labels n).view.items.get? (pathToKey ([i] ++ j :: q)) with
      | none => rfl
      | some it =>
        obtain ⟨i', e⟩ := hmem _ _ hg
        rw [key_inj] at e
        cases e
  · intro k it hg
    obtain ⟨i, rfl⟩ := hmem k it hg
    have : (newBase labels n).items.get? (pathToKey [i]) = some it := hg
    rw [hnew] at this
    obtain ⟨l, hl, _⟩ := Option.map_eq_some_iff.mp this
    exact ⟨i, [], (l, .waiting), _, rfl, (hzip _ _).mpr ⟨l, hl, rfl⟩, rfl⟩
  · simp only [Sys.init, newBase]
    exact List.map_congr_left (fun i _ => hkey i)

theorem inv_step {text : Option (List (Str × Icon)) → Str} {s s' : Sys} (h : Inv s) (hs : Sys.Step text s s') : Inv s' := by
  cases hs with
  | @item i k k' m view' hk hm hv =>
    have hi : i < s.kids.length := (List.getElem?_eq_some_iff.mp hk).1
    have hl : i < s.labels.length := by rw [← h.kids]; exact hi
    have hx : (s.labels.zip s.kids)[i]? = some (s.labels[i], k) := by
      rw [List.getElem?_zip_eq_some]
      exact ⟨List.getElem?_eq_getElem hl, hk⟩
    obtain ⟨b', e1, e2, e3, e4, e5, e6, e7, e8, e9⟩ := move_held hm (by simp) (h.good k (List.mem_of_getElem? hk)) h.tree (h.held i _ hx)
    rw [e1] at hv
    cases hv
    have hself : (s.labels.zip (s.kids.set i k'))[i]? = some (s.labels[i], k') := by
      rw [List.getElem?_zip_eq_some]
      exact ⟨List.getElem?_eq_getElem hl, List.getElem?_set_self hi⟩
    have hother : ∀ j, i ≠ j → (s.labels.zip (s.kids.set i k'))[j]? = (s.labels.zip s.kids)[j]? := by
      intro j hj
      rw [List.zip_eq_zipWith, List.zip_eq_zipWith, List.getElem?_zipWith, List.getElem?_zipWith, List.getElem?_set_ne hj]
    have hout : ∀ j q, i ≠ j → ∀ r, pathToKey (j :: q) ≠ pathToKey ([i] ++ r) := by
      intro j q hj r
      rw [Ne, key_inj]
      intro e
      injection e with e _
      exact hj e.symm
    refine ⟨by simpa using h.kids, ?_, ?_, ?_, e3, ?_, ?_, e6.trans h.roots, by rw [e9]; exact h.over⟩
    · have := h.errs
      cases k' <;> simp [record, this]
    · intro x hx
      rcases List.mem_or_eq_of_mem_set hx with hx | rfl
      · exact h.good x hx
      · exact e2
    · intro j r o hj
      dsimp only at hj ⊢
      by_cases hji : i = j
      · subst hji
        rw [List.getElem?_set_self hi] at hj
        cases hj
        rw [record, List.getElem?_set_self (by rw [h.errs]; exact hl)]
      · rw [List.getElem?_set_ne hji] at hj
        have := h.kept j r o hj
        cases k' <;> simp only [record] <;> first | exact this | (rw [List.getElem?_set_ne hji]; exact this)
    · intro j x hj
      dsimp only at hj ⊢
      by_cases hji : i = j
      · subst hji
        rw [hself] at hj
        cases hj
        rw [e7]; exact e4
      · rw [hother j hji] at hj
        have old := h.held j x hj
        intro q
        have := old q
        rw [e5 (pathToKey ([j] ++ q)) (hout j q hji), e7]
        exact this
    · intro key it hg
      dsimp only at hg ⊢
      by_cases hin : ∃ q, key = pathToKey ([i] ++ q)
      · obtain ⟨q, rfl⟩ := hin
        cases hf : find (s.labels[i], k') q with
        | none => rw [(e4 q).2 hf] at hg; cases hg
        | some y => exact ⟨i, q, _, y, rfl, hself, hf⟩
      · rw [e5 key (fun q e => hin ⟨q, e⟩)] at hg
        obtain ⟨j, q, x, y, g1, g2, g3⟩ := h.only key it hg
        have hji : i ≠ j := by
          rintro rfl
          exact hin ⟨q, g1⟩
        exact ⟨j, q, x, y, g1, by rw [hother j hji]; exact g2, g3⟩
  | @user m view' hm hv =>
    have key : view'.items = s.view.items ∧ view'.roots = s.view.roots ∧ view'.done = s.view.done ∧ view'.maxLines = s.view.maxLines := by
      rcases hm with rfl | rfl
      · rw [handle] at hv
        split at hv <;> (cases hv; exact ⟨rfl, rfl, rfl, rfl⟩)
      · cases hv; exact ⟨rfl, rfl, rfl, rfl⟩
    obtain ⟨k1, k2, k3, k4⟩ := key
    refine ⟨h.kids, h.errs, h.good, h.kept, ?_, ?_, ?_, ?_, ?_⟩ <;> dsimp only
    · rw [k1]; exact h.tree
    · rw [k1, k4]; exact h.held
    · rw [k1]; exact h.only
    · rw [k2]; exact h.roots
    · rw [k3]; exact h.over
  | @close view' hall hv =>
    cases hv
    exact ⟨h.kids, h.errs, h.good, h.kept, h.tree, h.held, h.only, h.roots, by simp⟩

theorem inv_reach {text : Option (List (Str × Icon)) → Str} {labels : List Str} {n : Nat} {s : Sys} (h : Sys.Reach text labels n s) :
    Inv s ∧ s.labels = labels := by
  induction h with
  | init => exact ⟨inv_init labels n, rfl⟩
  | step _ hs ih =>
    refine ⟨inv_step ih.1 hs, ?_⟩
    rw [← ih.2]
    cases hs <;> rfl

theorem reach_max {text : Option (List (Str × Icon)) → Str} {labels : List Str} {n : Nat} {s : Sys} (h : Sys.Reach text labels n s) :
    s.view.maxLines = n := by
  induction h with
  | init => rfl
  | @step s s' h hs ih =>
    obtain ⟨hi, -⟩ := inv_reach h
    rw [← ih]
    cases hs with
    | @item i k k' m view' hk hm hv =>
      have hl : i < s.labels.length := by rw [← hi.kids]; exact (List.getElem?_eq_some_iff.mp hk).1
      have hx : (s.labels.zip s.kids)[i]? = some (s.labels[i], k) := by
        rw [List.getElem?_zip_eq_some]
        exact ⟨List.getElem?_eq_getElem hl, hk⟩
      obtain ⟨b', e1, _, _, _, _, _, e7, _⟩ := move_held hm (by simp) (hi.good k (List.mem_of_getElem? hk)) hi.tree (hi.held i _ hx)
      rw [e1] at hv
      cases hv
      exact e7
    | @user m view' hm hv =>
      rcases hm with rfl | rfl
      · rw [handle] at hv
        split at hv <;> (cases hv; rfl)
      · cases hv; rfl
    | close _ hv => cases hv; rfl

end Bab.View
