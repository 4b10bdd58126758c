import Verif.Spec.Listing
import Verif.Proof.Sort
import Verif.Proof.GoMap
import Mathlib.Data.List.Nodup
import Mathlib.Data.List.Perm.Lattice
/-
C58 and C59: shell completion and the task list.
-/

namespace Bab
open Spec

theorem strLe_total : ∀ (a b : Str), (strLe a b || strLe b a) = true
  | [], _ => by simp [strLe]
  | _ :: _, [] => by simp [strLe]
  | a :: x, b :: y => by
    rw [strLe, strLe]
    by_cases h : a = b
    · rw [if_pos h, if_pos h.symm]; exact strLe_total x y
    · rw [if_neg h, if_neg (fun e => h e.symm)]
      have : a.toNat ≠ b.toNat := fun e => h (Char.toNat_inj.mp e)
      simp only [Bool.or_eq_true, decide_eq_true_eq]
      omega

theorem strLe_trans : ∀ (a b c : Str), strLe a b = true → strLe b c = true → strLe a c = true
  | [], _, _, _, _ => by simp [strLe]
  | _ :: _, [], _, h, _ => by simp [strLe] at h
  | _ :: _, _ :: _, [], _, h => by simp [strLe] at h
  | a :: x, b :: y, c :: z, h1, h2 => by
    rw [strLe] at h1 h2 ⊢
    by_cases e1 : a = b
    · rw [if_pos e1] at h1
      subst e1
      by_cases e2 : a = c
      · rw [if_pos e2] at h2 ⊢; exact strLe_trans x y z h1 h2
      · rw [if_neg e2] at h2 ⊢; exact h2
    · rw [if_neg e1] at h1
      have h1' := of_decide_eq_true h1
      by_cases e2 : b = c
      · subst e2
        rw [if_neg e1]; exact h1
      · rw [if_neg e2] at h2
        have h2' := of_decide_eq_true h2
        have e3 : a ≠ c := by rintro rfl; omega
        rw [if_neg e3]
        exact decide_eq_true (by omega)

theorem strLe_antisymm : ∀ (a b : Str), strLe a b = true → strLe b a = true → a = b
  | [], [], _, _ => rfl
  | [], _ :: _, _, h => by simp [strLe] at h
  | _ :: _, [], h, _ => by simp [strLe] at h
  | a :: x, b :: y, h1, h2 => by
    rw [strLe] at h1 h2
    by_cases e : a = b
    · rw [if_pos e] at h1
      rw [if_pos e.symm] at h2
      rw [e, strLe_antisymm x y h1 h2]
    · rw [if_neg e] at h1
      rw [if_neg (fun h => e h.symm)] at h2
      have h1' := of_decide_eq_true h1
      have h2' := of_decide_eq_true h2
      omega

theorem hasPrefix_iff : ∀ (s p : Str), hasPrefix s p = true ↔ p <+: s
  | s, [] => by cases s <;> simp [hasPrefix]
  | [], b :: y => by simp [hasPrefix]
  | a :: x, b :: y => by
    rw [hasPrefix, Bool.and_eq_true, decide_eq_true_eq, hasPrefix_iff x y, List.cons_prefix_cons]
    constructor <;> rintro ⟨h1, h2⟩ <;> exact ⟨h1.symm, h2⟩

/-! ## C58 -/

theorem offered_plain {n : Str} (h : '\t' ∉ n) : offered n = n := by
  unfold offered
  rw [← List.append_nil n, List.takeWhile_append_of_pos, List.takeWhile_nil]
  intro c hc
  simp only [ne_eq, decide_not, Bool.not_eq_eq_eq_not, Bool.not_true, decide_eq_false_iff_not]
  rintro rfl
  exact h hc

theorem offered_tab {n : Str} (r : Str) (h : '\t' ∉ n) : offered (n ++ '\t' :: r) = n := by
  rw [offered, List.takeWhile_append_of_pos, List.takeWhile_cons_of_neg, List.append_nil]
  · simp
  · intro c hc
    simp only [ne_eq, decide_not, Bool.not_eq_eq_eq_not, Bool.not_true, decide_eq_false_iff_not]
    rintro rfl
    exact h hc

theorem taskEntry_offered {pre : Str} : ∀ (m : TaskMap), (∀ k ∈ m.keys, '\t' ∉ k) →
    (m.filterMap (taskEntry pre)).map offered = m.keys.filter (fun k => hasPrefix k pre)
  | [], _ => rfl
  | (k, T) :: m, h => by
    have ih := taskEntry_offered (pre := pre) m (fun k hk => h k (by simp only [GoMap.keys, List.map_cons, List.mem_cons]; exact .inr hk))
    have hk : '\t' ∉ k := h k (by simp [GoMap.keys])
    have hkeys : GoMap.keys ((k, T) :: m) = k :: GoMap.keys m := rfl
    rw [hkeys]
    by_cases hp : hasPrefix k pre = true
    · rw [List.filter_cons_of_pos (p := fun k => hasPrefix k pre) hp, ← ih]
      by_cases hd : T.desc ≠ []
      · rw [List.filterMap_cons_some (b := k ++ '\t' :: T.desc) (by simp [taskEntry, hp, hd]), List.map_cons, offered_tab _ hk]
      · rw [List.filterMap_cons_some (b := k) (by simp only [taskEntry, hp, if_true, if_neg hd]), List.map_cons, offered_plain hk]
    · rw [List.filter_cons_of_neg (p := fun k => hasPrefix k pre) hp, ← ih, List.filterMap_cons_none (by simp [taskEntry, hp])]

theorem aliasEntry_offered {tasks : TaskMap} {pre : Str} : ∀ (m : GoMap Str), (∀ k ∈ m.keys, '\t' ∉ k) →
    (m.filterMap (aliasEntry tasks pre)).map offered = m.keys.filter (fun k => hasPrefix k pre)
  | [], _ => rfl
  | (k, n) :: m, h => by
    have ih := aliasEntry_offered (tasks := tasks) (pre := pre) m
      (fun k hk => h k (by simp only [GoMap.keys, List.map_cons, List.mem_cons]; exact .inr hk))
    have hk : '\t' ∉ k := h k (by simp [GoMap.keys])
    have hkeys : GoMap.keys ((k, n) :: m) = k :: GoMap.keys m := rfl
    rw [hkeys]
    by_cases hp : hasPrefix k pre = true
    · rw [List.filter_cons_of_pos (p := fun k => hasPrefix k pre) hp, ← ih]
      have : ∃ r, aliasEntry tasks pre (k, n) = some (k ++ '\t' :: r) := by
        simp only [aliasEntry, hp, if_true]
        split
        · split <;> exact ⟨_, rfl⟩
        · exact ⟨_, rfl⟩
      obtain ⟨r, hr⟩ := this
      rw [List.filterMap_cons_some hr, List.map_cons, offered_tab _ hk]
    · rw [List.filter_cons_of_neg (p := fun k => hasPrefix k pre) hp, ← ih, List.filterMap_cons_none (by simp [aliasEntry, hp])]

/-- C58: the completions are sorted, and the names they offer are exactly the task names and aliases that start with the
text typed, each once per task or alias. -/
theorem C58_completions (tasks : TaskMap) (aliases : GoMap Str) (pre : Str)
    (ht : ∀ k ∈ tasks.keys, '\t' ∉ k) (ha : ∀ k ∈ aliases.keys, '\t' ∉ k) :
    (completeTaskNames tasks aliases pre).Pairwise (fun a b => strLe a b = true) ∧
    ((completeTaskNames tasks aliases pre).map offered).Perm
      ((tasks.keys ++ aliases.keys).filter (fun k => decide (pre <+: k))) := by
  refine ⟨sortBy_sorted strLe_trans strLe_total _, ?_⟩
  refine ((sortBy_perm strLe _).map offered).trans ?_
  rw [List.map_append, taskEntry_offered tasks ht, aliasEntry_offered aliases ha, ← List.filter_append]
  have : (fun k => hasPrefix k pre) = fun k => decide (pre <+: k) := by
    funext k
    rw [Bool.eq_iff_iff, decide_eq_true_eq]
    exact hasPrefix_iff k pre
  rw [this]

/-- C58: in an accepted Babfile (C39: an alias is neither a task name nor the alias of two tasks) no name is offered
twice. -/
theorem C58_no_duplicates (tasks : TaskMap) (aliases : GoMap Str) (pre : Str) (hwt : tasks.WF) (hwa : aliases.WF)
    (hd : ∀ a ∈ aliases.keys, a ∉ tasks.keys)
    (ht : ∀ k ∈ tasks.keys, '\t' ∉ k) (ha : ∀ k ∈ aliases.keys, '\t' ∉ k) :
    ((completeTaskNames tasks aliases pre).map offered).Nodup := by
  rw [(C58_completions tasks aliases pre ht ha).2.nodup_iff]
  refine List.Nodup.filter _ ?_
  rw [List.nodup_append]
  refine ⟨hwt, hwa, ?_⟩
  rintro a h1 b h2 rfl
  exact hd a h2 h1

/-- C58: the order in which Go iterates over the maps does not matter. -/
theorem C58_order_independent (tasks tasks' : TaskMap) (aliases aliases' : GoMap Str) (pre : Str) (hw : tasks.WF)
    (hp : tasks.Perm tasks') (hp' : aliases.Perm aliases') :
    completeTaskNames tasks aliases pre = completeTaskNames tasks' aliases' pre := by
  refine sorted_perm_eq (le := strLe) strLe_antisymm ?_ (sortBy_sorted strLe_trans strLe_total _)
    (sortBy_sorted strLe_trans strLe_total _)
  refine (sortBy_perm strLe _).trans (List.Perm.trans ?_ (sortBy_perm strLe _).symm)
  refine List.Perm.append (hp.filterMap _) ?_
  have : aliasEntry tasks pre = aliasEntry tasks' pre := by
    funext q
    unfold aliasEntry
    rw [GoMap.get?_perm hw hp]
  rw [this]
  exact hp'.filterMap _

/-! ## C59 -/

/-- what the tree has at a place -/
def LNode.find? : List Str → LNode → Option (Str × List Str)
  | [], .mk d a _ => some (d, a)
  | p :: ps, .mk _ _ ch => match GoMap.get? ch p with
    | none => none
    | some n => LNode.find? ps n

theorem find_empty : ∀ (q : List Str), q ≠ [] → LNode.find? q .empty = none
  | [], h => absurd rfl h
  | _ :: _, _ => rfl

theorem find_insert (d : Str) (a : List Str) : ∀ (p q : List Str) (n : LNode),
    LNode.find? q (LNode.insert d a p n) =
      if q = p then some (d, a)
      else if q <+: p then some ((LNode.find? q n).getD ([], [])) else LNode.find? q n
  | [], q, .mk d' a' ch => by
    rw [LNode.insert]
    cases q with
    | nil => simp [LNode.find?]
    | cons x q => simp [LNode.find?]
  | p :: ps, [], .mk d' a' ch => by
    rw [LNode.insert]
    simp [LNode.find?]
  | p :: ps, x :: q, .mk d' a' ch => by
    rw [LNode.insert, LNode.find?]
    by_cases hx : x = p
    · subst hx
      rw [GoMap.get?_set_self]
      dsimp only
      rw [find_insert d a ps q, LNode.find?]
      by_cases h1 : q = ps
      · simp [h1]
      · have h1' : ¬ (x :: q = x :: ps) := by simpa using h1
        rw [if_neg h1, if_neg h1']
        by_cases h2 : q <+: ps
        · have h2' : x :: q <+: x :: ps := by simpa [List.cons_prefix_cons] using h2
          rw [if_pos h2, if_pos h2']
          cases hg : GoMap.get? ch x with
          | none =>
            cases q with
            | nil => rfl
            | cons y q => rfl
          | some m => rfl
        · have h2' : ¬ (x :: q <+: x :: ps) := by simpa [List.cons_prefix_cons] using h2
          rw [if_neg h2, if_neg h2']
          have hq : q ≠ [] := by rintro rfl; exact h2 List.nil_prefix
          cases hg : GoMap.get? ch x with
          | none => exact find_empty q hq
          | some m => rfl
    · rw [GoMap.get?_set_ne _ _ (fun e => hx e.symm), LNode.find?, if_neg (by simp [hx]), if_neg (by simp [List.cons_prefix_cons, hx])]

/-- no node has two children of the same name -/
inductive LNode.Good : LNode → Prop
  | mk {d : Str} {a : List Str} {ch : List (Str × LNode)} : GoMap.WF ch → (∀ q ∈ ch, LNode.Good q.2) → LNode.Good (.mk d a ch)

theorem good_insert (d : Str) (a : List Str) : ∀ (p : List Str) (n : LNode), n.Good → (LNode.insert d a p n).Good
  | [], .mk _ _ _, h => by
    cases h with | mk h1 h2 => exact .mk h1 h2
  | p :: ps, .mk _ _ ch, h => by
    cases h with
    | mk h1 h2 =>
      rw [LNode.insert]
      have hn : ((GoMap.get? ch p).getD .empty).Good := by
        cases hg : GoMap.get? ch p with
        | none => exact .mk (by simp [GoMap.WF, GoMap.keys]) (by simp)
        | some m => exact h2 (p, m) (GoMap.mem_of_get? hg)
      have hi := good_insert d a ps _ hn
      have hwf := GoMap.WF_set h1 p (LNode.insert d a ps ((GoMap.get? ch p).getD .empty))
      refine .mk hwf ?_
      rintro ⟨k, m⟩ hm
      have hg := GoMap.get?_of_mem hwf hm
      by_cases hk : k = p
      · subst hk
        rw [GoMap.get?_set_self] at hg
        obtain rfl := Option.some.inj hg
        exact hi
      · rw [GoMap.get?_set_ne _ _ (fun e => hk e.symm)] at hg
        exact h2 (k, m) (GoMap.mem_of_get? hg)

theorem childRows_map (ch : List (Str × LNode)) : LNode.childRows ch = ch.map (fun q => (q.1, LNode.rows q.1 q.2)) := by
  induction ch with
  | nil => rfl
  | cons q ch ih => obtain ⟨k, n⟩ := q; rw [LNode.childRows, ih]; rfl

theorem before_irrefl : ∀ p : List Str, ¬ Before p p
  | [] => id
  | a :: x => by
    rintro (⟨h, _⟩ | ⟨_, h⟩)
    · exact h rfl
    · exact before_irrefl x h

theorem before_asymm : ∀ p q : List Str, Before p q → Before q p → False
  | [], [], h, _ => h
  | [], _ :: _, _, h => h
  | _ :: _, [], h, _ => h
  | a :: x, b :: y, h1, h2 => by
    rcases h1 with ⟨n1, l1⟩ | ⟨e1, h1⟩ <;> rcases h2 with ⟨n2, l2⟩ | ⟨e2, h2⟩
    · exact n1 (strLe_antisymm a b l1 l2)
    · exact n1 e2.symm
    · exact n2 e1.symm
    · exact before_asymm x y h1 h2

/-- the sorted children of a node, with their lines -/
theorem sorted_children {ch : List (Str × LNode)} (hwf : GoMap.WF ch)
    (ih : ∀ q ∈ ch, (∀ r, r ∈ LNode.rows q.1 q.2 ↔ ∃ p, r.path = q.1 :: p ∧ LNode.find? p q.2 = some (r.desc, r.aliases)) ∧
      (LNode.rows q.1 q.2).Pairwise (fun a b => Before a.path b.path)) :
    (∀ r, r ∈ (sortBy (fun x y => strLe x.1 y.1) (LNode.childRows ch)).flatMap (·.2) ↔
      ∃ k p n, r.path = k :: p ∧ GoMap.get? ch k = some n ∧ LNode.find? p n = some (r.desc, r.aliases)) ∧
    ((sortBy (fun x y => strLe x.1 y.1) (LNode.childRows ch)).flatMap (·.2)).Pairwise (fun a b => Before a.path b.path) := by
  have hperm := sortBy_perm (fun (x y : Str × List LRow) => strLe x.1 y.1) (LNode.childRows ch)
  have hsort := sortBy_sorted (le := fun (x y : Str × List LRow) => strLe x.1 y.1)
    (fun a b c => strLe_trans a.1 b.1 c.1) (fun a b => strLe_total a.1 b.1) (LNode.childRows ch)
  have hmem : ∀ q, q ∈ sortBy (fun (x y : Str × List LRow) => strLe x.1 y.1) (LNode.childRows ch) ↔
      ∃ n, (q.1, n) ∈ ch ∧ q.2 = LNode.rows q.1 n := by
    intro q
    rw [hperm.mem_iff, childRows_map, List.mem_map]
    constructor
    · rintro ⟨⟨k, n⟩, h, rfl⟩; exact ⟨n, h, rfl⟩
    · rintro ⟨n, h, he⟩; exact ⟨(q.1, n), h, by rw [← he]⟩
  have hnd : ((sortBy (fun (x y : Str × List LRow) => strLe x.1 y.1) (LNode.childRows ch)).map (·.1)).Nodup := by
    rw [(hperm.map _).nodup_iff, childRows_map, List.map_map]
    exact hwf
  generalize hS : sortBy (fun (x y : Str × List LRow) => strLe x.1 y.1) (LNode.childRows ch) = S at *
  constructor
  · intro r
    rw [List.mem_flatMap]
    constructor
    · rintro ⟨q, hq, hr⟩
      obtain ⟨n, hn, he⟩ := (hmem q).mp hq
      rw [he] at hr
      obtain ⟨p, h1, h2⟩ := ((ih _ hn).1 r).mp hr
      exact ⟨q.1, p, n, h1, GoMap.get?_of_mem hwf hn, h2⟩
    · rintro ⟨k, p, n, h1, h2, h3⟩
      have hn := GoMap.mem_of_get? h2
      exact ⟨(k, LNode.rows k n), (hmem _).mpr ⟨n, hn, rfl⟩, ((ih _ hn).1 r).mpr ⟨p, h1, h3⟩⟩
  · have hall : ∀ q ∈ S, (∀ r ∈ q.2, ∃ p, r.path = q.1 :: p) ∧ q.2.Pairwise (fun a b => Before a.path b.path) := by
      intro q hq
      obtain ⟨n, hn, he⟩ := (hmem q).mp hq
      rw [he]
      refine ⟨fun r hr => ?_, (ih _ hn).2⟩
      obtain ⟨p, h1, _⟩ := ((ih _ hn).1 r).mp hr
      exact ⟨p, h1⟩
    clear hS hmem hperm
    induction S with
    | nil => simp
    | cons q S ihS =>
      rw [List.flatMap_cons, List.pairwise_append]
      rw [List.map_cons, List.nodup_cons] at hnd
      rw [List.pairwise_cons] at hsort
      refine ⟨(hall q (by simp)).2, ihS hsort.2 hnd.2 (fun q' h' => hall q' (by simp [h'])), ?_⟩
      intro r hr r' hr'
      obtain ⟨q', hq', hr''⟩ := List.mem_flatMap.mp hr'
      obtain ⟨p, hp⟩ := (hall q (by simp)).1 r hr
      obtain ⟨p', hp'⟩ := (hall q' (by simp [hq'])).1 r' hr''
      rw [hp, hp']
      left
      refine ⟨?_, hsort.1 q' hq'⟩
      intro he
      exact hnd.1 (List.mem_map.mpr ⟨q', hq', he.symm⟩)

theorem rows_spec {n : LNode} (hg : n.Good) : ∀ name,
    (∀ r, r ∈ LNode.rows name n ↔ ∃ p, r.path = name :: p ∧ LNode.find? p n = some (r.desc, r.aliases)) ∧
      (LNode.rows name n).Pairwise (fun a b => Before a.path b.path) := by
  induction hg with
  | @mk d a ch hwf _ ih =>
    intro name
    obtain ⟨h1, h2⟩ := sorted_children hwf (fun q hq => ih q hq q.1)
    have hrows : LNode.rows name (.mk d a ch) = ⟨[name], d, a⟩ ::
        ((sortBy (fun x y => strLe x.1 y.1) (LNode.childRows ch)).flatMap (·.2)).map
          (fun r => { r with path := name :: r.path }) := by
      rw [LNode.rows, List.map_flatMap]
    rw [hrows]
    constructor
    · intro r
      rw [List.mem_cons, List.mem_map]
      constructor
      · rintro (rfl | ⟨r', hr', rfl⟩)
        · exact ⟨[], rfl, rfl⟩
        · obtain ⟨k, p, m, e1, e2, e3⟩ := (h1 r').mp hr'
          refine ⟨k :: p, by rw [e1], ?_⟩
          rw [LNode.find?, e2]
          exact e3
      · rintro ⟨p, e1, e2⟩
        obtain ⟨rp, rd, ra⟩ := r
        dsimp only at e1 e2
        cases p with
        | nil =>
          left
          rw [LNode.find?] at e2
          obtain ⟨rfl, rfl⟩ := Prod.mk.inj (Option.some.inj e2)
          rw [e1]
        | cons k p =>
          right
          rw [LNode.find?] at e2
          cases hg : GoMap.get? ch k with
          | none => rw [hg] at e2; cases e2
          | some m =>
            rw [hg] at e2
            exact ⟨⟨k :: p, rd, ra⟩, (h1 _).mpr ⟨k, p, m, rfl, hg, e2⟩, by rw [e1]⟩
    · rw [List.pairwise_cons, List.pairwise_map]
      constructor
      · intro r hr
        obtain ⟨r', hr', rfl⟩ := List.mem_map.mp hr
        obtain ⟨k, p, m, e1, _⟩ := (h1 r').mp hr'
        rw [e1]
        exact .inr ⟨rfl, trivial⟩
      · exact h2.imp (fun h => .inr ⟨rfl, h⟩)

theorem allRows_spec {n : LNode} (hg : n.Good) :
    (∀ r, r ∈ n.allRows ↔ r.path ≠ [] ∧ LNode.find? r.path n = some (r.desc, r.aliases)) ∧
      n.allRows.Pairwise (fun a b => Before a.path b.path) := by
  cases hg with
  | @mk d a ch hwf hch =>
    obtain ⟨h1, h2⟩ := sorted_children hwf (fun q hq => rows_spec (hch q hq) q.1)
    refine ⟨?_, h2⟩
    intro r
    rw [LNode.allRows, h1]
    obtain ⟨rp, rd, ra⟩ := r
    dsimp only
    constructor
    · rintro ⟨k, p, m, rfl, e2, e3⟩
      refine ⟨by simp, ?_⟩
      rw [LNode.find?, e2]; exact e3
    · rintro ⟨h0, h3⟩
      cases rp with
      | nil => exact absurd rfl h0
      | cons k p =>
        rw [LNode.find?] at h3
        cases hg : GoMap.get? ch k with
        | none => rw [hg] at h3; cases h3
        | some m => rw [hg] at h3; exact ⟨k, p, m, rfl, hg, h3⟩

theorem splitColon_parts : ∀ (s cur : Str), ':' ∉ cur →
    ∃ p qs, splitColon cur s = p :: qs ∧ cur.reverse ++ s = p ++ qs.flatMap (':' :: ·) ∧ ∀ x ∈ p :: qs, ':' ∉ x
  | [], cur, h => ⟨cur.reverse, [], rfl, by simp, by simpa using h⟩
  | c :: r, cur, h => by
    rw [splitColon]
    by_cases hc : c = ':'
    · rw [if_pos hc]
      obtain ⟨p, qs, h1, h2, h3⟩ := splitColon_parts r [] (by simp)
      refine ⟨cur.reverse, p :: qs, by rw [h1], ?_, ?_⟩
      · rw [List.flatMap_cons, hc]
        simp only [List.reverse_nil, List.nil_append] at h2
        rw [h2]
        simp
      · intro x hx
        rcases List.mem_cons.mp hx with rfl | hx
        · simpa using h
        · exact h3 x hx
    · rw [if_neg hc]
      obtain ⟨p, qs, h1, h2, h3⟩ := splitColon_parts r (c :: cur) (by simp only [List.mem_cons, not_or]; exact ⟨fun e => hc e.symm, h⟩)
      refine ⟨p, qs, h1, ?_, h3⟩
      rw [← h2]; simp

theorem splitColon_spec (s : Str) : Parts s (splitColon [] s) := by
  obtain ⟨p, qs, h1, h2, h3⟩ := splitColon_parts s [] (by simp)
  rw [h1]
  exact ⟨h3, p, qs, rfl, by simpa using h2⟩

theorem colon_split {a b x y : Str} (ha : ':' ∉ a) (hb : ':' ∉ b) (h : a ++ ':' :: x = b ++ ':' :: y) : a = b ∧ x = y := by
  induction a generalizing b with
  | nil =>
    cases b with
    | nil => exact ⟨rfl, by simpa using h⟩
    | cons c b =>
      simp only [List.nil_append, List.cons_append, List.cons.injEq] at h
      exact absurd (by rw [← h.1]; exact List.mem_cons_self) hb
  | cons c a ih =>
    cases b with
    | nil =>
      simp only [List.nil_append, List.cons_append, List.cons.injEq] at h
      exact absurd (by rw [h.1]; exact List.mem_cons_self) ha
    | cons d b =>
      simp only [List.cons_append, List.cons.injEq] at h
      simp only [List.mem_cons, not_or] at ha hb
      obtain ⟨e1, e2⟩ := ih ha.2 hb.2 h.2
      exact ⟨by rw [h.1, e1], e2⟩

theorem parts_inj : ∀ (qs qs' : List Str) (p p' : Str), (∀ x ∈ p :: qs, ':' ∉ x) → (∀ x ∈ p' :: qs', ':' ∉ x) →
    p ++ qs.flatMap (':' :: ·) = p' ++ qs'.flatMap (':' :: ·) → p :: qs = p' :: qs'
  | [], [], p, p', _, _, h => by simpa using h
  | [], q :: qs', p, p', h1, _, h => by
    exfalso
    refine h1 p (by simp) ?_
    simp only [List.flatMap_nil, List.append_nil] at h
    rw [h]; simp
  | q :: qs, [], p, p', _, h2, h => by
    exfalso
    refine h2 p' (by simp) ?_
    simp only [List.flatMap_nil, List.append_nil] at h
    rw [← h]; simp
  | q :: qs, q' :: qs', p, p', h1, h2, h => by
    simp only [List.flatMap_cons, List.cons_append] at h
    obtain ⟨e1, e2⟩ := colon_split (h1 p (by simp)) (h2 p' (by simp)) h
    rw [e1, parts_inj qs qs' q q' (fun x hx => h1 x (List.mem_cons_of_mem _ hx)) (fun x hx => h2 x (List.mem_cons_of_mem _ hx)) e2]

/-- a name has exactly one list of parts, and the parts determine the name -/
theorem parts_iff (name : Str) (ps : List Str) : Parts name ps ↔ splitColon [] name = ps := by
  obtain ⟨h1, p, qs, h2, h3⟩ := splitColon_spec name
  constructor
  · rintro ⟨h1', p', qs', rfl, h3'⟩
    rw [h2] at h1 ⊢
    exact parts_inj qs qs' p p' h1 h1' (by rw [← h3, ← h3'])
  · rintro rfl; exact ⟨h1, p, qs, h2, h3⟩

theorem splitColon_inj {a b : Str} (h : splitColon [] a = splitColon [] b) : a = b := by
  obtain ⟨_, p, qs, h2, h3⟩ := splitColon_spec a
  obtain ⟨_, p', qs', h2', h3'⟩ := splitColon_spec b
  rw [h2, h2'] at h
  obtain ⟨rfl, rfl⟩ := List.cons.inj h
  rw [h3, h3']

theorem shownAliases_eq (T : Task) : shownAliases T = (if T.alias = [] then [] else [T.alias]) ++ T.aliases := by
  unfold shownAliases
  by_cases h : T.alias = [] <;> simp [h]

theorem get?_concat {m : TaskMap} {k : Str} {T : Task} (hk : k ∉ m.keys) (n : Str) :
    GoMap.get? (m ++ [(k, T)]) n = if n = k then some T else GoMap.get? m n := by
  induction m with
  | nil =>
    simp only [List.nil_append, GoMap.get?]
    by_cases h : n = k
    · simp [h]
    · rw [if_neg h, if_neg (fun e => h e.symm)]
  | cons q m ih =>
    obtain ⟨k', v⟩ := q
    have hk' : k' ≠ k ∧ k ∉ GoMap.keys m := by
      simp only [GoMap.keys, List.map_cons, List.mem_cons, not_or] at hk
      exact ⟨fun e => hk.1 e.symm, hk.2⟩
    rw [List.cons_append, GoMap.get?, GoMap.get?, ih hk'.2]
    by_cases h : k' = n
    · rw [if_pos h, if_pos h, if_neg (by rw [← h]; exact hk'.1)]
    · rw [if_neg h, if_neg h]

/-- the tree after some of the tasks -/
theorem listTree_spec : ∀ (todo done : TaskMap) (root : LNode), GoMap.WF (done ++ todo) → root.Good →
    (∀ p d a, p ≠ [] → (LNode.find? p root = some (d, a) ↔ RowAt done p d a)) →
    let root' := todo.foldl (fun root q => LNode.insert q.2.desc (shownAliases q.2) (splitColon [] q.1) root) root
    root'.Good ∧ ∀ p d a, p ≠ [] → (LNode.find? p root' = some (d, a) ↔ RowAt (done ++ todo) p d a)
  | [], done, root, _, hg, h => by
    rw [List.append_nil]; exact ⟨hg, h⟩
  | (k, T) :: todo, done, root, hwf, hg, h => by
    rw [List.foldl_cons]
    have e : done ++ (k, T) :: todo = done ++ [(k, T)] ++ todo := by simp
    rw [e] at hwf ⊢
    have hk : k ∉ GoMap.keys done := by
      have : (GoMap.keys done ++ k :: GoMap.keys todo).Nodup := by
        have h' := hwf
        unfold GoMap.WF GoMap.keys at h'
        simpa [GoMap.keys] using h'
      rw [List.nodup_append] at this
      intro hm
      exact this.2.2 k hm k (by simp) rfl
    refine listTree_spec todo (done ++ [(k, T)]) _ hwf (good_insert _ _ _ _ hg) ?_
    intro p d a hp
    dsimp only
    rw [find_insert]
    have hget := fun n => get?_concat (T := T) hk n
    by_cases h1 : p = splitColon [] k
    · rw [if_pos h1]
      constructor
      · intro he
        obtain ⟨rfl, rfl⟩ := Prod.mk.inj (Option.some.inj he)
        left
        exact ⟨k, T, by rw [hget, if_pos rfl], (parts_iff _ _).mpr h1.symm, rfl, shownAliases_eq T⟩
      · rintro (⟨n, U, hn, hpn, rfl, rfl⟩ | ⟨hno, _⟩)
        · have : n = k := splitColon_inj (((parts_iff _ _).mp hpn).trans h1)
          rw [hget, if_pos this] at hn
          obtain rfl := Option.some.inj hn
          rw [shownAliases_eq]
        · exact absurd ((parts_iff k p).mpr h1.symm) (hno k T (by rw [hget, if_pos rfl]))
    · rw [if_neg h1]
      -- tasks at this place are the same as before
      have hsame : ∀ n U, Parts n p → (GoMap.get? (done ++ [(k, T)]) n = some U ↔ GoMap.get? done n = some U) := by
        intro n U hpn
        rw [hget, if_neg]
        rintro rfl
        exact h1 ((parts_iff _ _).mp hpn).symm
      by_cases h2 : p <+: splitColon [] k
      · rw [if_pos h2]
        cases hf : LNode.find? p root with
        | some x =>
          obtain ⟨d', a'⟩ := x
          rw [Option.getD_some, ← hf, h p d a hp]
          constructor
          · rintro (⟨n, U, hn, hpn, e1, e2⟩ | ⟨hno, e1, e2, e3, n, U, ps, hn, hps, hpre⟩)
            · exact .inl ⟨n, U, (hsame n U hpn).mpr hn, hpn, e1, e2⟩
            · refine .inr ⟨?_, e1, e2, e3, n, U, ps, ?_, hps, hpre⟩
              · intro n' U' hn' hpn'
                exact hno n' U' ((hsame n' U' hpn').mp hn') hpn'
              · rw [hget, if_neg]
                · exact hn
                · rintro rfl
                  exact hk ((GoMap.mem_keys_iff ..).mpr (by rw [hn]; simp))
          · rintro (⟨n, U, hn, hpn, e1, e2⟩ | ⟨hno, e1, e2, e3, _⟩)
            · exact .inl ⟨n, U, (hsame n U hpn).mp hn, hpn, e1, e2⟩
            · have hold := (h p d' a' hp).mp hf
              rcases hold with ⟨n, U, hn, hpn, _⟩ | ⟨hno', f1, f2, f3, f4⟩
              · exact absurd hpn (hno n U ((hsame n U hpn).mpr hn))
              · exact .inr ⟨hno', e1, e2, e3, f4⟩
        | none =>
          rw [Option.getD_none]
          have hnone : ∀ d a, ¬ RowAt done p d a := by
            intro d a hr
            have := (h p d a hp).mpr hr
            rw [hf] at this; cases this
          constructor
          · intro he
            obtain ⟨rfl, rfl⟩ := Prod.mk.inj (Option.some.inj he)
            refine .inr ⟨?_, rfl, rfl, hp, k, T, _, by rw [hget, if_pos rfl], splitColon_spec k, h2⟩
            intro n U hn hpn
            exact hnone _ _ (.inl ⟨n, U, (hsame n U hpn).mp hn, hpn, rfl, rfl⟩)
          · rintro (⟨n, U, hn, hpn, e1, e2⟩ | ⟨hno, rfl, rfl, _⟩)
            · exact absurd (.inl ⟨n, U, (hsame n U hpn).mp hn, hpn, e1, e2⟩) (hnone d a)
            · rfl
      · rw [if_neg h2, h p d a hp]
        constructor
        · rintro (⟨n, U, hn, hpn, e1, e2⟩ | ⟨hno, e1, e2, e3, n, U, ps, hn, hps, hpre⟩)
          · exact .inl ⟨n, U, (hsame n U hpn).mpr hn, hpn, e1, e2⟩
          · refine .inr ⟨?_, e1, e2, e3, n, U, ps, ?_, hps, hpre⟩
            · intro n' U' hn' hpn'
              exact hno n' U' ((hsame n' U' hpn').mp hn') hpn'
            · rw [hget, if_neg]
              · exact hn
              · rintro rfl
                exact hk ((GoMap.mem_keys_iff ..).mpr (by rw [hn]; simp))
        · rintro (⟨n, U, hn, hpn, e1, e2⟩ | ⟨hno, e1, e2, e3, n, U, ps, hn, hps, hpre⟩)
          · exact .inl ⟨n, U, (hsame n U hpn).mp hn, hpn, e1, e2⟩
          · refine .inr ⟨?_, e1, e2, e3, n, U, ps, ?_, hps, hpre⟩
            · intro n' U' hn' hpn'
              exact hno n' U' ((hsame n' U' hpn').mpr hn') hpn'
            · rw [hget] at hn
              split at hn
              · next he =>
                subst he
                rw [← (parts_iff _ _).mp hps] at hpre
                exact absurd hpre h2
              · exact hn

theorem listTree_find {tasks : TaskMap} (hwf : tasks.WF) :
    (listTree tasks).Good ∧ ∀ p d a, p ≠ [] → (LNode.find? p (listTree tasks) = some (d, a) ↔ RowAt tasks p d a) := by
  have := listTree_spec tasks [] .empty (by simpa using hwf)
    (.mk (by simp [GoMap.WF, GoMap.keys]) (by simp)) (by
      intro p d a hp
      rw [find_empty p hp]
      constructor
      · intro h; cases h
      · rintro (⟨n, U, hn, _⟩ | ⟨_, _, _, _, n, U, _, hn, _⟩) <;> cases hn)
  rwa [List.nil_append] at this

theorem rowAt_ne {tasks : TaskMap} {p : List Str} {d : Str} {a : List Str} (h : RowAt tasks p d a) : p ≠ [] := by
  rcases h with ⟨n, U, _, ⟨_, q, qs, h, _⟩, _⟩ | ⟨_, _, _, h, _⟩
  · rw [h]; simp
  · exact h

/-- C59: the list has a line for a place exactly if a task is there or below it; a task's line shows its description and
aliases, any other line only the name. -/
theorem C59_rows {tasks : TaskMap} (hwf : tasks.WF) (r : LRow) :
    r ∈ listTasks tasks ↔ RowAt tasks r.path r.desc r.aliases := by
  obtain ⟨hg, hf⟩ := listTree_find hwf
  rw [listTasks, (allRows_spec hg).1]
  constructor
  · rintro ⟨h1, h2⟩; exact (hf _ _ _ h1).mp h2
  · intro h; exact ⟨rowAt_ne h, (hf _ _ _ (rowAt_ne h)).mpr h⟩

/-- C59: the lines are in alphabetical order, each namespace before what is in it, and no place has two lines. -/
theorem C59_sorted {tasks : TaskMap} (hwf : tasks.WF) :
    (listTasks tasks).Pairwise (fun a b => Before a.path b.path) ∧ ((listTasks tasks).map (·.path)).Nodup := by
  obtain ⟨hg, hf⟩ := listTree_find hwf
  have h := (allRows_spec hg).2
  refine ⟨h, ?_⟩
  rw [List.Nodup, List.pairwise_map]
  refine List.Pairwise.imp ?_ h
  intro a b hb he
  rw [he] at hb
  exact before_irrefl _ hb

/-- C59: every task has exactly one line, the one at the parts of its name. -/
theorem C59_once {tasks : TaskMap} (hwf : tasks.WF) {name : Str} {T : Task} (h : tasks.get? name = some T) :
    ∃ r ∈ listTasks tasks, Parts name r.path ∧ r.desc = T.desc ∧ ∀ r' ∈ listTasks tasks, Parts name r'.path → r' = r := by
  have hp := splitColon_spec name
  refine ⟨⟨splitColon [] name, T.desc, _⟩, (C59_rows hwf _).mpr (.inl ⟨name, T, h, hp, rfl, rfl⟩), hp, rfl, ?_⟩
  rintro ⟨rp, rd, ra⟩ hr hp'
  have e := (parts_iff _ _).mp hp'
  dsimp only at e
  subst e
  rcases (C59_rows hwf _).mp hr with ⟨n, U, hn, hpn, e1, e2⟩ | ⟨hno, _⟩
  · have : n = name := splitColon_inj ((parts_iff _ _).mp hpn)
    subst this
    rw [h] at hn
    obtain rfl := Option.some.inj hn
    dsimp only at e1 e2
    rw [e1, e2]
  · exact absurd hp' (hno name T h)

/-- C59: the list does not depend on the order in which Go iterates over the map. -/
theorem C59_order_independent {tasks tasks' : TaskMap} (hwf : tasks.WF) (hp : tasks.Perm tasks') :
    listTasks tasks = listTasks tasks' := by
  have hwf' : tasks'.WF := GoMap.WF_perm hwf hp
  have hs := C59_sorted hwf
  have hs' := C59_sorted hwf'
  have hperm : (listTasks tasks).Perm (listTasks tasks') := by
    rw [List.perm_ext_iff_of_nodup hs.2.of_map hs'.2.of_map]
    intro r
    rw [C59_rows hwf, C59_rows hwf']
    unfold RowAt
    simp only [GoMap.get?_perm hwf hp]
  exact hperm.eq_of_pairwise (fun a b _ _ h1 h2 => (before_asymm _ _ h1 h2).elim) hs.1 hs'.1

/-- tasks `b:x`, `a` and `b`; the namespace `c` has no task of its own -/
example : listTasks [("b:x".toList, { name := [], desc := "X".toList }), ("a".toList, { name := [], «alias» := "q".toList }),
      ("c:d".toList, { name := [] }), ("b".toList, { name := [], desc := "B".toList })]
    = [⟨["a".toList], [], ["q".toList]⟩, ⟨["b".toList], "B".toList, []⟩, ⟨["b".toList, "x".toList], "X".toList, []⟩,
       ⟨["c".toList], [], []⟩, ⟨["c".toList, "d".toList], [], []⟩] := by decide +kernel

example : completeTaskNames [("build".toList, { name := [], desc := "B".toList }), ("test".toList, { name := [] })]
    [("bb".toList, "build".toList), ("b".toList, "test".toList)] "b".toList
    = ["b\talias for test".toList, "bb\tB (alias)".toList, "build\tB".toList] := by decide +kernel

end Bab
