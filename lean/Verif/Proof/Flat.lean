import Verif.Spec.Flat
import Verif.Proof.Split
/-
Lemmas for C113: what is due after a parallel block was replaced by its items.
-/

namespace Bab
open Spec

namespace Flat

section
variable {c : Cfg} {tasks : TaskMap} {g : GoMap Str} {main n : Str} {T : Task} {pre items post : List RunItem} {labels : List Str}
  {mode : ParallelMode} {lim ln : Nat} {color bs bo : Option Bool}

local notation "new" => inSequence tasks n T pre items post
local notation "old" => blockPlace n pre.length items.length

variable (hT : tasks.get? n = some T) (hrun : T.run = pre ++ RunItem.parallel items labels mode lim color bs bo [] [] ln :: post) (hpl : ∀ it ∈ items, Plain c it)
  (hahead : ∀ t U, .task t ∈ items → tasks.get? t.task = some U → U.deps = [] ∨ CondTrue c U.cond g)

theorem new_n : (new).get? n = some { T with run := pre ++ items ++ post } := GoMap.get?_set_self _ _ _

theorem new_other {k : Str} (h : k ≠ n) : (new).get? k = tasks.get? k := GoMap.get?_set_ne _ _ (Ne.symm h)

include hT in
/-- a task is the same but for its items -/
theorem new_task {k : Str} {U : Task} (h : (new).get? k = some U) : ∃ U0, tasks.get? k = some U0 ∧ U = { U0 with run := U.run } := by
  by_cases e : k = n
  · rw [e, new_n] at h; cases h
    exact ⟨T, e ▸ hT, rfl⟩
  · exact ⟨U, (new_other e).symm.trans h, rfl⟩

include hT in
theorem old_task {k : Str} {U : Task} (h : tasks.get? k = some U) : ∃ r, (new).get? k = some { U with run := r } := by
  by_cases e : k = n
  · rw [e, hT] at h; cases h
    rw [e]; exact ⟨_, new_n⟩
  · exact ⟨U.run, (new_other e).trans h⟩

theorem old_out {l : Loc} (h : l.task ≠ n ∨ l.item < pre.length) : old l = l := by
  unfold blockPlace; rw [if_pos h]

theorem old_in {l : Loc} (h : l.task = n) (h1 : pre.length ≤ l.item) (h2 : l.item < pre.length + items.length) :
    old l = ⟨n, pre.length, some (l.item - pre.length)⟩ := by
  unfold blockPlace
  rw [if_neg (by rintro (k | k); exacts [k h, by omega]), if_pos h2]

theorem old_after {l : Loc} (h : l.task = n) (h2 : pre.length + items.length ≤ l.item) :
    old l = ⟨n, l.item - items.length + 1, l.sub⟩ := by
  unfold blockPlace
  rw [if_neg (by rintro (k | k); exacts [k h, by omega]), if_neg (by omega)]

/-- outside the items of the block -/
def Outside (n : Str) (a b : Nat) (l : Loc) : Prop := l.task ≠ n ∨ l.item < a ∨ a + b ≤ l.item

theorem old_outside {k : Str} {i : Nat} (u v : Option Nat) (h : Outside n pre.length items.length ⟨k, i, u⟩) :
    old ⟨k, i, v⟩ = ⟨(old ⟨k, i, u⟩).task, (old ⟨k, i, u⟩).item, v⟩ ∧ (old ⟨k, i, u⟩).sub = u := by
  by_cases h1 : k ≠ n ∨ i < pre.length
  · rw [old_out (l := ⟨k, i, v⟩) h1, old_out (l := ⟨k, i, u⟩) h1]; exact ⟨rfl, rfl⟩
  · have h2 : k = n := by by_contra e; exact h1 (.inl e)
    have h3 : pre.length + items.length ≤ i := by
      rcases h with h | h | h
      · exact absurd h2 h
      · exact absurd (.inr h) h1
      · exact h
    rw [old_after (l := ⟨k, i, v⟩) h2 h3, old_after (l := ⟨k, i, u⟩) h2 h3]; exact ⟨rfl, rfl⟩

include hpl in
theorem plain_not_block {its : List RunItem} {la : List Str} {mo : ParallelMode} {li l : Nat} {co s o : Option Bool} {pl : List Str} {w : Str}
    (h : .parallel its la mo li co s o pl w l ∈ items) : False := (hpl _ h).1

include hpl in
/-- what is due at the place of an item of the block -/
theorem at_block {l : Loc} {it : RunItem} {m : GoMap Str} (h : Spec.Due c (new) g main (.item l it m)) (h1 : l.task = n)
    (h2 : pre.length ≤ l.item) (h3 : l.item < pre.length + items.length) : l.sub = none ∧ items[l.item - pre.length]? = some it := by
  generalize hth : Thing.item l it m = th at h
  induction h generalizing l it m with
  | @item k U m i it' _ k2 _ _ k5 =>
    cases hth
    dsimp only at h1 h2 h3
    subst h1
    rw [new_n] at k2; cases k2
    refine ⟨rfl, ?_⟩
    have k5 : (pre ++ items ++ post)[i]? = _ := k5
    rw [List.append_assoc, List.getElem?_append_right h2, List.getElem?_append_left (by omega)] at k5
    exact k5
  | @sub k i its _ _ _ _ _ _ _ _ _ m' j _ _ _ ih =>
    cases hth
    have := (ih (l := ⟨k, i, none⟩) h1 h2 h3 rfl).2
    exact (plain_not_block hpl (List.mem_of_getElem? this)).elim
  | _ => cases hth

theorem block_on : (RunItem.parallel items labels mode lim color bs bo [] [] ln).onPlatform c.platform = true := by simp [RunItem.onPlatform, RunItem.platforms, matchesPlatform]

theorem block_cond (m : GoMap Str) : CondTrue c (RunItem.parallel items labels mode lim color bs bo [] [] ln).cond m := by simp [CondTrue, RunItem.cond, evaluate]

theorem plain_cond {it : RunItem} (h : Plain c it) (m : GoMap Str) : CondTrue c it.cond m := by
  rw [h.2.2]; simp [CondTrue, evaluate]

include hT hrun hpl in
theorem due_old {th : Thing} (h : Spec.Due c (new) g main th) :
    match th with
    | .task k => Spec.Due c tasks g main (.task k)
    | .item l it m => Spec.Due c tasks g main (.item (old l) it m) := by
  induction h with
  | main => exact .main
  | @dep k U d _ h2 h3 h4 ih =>
    obtain ⟨U0, k1, k2⟩ := new_task hT h2
    rw [k2] at h3 h4
    exact .dep ih k1 h3 h4
  | @item k U m i it _ h2 h3 h4 h5 h6 h7 ih =>
    dsimp only at ih ⊢
    by_cases e : k = n
    · subst e
      rw [new_n] at h2; cases h2
      have h3 : CondTrue c T.cond g := h3
      have h4 : resolveVars T.vars g c.env = .ok m := h4
      have h5 : (pre ++ items ++ post)[i]? = some it := h5
      by_cases a1 : i < pre.length
      · rw [old_out (l := ⟨k, i, none⟩) (.inr a1)]
        refine .item ih hT h3 h4 ?_ h6 h7
        rw [List.append_assoc, List.getElem?_append_left a1] at h5
        rw [hrun, List.getElem?_append_left a1]
        exact h5
      · by_cases a2 : i < pre.length + items.length
        · rw [old_in (l := ⟨k, i, none⟩) rfl (by dsimp only; omega) a2]
          have hb : Spec.Due c tasks g main (.item ⟨k, pre.length, none⟩ (RunItem.parallel items labels mode lim color bs bo [] [] ln) m) :=
            .item ih hT h3 h4 (by rw [hrun]; simp) block_on (block_cond m)
          refine .sub hb ?_
          rw [List.append_assoc, List.getElem?_append_right (by omega), List.getElem?_append_left (by omega)] at h5
          exact h5
        · rw [old_after (l := ⟨k, i, none⟩) rfl (by dsimp only; omega)]
          refine .item ih hT h3 h4 ?_ h6 h7
          rw [List.getElem?_append_right (by simp; omega)] at h5
          dsimp only
          rw [hrun, List.getElem?_append_right (by omega), show i - items.length + 1 - pre.length = (i - (pre ++ items).length) + 1 by simp; omega,
            List.getElem?_cons_succ]
          exact h5
    · rw [new_other e] at h2
      rw [old_out (l := ⟨k, i, none⟩) (.inl e)]
      exact .item ih h2 h3 h4 h5 h6 h7
  | @sub k i its la mo li co s o pl w l m j it h1 h2 ih =>
    have out : Outside n pre.length items.length ⟨k, i, none⟩ := by
      by_contra hc
      unfold Outside at hc
      push Not at hc
      have := (at_block hpl h1 hc.1 hc.2.1 hc.2.2).2
      exact plain_not_block hpl (List.mem_of_getElem? this)
    have e := old_outside none (some j) out
    dsimp only at ih ⊢
    rw [e.1]
    have e' : old ⟨k, i, none⟩ = ⟨(old ⟨k, i, none⟩).task, (old ⟨k, i, none⟩).item, none⟩ := (old_outside none none out).1
    rw [e'] at ih
    exact .sub ih h2
  | call _ ih => exact .call ih
  | @ahead k i j t m U d h1 h2 h3 ih =>
    obtain ⟨U0, k1, k2⟩ := new_task hT h2
    rw [k2] at h3
    have out : Outside n pre.length items.length ⟨k, i, some j⟩ := by
      by_contra hc
      unfold Outside at hc
      push Not at hc
      exact nomatch (at_block hpl h1 hc.1 hc.2.1 hc.2.2).1
    have e' := (old_outside (some j) (some j) out).1
    dsimp only at ih
    rw [e'] at ih
    exact .ahead ih k1 h3

include hT hrun hpl hahead in
theorem due_new {th : Thing} (h : Spec.Due c tasks g main th) :
    match th with
    | .task k => Spec.Due c (new) g main (.task k)
    | .item l it m => (l = ⟨n, pre.length, none⟩ ∧ it = RunItem.parallel items labels mode lim color bs bo [] [] ln ∧ Spec.Due c (new) g main (.task n) ∧ CondTrue c T.cond g ∧
        resolveVars T.vars g c.env = .ok m) ∨ ∃ l', old l' = l ∧ Spec.Due c (new) g main (.item l' it m) := by
  induction h with
  | main => exact .main
  | @dep k U d _ h2 h3 h4 ih =>
    obtain ⟨r, k1⟩ := old_task hT h2
    exact .dep ih k1 h3 h4
  | @item k U m i it _ h2 h3 h4 h5 h6 h7 ih =>
    dsimp only at ih ⊢
    by_cases e : k = n
    · subst e
      rw [hT] at h2; cases h2
      rw [hrun] at h5
      by_cases a1 : i < pre.length
      · refine .inr ⟨⟨k, i, none⟩, old_out (.inr a1), .item ih new_n h3 h4 ?_ h6 h7⟩
        rw [List.getElem?_append_left a1] at h5
        show (pre ++ items ++ post)[i]? = _
        rw [List.append_assoc, List.getElem?_append_left a1]; exact h5
      · by_cases a2 : i = pre.length
        · subst a2
          simp at h5
          exact .inl ⟨rfl, h5.symm, ih, h3, h4⟩
        · obtain ⟨q, hq⟩ : ∃ q, i = pre.length + 1 + q := ⟨i - pre.length - 1, by omega⟩
          subst hq
          refine .inr ⟨⟨k, pre.length + items.length + q, none⟩, ?_, .item ih new_n h3 h4 ?_ h6 h7⟩
          · rw [old_after (l := ⟨k, pre.length + items.length + q, none⟩) rfl (by dsimp only; omega)]
            dsimp only
            congr 1
            omega
          · rw [List.getElem?_append_right (by omega), show pre.length + 1 + q - pre.length = q + 1 by omega, List.getElem?_cons_succ] at h5
            show (pre ++ items ++ post)[_]? = _
            rw [List.getElem?_append_right (by simp), show pre.length + items.length + q - (pre ++ items).length = q by simp]
            exact h5
    · exact .inr ⟨⟨k, i, none⟩, old_out (.inl e), .item ih ((new_other e).trans h2) h3 h4 h5 h6 h7⟩
  | @sub k i its la mo li co s o pl w l m j it _ h2 ih =>
    rcases ih with ⟨e, eb, hd, hc, hm⟩ | ⟨⟨k', i', u⟩, e, hd⟩
    · cases e; cases eb
      have hj : j < items.length := (List.getElem?_eq_some_iff.mp h2).1
      have hp := hpl it (List.mem_of_getElem? h2)
      refine .inr ⟨⟨n, pre.length + j, none⟩, ?_, .item hd new_n hc hm ?_ hp.2.1 (plain_cond hp m)⟩
      · rw [old_in (l := ⟨n, pre.length + j, none⟩) rfl (by dsimp only; omega) (by dsimp only; omega)]
        dsimp only
        congr 2
        omega
      · show (pre ++ items ++ post)[_]? = _
        rw [List.append_assoc, List.getElem?_append_right (by omega), List.getElem?_append_left (by omega),
          show pre.length + j - pre.length = j by omega]
        exact h2
    · have out : Outside n pre.length items.length ⟨k', i', u⟩ := by
        by_contra hc
        unfold Outside at hc
        push Not at hc
        have := (at_block hpl hd hc.1 hc.2.1 hc.2.2).2
        exact plain_not_block hpl (List.mem_of_getElem? this)
      have a := old_outside u (some j) out
      have hu : u = none := by rw [← a.2, e]
      subst hu
      refine .inr ⟨⟨k', i', some j⟩, ?_, .sub hd h2⟩
      rw [a.1, e]
  | call _ ih =>
    rcases ih with ⟨-, eb, -⟩ | ⟨l', -, hd⟩
    · cases eb
    · exact .call hd
  | @ahead k i j t m U d h1 h2 h3 ih =>
    rcases ih with ⟨-, eb, -⟩ | ⟨⟨k', i', u⟩, e, hd⟩
    · cases eb
    · obtain ⟨r, k1⟩ := old_task (pre := pre) (items := items) (post := post) hT h2
      by_cases out : Outside n pre.length items.length ⟨k', i', u⟩
      · have a := old_outside u u out
        have hu : u = some j := by rw [← a.2, e]
        subst hu
        exact .ahead hd k1 h3
      · unfold Outside at out
        push Not at out
        have b := (at_block hpl hd out.1 out.2.1 out.2.2).2
        rcases hahead t U (List.mem_of_getElem? b) h2 with hz | hz
        · rw [hz] at h3; cases h3
        · exact .dep (.call hd) k1 hz h3

include hT hrun hpl hahead in
/-- what is due is the same, apart from the places -/
theorem entry_iff {e : PlanEntry} :
    (∃ e', blockEntry n pre.length items.length e' = e ∧ DueEntry c (new) g main e') ↔ DueEntry c tasks g main e := by
  constructor
  · rintro ⟨e', rfl, h⟩
    cases h with
    | cmd h1 h2 => exact .cmd (due_old hT hrun hpl h1) h2
    | log h1 h2 => exact .log (due_old hT hrun hpl h1) h2
  · intro h
    cases h with
    | cmd h1 h2 =>
      rcases due_new hT hrun hpl hahead h1 with ⟨-, h, -⟩ | ⟨l', rfl, h⟩
      · cases h
      · exact ⟨_, rfl, .cmd h h2⟩
    | log h1 h2 =>
      rcases due_new hT hrun hpl hahead h1 with ⟨-, h, -⟩ | ⟨l', rfl, h⟩
      · cases h
      · exact ⟨.log l' _ _, rfl, .log h h2⟩

include hpl in
/-- different items were at different places -/
theorem old_inj {l l' : Loc} {it it' : RunItem} {m m' : GoMap Str} (h : Spec.Due c (new) g main (.item l it m))
    (h' : Spec.Due c (new) g main (.item l' it' m')) (e : old l = old l') : l = l' := by
  have b := at_block hpl h
  have b' := at_block hpl h'
  obtain ⟨k, i, u⟩ := l
  obtain ⟨k', i', u'⟩ := l'
  dsimp only at b b'
  have cases3 : ∀ (k : Str) (i : Nat), (k ≠ n ∨ i < pre.length) ∨ (k = n ∧ pre.length ≤ i ∧ i < pre.length + items.length) ∨
      (k = n ∧ pre.length + items.length ≤ i) := by
    intro k i
    by_cases h1 : k = n
    · by_cases h2 : i < pre.length
      · exact .inl (.inr h2)
      · by_cases h3 : i < pre.length + items.length
        · exact .inr (.inl ⟨h1, by omega, h3⟩)
        · exact .inr (.inr ⟨h1, by omega⟩)
    · exact .inl (.inl h1)
  rcases cases3 k i with h1 | ⟨h1, h2, h3⟩ | ⟨h1, h2⟩
  · rw [old_out (l := ⟨k, i, u⟩) h1] at e
    rcases cases3 k' i' with k1 | ⟨k1, k2, k3⟩ | ⟨k1, k2⟩
    · rw [old_out (l := ⟨k', i', u'⟩) k1] at e
      exact e
    · rw [old_in (l := ⟨k', i', u'⟩) k1 k2 k3] at e
      cases e
      rcases h1 with h1 | h1
      · exact absurd rfl h1
      · omega
    · rw [old_after (l := ⟨k', i', u'⟩) k1 k2] at e
      cases e
      rcases h1 with h1 | h1
      · exact absurd rfl h1
      · dsimp only at h1; omega
  · have hu := (b h1 h2 h3).1
    rw [old_in (l := ⟨k, i, u⟩) h1 h2 h3] at e
    rcases cases3 k' i' with k1 | ⟨k1, k2, k3⟩ | ⟨k1, k2⟩
    · rw [old_out (l := ⟨k', i', u'⟩) k1] at e
      cases e
      rcases k1 with k1 | k1
      · exact absurd rfl k1
      · omega
    · have hu' := (b' k1 k2 k3).1
      rw [old_in (l := ⟨k', i', u'⟩) k1 k2 k3] at e
      have := Option.some.inj (congrArg Loc.sub e)
      dsimp only at this
      rw [h1, k1, hu, hu', show i = i' by omega]
    · rw [old_after (l := ⟨k', i', u'⟩) k1 k2] at e
      have := congrArg Loc.item e
      dsimp only at this
      omega
  · rw [old_after (l := ⟨k, i, u⟩) h1 h2] at e
    rcases cases3 k' i' with k1 | ⟨k1, k2, k3⟩ | ⟨k1, k2⟩
    · rw [old_out (l := ⟨k', i', u'⟩) k1] at e
      cases e
      rcases k1 with k1 | k1
      · exact absurd rfl k1
      · dsimp only at k1; omega
    · rw [old_in (l := ⟨k', i', u'⟩) k1 k2 k3] at e
      have := congrArg Loc.item e
      dsimp only at this
      omega
    · rw [old_after (l := ⟨k', i', u'⟩) k1 k2] at e
      have e1 := congrArg Loc.item e
      have e2 := congrArg Loc.sub e
      dsimp only at e1 e2
      rw [h1, k1, e2, show i = i' by omega]

end
end Flat
end Bab
