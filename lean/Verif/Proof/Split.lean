import Verif.Spec.Split
import Verif.Props.Due
import Verif.Props.Confine
/-
Lemmas for C112: what is due after items of a task were moved to a task of their own.
-/

namespace Bab
open Spec

namespace Split

section
variable {c : Cfg} {tasks : TaskMap} {g : GoMap Str} {main n x : Str} {T : Task} {pre mid post : List RunItem}

/-- what is due is needed -/
theorem due_needs {th : Thing} (h : Spec.Due c tasks g main th) :
    match th with
    | .task k => Needs tasks main k
    | .item loc it _ => Needs tasks main loc.task ∧ ∃ T, tasks.get? loc.task = some T ∧ ∀ k, CallsIn k [it] → CallsIn k T.run := by
  have calls : ∀ {its : List RunItem} {i : Nat} {it : RunItem}, its[i]? = some it → ∀ k, CallsIn k [it] → CallsIn k its := by
    intro its
    induction its with
    | nil => intro i it h; simp at h
    | cons a its ih =>
      intro i it h k hk
      cases i with
      | zero =>
        simp at h; subst h
        cases hk with
        | here h => exact .here h
        | block h => exact .block h
        | later h => cases h
      | succ i => exact .later (ih (by simpa using h) k hk)
  induction h with
  | main => exact .inl rfl
  | dep _ h2 _ h4 ih => exact Sim.needs_closed ih h2 (.inl h4)
  | item _ h2 _ _ h5 _ _ ih => exact ⟨ih, _, h2, calls h5⟩
  | sub _ h2 ih =>
    obtain ⟨h3, U, h4, h5⟩ := ih
    exact ⟨h3, U, h4, fun k hk => h5 k (.block (calls h2 k hk))⟩
  | call _ ih =>
    obtain ⟨h3, U, h4, h5⟩ := ih
    exact Sim.needs_closed h3 h4 (.inr (h5 _ (.here rfl)))
  | ahead _ h2 h3 ih =>
    obtain ⟨h4, U, h5, h6⟩ := ih
    exact Sim.needs_closed (Sim.needs_closed h4 h5 (.inr (h6 _ (.here rfl)))) h2 (.inl h3)

variable (hT : tasks.get? n = some T) (hrun : T.run = pre ++ mid ++ post) (hx : tasks.get? x = none) (hnx : ¬ Needs tasks main x)

local notation "new" => moveItems tasks n T x pre mid post
local notation "old" => oldPlace n x pre.length mid.length

theorem new_x : (new).get? x = some (ownTask T x mid) := GoMap.get?_set_self _ _ _

include hT hx in
theorem x_ne : x ≠ n := by rintro rfl; rw [hT] at hx; cases hx

include hT hx in
theorem new_n : (new).get? n = some { T with run := pre ++ .task { task := x } :: post } := by
  unfold moveItems
  rw [GoMap.get?_set_ne _ _ (x_ne hT hx), GoMap.get?_set_self]

theorem new_other {k : Str} (h1 : k ≠ n) (h2 : k ≠ x) : (new).get? k = tasks.get? k := by
  unfold moveItems
  rw [GoMap.get?_set_ne _ _ (Ne.symm h2), GoMap.get?_set_ne _ _ (Ne.symm h1)]

theorem old_sub (l : Loc) : (old l).sub = l.sub := by
  unfold oldPlace; split
  · rfl
  · split <;> rfl

/-- what is due of the new task is due of the old one -/
def Begun (c : Cfg) (tasks : TaskMap) (g : GoMap Str) (main n : Str) (T : Task) (m : GoMap Str) : Prop :=
  Spec.Due c tasks g main (.task n) ∧ CondTrue c T.cond g ∧ resolveVars T.vars g c.env = .ok m

include hT hrun hx hnx in
theorem due_old {th : Thing} (h : Spec.Due c (new) g main th) :
    match th with
    | .task k => (k = x ∧ ∃ m, Begun c tasks g main n T m) ∨ (k ≠ x ∧ Spec.Due c tasks g main (.task k))
    | .item l it m => (l = ⟨n, pre.length, none⟩ ∧ it = .task { task := x } ∧ Begun c tasks g main n T m) ∨
        (l ≠ ⟨n, pre.length, none⟩ ∧ Spec.Due c tasks g main (.item (old l) it m)) := by
  have ne : ∀ {k}, Spec.Due c tasks g main (.task k) → k ≠ x := fun h e => hnx (e ▸ due_needs h)
  have xn := x_ne hT hx
  induction h with
  | main => exact .inr ⟨ne .main, .main⟩
  | @dep k U d _ h2 h3 h4 ih =>
    rcases ih with ⟨rfl, m, hb⟩ | ⟨hk, ih⟩
    · rw [new_x] at h2; cases h2
      cases h4
    · have : Spec.Due c tasks g main (.task d) := by
        by_cases e : k = n
        · subst e
          rw [new_n hT hx] at h2; cases h2
          exact .dep ih hT h3 h4
        · rw [new_other e hk] at h2
          exact .dep ih h2 h3 h4
      exact .inr ⟨ne this, this⟩
  | @item k U m i it _ h2 h3 h4 h5 h6 h7 ih =>
    rcases ih with ⟨rfl, m', hb⟩ | ⟨hk, ih⟩
    · rw [new_x] at h2; cases h2
      have h4 : resolveVars T.vars g c.env = .ok m := h4
      have h5 : mid[i]? = some it := h5
      refine .inr ⟨fun e => xn (congrArg Loc.task e), ?_⟩
      unfold oldPlace
      rw [if_pos rfl]
      refine .item hb.1 hT hb.2.1 h4 ?_ h6 h7
      have hi : i < mid.length := (List.getElem?_eq_some_iff.mp h5).1
      dsimp only
      rw [hrun, List.append_assoc, List.getElem?_append_right (by omega), List.getElem?_append_left (by omega)]
      simpa using h5
    · by_cases e : k = n
      · subst e
        rw [new_n hT hx] at h2; cases h2
        have h4 : resolveVars T.vars g c.env = .ok m := h4
        have h5 : (pre ++ .task { task := x } :: post)[i]? = some it := h5
        by_cases hi : i = pre.length
        · subst hi
          simp at h5
          exact .inl ⟨rfl, h5.symm, ih, h3, h4⟩
        · refine .inr ⟨fun e => hi (congrArg Loc.item e), ?_⟩
          unfold oldPlace
          rw [if_neg hk]
          by_cases hl : pre.length < i
          · rw [if_pos ⟨rfl, hl⟩]
            refine .item ih hT h3 h4 ?_ h6 h7
            rw [List.getElem?_append_right (by omega)] at h5
            obtain ⟨q, hq⟩ : ∃ q, i - pre.length = q + 1 := ⟨i - pre.length - 1, by omega⟩
            rw [hq, List.getElem?_cons_succ] at h5
            rw [hrun, List.getElem?_append_right (by simp; omega)]
            rw [← h5]
            congr 1
            simp; omega
          · rw [if_neg (fun h => hl h.2)]
            refine .item ih hT h3 h4 ?_ h6 h7
            rw [List.getElem?_append_left (by omega)] at h5
            rw [hrun, List.append_assoc, List.getElem?_append_left (by omega)]
            exact h5
      · rw [new_other e hk] at h2
        refine .inr ⟨fun e' => e (congrArg Loc.task e'), ?_⟩
        unfold oldPlace
        rw [if_neg hk, if_neg (fun h => e h.1)]
        exact .item ih h2 h3 h4 h5 h6 h7
  | @sub k i items labels mode lim color bs bo pl w ln m j it _ h2 ih =>
    rcases ih with ⟨-, h, -⟩ | ⟨-, ih⟩
    · cases h
    · refine .inr ⟨(fun e => nomatch congrArg Loc.sub e), ?_⟩
      have e : old ⟨k, i, some j⟩ = ⟨(old ⟨k, i, none⟩).task, (old ⟨k, i, none⟩).item, some j⟩ := by
        unfold oldPlace
        dsimp only
        split
        · rfl
        · split <;> rfl
      have e' : old ⟨k, i, none⟩ = ⟨(old ⟨k, i, none⟩).task, (old ⟨k, i, none⟩).item, none⟩ := by
        have := old_sub (n := n) (x := x) (pre := pre) (mid := mid) ⟨k, i, none⟩
        generalize old ⟨k, i, none⟩ = l at this
        cases l; cases this; rfl
      rw [e' ] at ih
      rw [e]
      exact .sub ih h2
  | call _ ih =>
    rcases ih with ⟨-, h, hb⟩ | ⟨-, ih⟩
    · cases h; exact .inl ⟨rfl, _, hb⟩
    · exact .inr ⟨ne (.call ih), .call ih⟩
  | @ahead k i j t m U d _ h2 h3 ih =>
    rcases ih with ⟨h, -, -⟩ | ⟨-, ih⟩
    · cases h
    · have ht := ne (.call ih)
      have e : old ⟨k, i, some j⟩ = ⟨(old ⟨k, i, some j⟩).task, (old ⟨k, i, some j⟩).item, some j⟩ := by
        have := old_sub (n := n) (x := x) (pre := pre) (mid := mid) ⟨k, i, some j⟩
        generalize old ⟨k, i, some j⟩ = l at this
        cases l; cases this; rfl
      rw [e] at ih
      have : Spec.Due c tasks g main (.task d) := by
        by_cases e : t.task = n
        · rw [e, new_n hT hx] at h2; cases h2
          exact .ahead ih (show tasks.get? t.task = some T by rw [e]; exact hT) h3
        · rw [new_other e ht] at h2
          exact .ahead ih h2 h3
      exact .inr ⟨ne this, this⟩

theorem loc_eq (l : Loc) : old l = ⟨(old l).task, (old l).item, l.sub⟩ := by
  rw [← old_sub (n := n) (x := x) (pre := pre) (mid := mid) l]

theorem old_with_sub (k : Str) (i : Nat) (u v : Option Nat) :
    old ⟨k, i, u⟩ = ⟨(old ⟨k, i, v⟩).task, (old ⟨k, i, v⟩).item, u⟩ := by
  unfold oldPlace
  dsimp only
  split
  · rfl
  · split <;> rfl

include hT hrun hx hnx in
theorem due_new {th : Thing} (h : Spec.Due c tasks g main th) :
    match th with
    | .task k => Spec.Due c (new) g main (.task k)
    | .item l it m => ∃ l', old l' = l ∧ Spec.Due c (new) g main (.item l' it m) := by
  have ne : ∀ {k}, Spec.Due c tasks g main (.task k) → k ≠ x := fun h e => hnx (e ▸ due_needs h)
  have xn := x_ne hT hx
  induction h with
  | main => exact .main
  | @dep k U d h1 h2 h3 h4 ih =>
    by_cases e : k = n
    · subst e
      rw [hT] at h2; cases h2
      exact .dep ih (new_n hT hx) h3 h4
    · exact .dep ih ((new_other e (ne h1)).trans h2) h3 h4
  | @item k U m i it h1 h2 h3 h4 h5 h6 h7 ih =>
    by_cases e : k = n
    · subst e
      rw [hT] at h2; cases h2
      by_cases hi : i < pre.length
      · refine ⟨⟨k, i, none⟩, ?_, .item ih (new_n hT hx) h3 h4 ?_ h6 h7⟩
        · unfold oldPlace
          rw [if_neg (ne h1), if_neg (fun h => by have := h.2; dsimp only at this; omega)]
        · show (pre ++ .task { task := x } :: post)[i]? = some it
          rw [hrun, List.append_assoc, List.getElem?_append_left hi] at h5
          rw [List.getElem?_append_left hi]; exact h5
      · by_cases hj : i < pre.length + mid.length
        · have hcall : Spec.Due c (moveItems tasks k T x pre mid post) g main (.item ⟨k, pre.length, none⟩ (.task { task := x }) m) := by
            refine .item (T := { T with run := pre ++ .task { task := x } :: post }) ih (new_n hT hx) h3 h4 ?_ ?_ ?_
            · simp
            · simp [RunItem.onPlatform, RunItem.platforms, matchesPlatform]
            · simp [CondTrue, RunItem.cond, evaluate]
          have hxd : Spec.Due c (moveItems tasks k T x pre mid post) g main (.task x) := .call hcall
          refine ⟨⟨x, i - pre.length, none⟩, ?_, .item (T := ownTask T x mid) hxd new_x (by simp [CondTrue, ownTask, evaluate]) h4 ?_ h6 h7⟩
          · unfold oldPlace
            rw [if_pos rfl]
            dsimp only
            congr 1
            omega
          · show mid[i - pre.length]? = some it
            rw [hrun, List.append_assoc, List.getElem?_append_right (by omega), List.getElem?_append_left (by omega)] at h5
            exact h5
        · refine ⟨⟨k, i + 1 - mid.length, none⟩, ?_, .item ih (new_n hT hx) h3 h4 ?_ h6 h7⟩
          · unfold oldPlace
            rw [if_neg (ne h1), if_pos ⟨rfl, by dsimp only; omega⟩]
            dsimp only
            congr 1
            omega
          · show (pre ++ .task { task := x } :: post)[i + 1 - mid.length]? = some it
            rw [hrun, List.getElem?_append_right (by simp; omega)] at h5
            rw [List.getElem?_append_right (by omega),
              show i + 1 - mid.length - pre.length = (i - (pre ++ mid).length) + 1 by simp; omega, List.getElem?_cons_succ]
            exact h5
    · refine ⟨⟨k, i, none⟩, ?_, .item ih ((new_other e (ne h1)).trans h2) h3 h4 h5 h6 h7⟩
      unfold oldPlace
      rw [if_neg (ne h1), if_neg (fun h => e h.1)]
  | @sub k i items labels mode lim color bs bo pl w ln m j it _ h2 ih =>
    obtain ⟨⟨k', i', u⟩, e, hd⟩ := ih
    have hu : u = none := by
      have := congrArg Loc.sub e
      rw [old_sub] at this
      exact this
    subst hu
    refine ⟨⟨k', i', some j⟩, ?_, .sub hd h2⟩
    rw [old_with_sub k' i' (some j) none, e]
  | call _ ih =>
    obtain ⟨l', -, hd⟩ := ih
    exact .call hd
  | @ahead k i j t m U d h1 h2 h3 ih =>
    obtain ⟨⟨k', i', u⟩, e, hd⟩ := ih
    have hu : u = some j := by
      have := congrArg Loc.sub e
      rw [old_sub] at this
      exact this
    subst hu
    by_cases e : t.task = n
    · rw [e, hT] at h2; cases h2
      exact .ahead hd (show (new).get? t.task = some { T with run := pre ++ .task { task := x } :: post } by rw [e]; exact new_n hT hx) h3
    · exact .ahead hd ((new_other e (ne (.call h1))).trans h2) h3

include hT hrun hx hnx in
/-- what is due is the same, apart from the places -/
theorem entry_iff {e : PlanEntry} :
    (∃ e', oldEntry n x pre.length mid.length e' = e ∧ DueEntry c (new) g main e') ↔ DueEntry c tasks g main e := by
  constructor
  · rintro ⟨e', rfl, h⟩
    cases h with
    | cmd h1 h2 =>
      rcases due_old hT hrun hx hnx h1 with ⟨-, h, -⟩ | ⟨-, h⟩
      · cases h
      · exact .cmd h h2
    | log h1 h2 =>
      rcases due_old hT hrun hx hnx h1 with ⟨-, h, -⟩ | ⟨-, h⟩
      · cases h
      · exact .log h h2
  · intro h
    cases h with
    | cmd h1 h2 =>
      obtain ⟨l', rfl, h⟩ := due_new hT hrun hx hnx h1
      exact ⟨_, rfl, .cmd h h2⟩
    | log h1 h2 =>
      obtain ⟨l', rfl, h⟩ := due_new hT hrun hx hnx h1
      exact ⟨.log l' _ _, rfl, .log h h2⟩

/-- where an item that is due can stand -/
theorem due_place {tasks : TaskMap} {l : Loc} {it : RunItem} {m : GoMap Str} (h : Spec.Due c tasks g main (.item l it m)) :
    ∃ U, tasks.get? l.task = some U ∧ l.item < U.run.length := by
  generalize hth : Thing.item l it m = th at h
  induction h generalizing l it m with
  | item _ h2 _ _ h5 => cases hth; exact ⟨_, h2, (List.getElem?_eq_some_iff.mp h5).1⟩
  | @sub k i _ _ _ _ _ _ _ _ _ _ _ _ _ _ _ ih => cases hth; exact ih (l := ⟨k, i, none⟩) rfl
  | _ => cases hth

include hT hx in
/-- different items were at different places -/
theorem old_inj {l l' : Loc} {it it' : RunItem} {m m' : GoMap Str} (h : Spec.Due c (new) g main (.item l it m))
    (h' : Spec.Due c (new) g main (.item l' it' m')) (hl : (l.task, l.item) ≠ (n, pre.length)) (hl' : (l'.task, l'.item) ≠ (n, pre.length))
    (e : old l = old l') : l = l' := by
  obtain ⟨U, h1, h2⟩ := due_place h
  obtain ⟨U', h1', h2'⟩ := due_place h'
  have xn := x_ne hT hx
  obtain ⟨k, i, u⟩ := l
  obtain ⟨k', i', u'⟩ := l'
  dsimp only at h1 h2 h1' h2'
  have hu : u = u' := by
    have := congrArg Loc.sub e
    rwa [old_sub, old_sub] at this
  subst hu
  have bound : ∀ {k : Str} {i : Nat} {U : Task}, k = x → (new).get? k = some U → i < U.run.length → i < mid.length := by
    rintro _ i U rfl h1 h2
    rw [new_x] at h1; cases h1
    exact h2
  have b := fun e => bound e h1 h2
  have b' := fun e => bound e h1' h2'
  have hl : k = n → i ≠ pre.length := fun e e' => hl (by rw [e, e'])
  have hl' : k' = n → i' ≠ pre.length := fun e e' => hl' (by rw [e, e'])
  unfold oldPlace at e
  dsimp only at e
  by_cases hk : k = x
  · have b := b hk
    subst hk
    by_cases hk' : k' = k
    · subst hk'
      simp at e
      rw [e]
    · rw [if_pos rfl, if_neg hk'] at e
      split at e
      · rename_i hc
        have := congrArg Loc.item e
        dsimp only at this
        have := hc.2
        omega
      · rename_i hc
        have e1 := congrArg Loc.task e
        have e2 := congrArg Loc.item e
        dsimp only at e1 e2
        exact absurd ⟨e1.symm, by have := hl' e1.symm; omega⟩ hc
  · rw [if_neg hk] at e
    by_cases hk' : k' = x
    · have b' := b' hk'
      subst hk'
      rw [if_pos rfl] at e
      split at e
      · rename_i hc
        have := congrArg Loc.item e
        dsimp only at this
        have := hc.2
        omega
      · rename_i hc
        have e1 := congrArg Loc.task e
        have e2 := congrArg Loc.item e
        dsimp only at e1 e2
        exact absurd ⟨e1, by have := hl e1; omega⟩ hc
    · rw [if_neg hk'] at e
      split at e
      · rename_i hc
        split at e
        · rename_i hc'
          have := congrArg Loc.item e
          dsimp only at this
          have h3 := hc.2
          have h4 := hc'.2
          rw [hc.1, hc'.1, show i = i' by omega]
        · rename_i hc'
          have e1 := congrArg Loc.task e
          have e2 := congrArg Loc.item e
          dsimp only at e1 e2
          have h3 := hc.2
          exact absurd ⟨e1.symm, by have := hl' e1.symm; omega⟩ hc'
      · rename_i hc
        split at e
        · rename_i hc'
          have e1 := congrArg Loc.task e
          have e2 := congrArg Loc.item e
          dsimp only at e1 e2
          have h3 := hc'.2
          exact absurd ⟨e1, by have := hl e1; omega⟩ hc
        · exact e

end
end Split
end Bab
