import Verif.Model.Picker
import Verif.Props.Listing
/-
C55: the task picker.
-/

namespace Bab.Picker
open Bab

/-- the model after a history of messages -/
def run (find : Str → List Str → List Hit) (tasks : TaskMap) (msgs : List Msg) : Model :=
  msgs.foldl (Model.update find) (new find tasks)

/-- the invariant of the picker -/
structure Inv (find : Str → List Str → List Hit) (list : List Task) (m : Model) : Prop where
  tasks : m.tasks = list
  hits : m.hits = search find m.input m.tasks
  off : 0 ≤ m.offset
  low : m.offset ≤ m.cursor
  high : m.cursor < m.offset + m.visibleLines
  range : m.cursor < max 1 (m.hits.length : Int)
  full : m.offset ≤ max 0 ((m.hits.length : Int) - m.visibleLines)
  sel : ∀ t, m.selected = some t → t ∈ list

theorem visible_pos (m : Model) : 1 ≤ m.visibleLines := by unfold Model.visibleLines; omega

theorem inv_updateMatches {find list} {m : Model} (ht : m.tasks = list) (hs : ∀ t, m.selected = some t → t ∈ list) :
    Inv find list (m.updateMatches find) := by
  have hv := visible_pos (m.updateMatches find)
  exact ⟨ht, rfl, Int.le_refl _, Int.le_refl _, by show (0 : Int) < 0 + _; omega, by show (0 : Int) < _; omega,
    by show (0 : Int) ≤ _; omega, hs⟩

theorem inv_adjust {find list} {m : Model} (ht : m.tasks = list) (hh : m.hits = search find m.input m.tasks)
    (hs : ∀ t, m.selected = some t → t ∈ list) (hc : 0 ≤ m.cursor) (ho : 0 ≤ m.offset)
    (hr : m.cursor < max 1 (m.hits.length : Int)) : Inv find list m.adjustScroll := by
  have hv := visible_pos m
  have e : m.adjustScroll.offset = min (if m.cursor < m.offset then m.cursor
    else if m.cursor ≥ m.offset + m.visibleLines then m.cursor - m.visibleLines + 1 else m.offset)
      (max 0 ((m.hits.length : Int) - m.visibleLines)) := rfl
  have ev : m.adjustScroll.visibleLines = m.visibleLines := rfl
  have ec : m.adjustScroll.cursor = m.cursor := rfl
  have eh : m.adjustScroll.hits = m.hits := rfl
  refine ⟨ht, hh, ?_, ?_, ?_, ?_, ?_, hs⟩
  · rw [e]; split
    · omega
    · split <;> omega
  · rw [e, ec]; split
    · omega
    · split <;> omega
  · rw [e, ec, ev]; split
    · omega
    · split <;> omega
  · rw [ec, eh]; exact hr
  · rw [e, ev, eh]; omega

theorem inv_move {find list} {m : Model} (h : Inv find list m) (delta : Int) : Inv find list (m.moveCursor delta) := by
  have := h.off; have := h.low; have := h.range
  exact inv_adjust (m := { m with cursor := max 0 (min (m.cursor + delta) ((m.hits.length : Int) - 1)) })
    h.tasks h.hits h.sel (by show (0 : Int) ≤ max 0 _; omega) h.off
    (by show max 0 (min (m.cursor + delta) ((m.hits.length : Int) - 1)) < max 1 (m.hits.length : Int); omega)

theorem search_mem {find : Str → List Str → List Hit} {q : Str} {list : List Task} {x : Match} (h : x ∈ search find q list) :
    x.task ∈ list := by
  have hz : ∀ {t : Task} {i : Nat}, (t, i) ∈ list.zipIdx → t ∈ list := fun hi => (List.mem_zipIdx hi).2.2 ▸ List.getElem_mem _
  unfold search at h
  split at h
  · obtain ⟨t, ht, rfl⟩ := List.mem_map.mp h; exact ht
  · dsimp only at h
    rw [(sortBy_perm matchLe _).mem_iff, List.mem_append, List.mem_filterMap, List.mem_filterMap] at h
    rcases h with ⟨⟨t, i⟩, hi, hx⟩ | ⟨⟨t, i⟩, hi, hx⟩
    · unfold aliasMatch at hx
      dsimp only at hx
      split at hx
      · obtain rfl := Option.some.inj hx; exact hz hi
      · cases hx
    · unfold nameMatch at hx
      split at hx
      · cases hx
      · obtain ⟨_, _, rfl⟩ := Option.map_eq_some_iff.mp hx; exact hz hi

theorem inv_update {find list} {m : Model} (h : Inv find list m) (msg : Msg) : Inv find list (m.update find msg) := by
  cases msg with
  | quit => exact ⟨h.tasks, h.hits, h.off, h.low, h.high, h.range, h.full, h.sel⟩
  | enter =>
    refine ⟨h.tasks, h.hits, h.off, h.low, h.high, h.range, h.full, ?_⟩
    intro t ht
    dsimp only [Model.update] at ht
    split at ht
    · obtain ⟨x, hx, rfl⟩ := Option.map_eq_some_iff.mp ht
      have hm := List.mem_of_getElem? hx
      rw [h.hits] at hm
      rw [← h.tasks]
      exact search_mem hm
    · exact h.sel t ht
  | up => exact inv_move h _
  | down => exact inv_move h _
  | clear => exact inv_updateMatches h.tasks h.sel
  | size hh =>
    have := h.off; have := h.low
    exact inv_adjust (m := { m with height := hh }) h.tasks h.hits h.sel (by show (0 : Int) ≤ m.cursor; omega) h.off h.range
  | other v =>
    dsimp only [Model.update]
    split
    · exact inv_updateMatches (m := { m with input := v }) h.tasks h.sel
    · next hv =>
      have e : v = m.input := by simpa using hv
      subst e
      exact ⟨h.tasks, h.hits, h.off, h.low, h.high, h.range, h.full, h.sel⟩

theorem inv_run (find : Str → List Str → List Hit) (tasks : TaskMap) (msgs : List Msg) :
    Inv find (sortBy (fun a b => strLe a.name b.name) (tasks.map (·.2))) (run find tasks msgs) := by
  have h0 : Inv find (sortBy (fun a b => strLe a.name b.name) (tasks.map (·.2))) (new find tasks) :=
    inv_updateMatches rfl (fun _ h => by cases h)
  unfold run
  generalize new find tasks = m at h0
  induction msgs generalizing m with
  | nil => exact h0
  | cons x xs ih => exact ih _ (inv_update h0 x)

/-- C55: after any history of keys, typing and resizing the cursor is on an entry of the current search, inside the visible
window; the window starts inside the list and shows no empty rows while entries are left above it. -/
theorem C55_cursor (find : Str → List Str → List Hit) (tasks : TaskMap) (msgs : List Msg) :
    let m := run find tasks msgs
    m.hits = search find m.input m.tasks ∧ 0 ≤ m.offset ∧ m.offset ≤ m.cursor ∧ m.cursor < m.offset + m.visibleLines ∧
    (m.hits ≠ [] → m.cursor < m.hits.length) ∧ (m.hits = [] → m.cursor = 0) ∧
    (0 < m.offset → m.offset + m.visibleLines ≤ m.hits.length) := by
  have h := inv_run find tasks msgs
  dsimp only
  refine ⟨h.hits, h.off, h.low, h.high, ?_, ?_, ?_⟩
  · intro hne
    have := h.range
    have hl : 0 < (run find tasks msgs).hits.length := List.length_pos_iff.mpr hne
    omega
  · intro he
    have h1 := h.range; have h2 := h.off; have h3 := h.low
    rw [he] at h1
    simp only [List.length_nil] at h1
    omega
  · intro hp
    have h1 := h.full
    omega

theorem filterMap_eq_map_of {α β : Type} (f : α → Option β) (g : α → β) : ∀ (l : List α), (∀ a ∈ l, f a = some (g a)) →
    l.filterMap f = l.map g
  | [], _ => rfl
  | a :: l, h => by
    rw [List.filterMap_cons_some (h a (by simp)), List.map_cons, filterMap_eq_map_of f g l (fun b hb => h b (by simp [hb]))]

theorem filter_range_eq (n c : Nat) (h : c < n) : (List.range n).filter (fun k => decide (k = c)) = [c] := by
  induction n with
  | zero => omega
  | succ n ih =>
    rw [List.range_succ, List.filter_append]
    by_cases e : c = n
    · subst e
      have : (List.range c).filter (fun k => decide (k = c)) = [] := by
        rw [List.filter_eq_nil_iff]
        intro k hk
        rw [List.mem_range] at hk
        simp; omega
      rw [this]; simp
    · rw [ih (by omega)]
      simp; omega

/-- C55: exactly one of the lines shown is marked, it is the entry at the cursor, and the window is filled as far as there
are entries. -/
theorem C55_marked (find : Str → List Str → List Hit) (tasks : TaskMap) (msgs : List Msg)
    (hne : (run find tasks msgs).hits ≠ []) :
    let m := run find tasks msgs
    ∃ x, m.hits[m.cursor.toNat]? = some x ∧ m.lines.filter (·.2) = [(x.task, true)] ∧
      (m.lines.length : Int) = min m.visibleLines m.hits.length := by
  obtain ⟨_, h1, h2, h3, h4, _, h6⟩ := C55_cursor find tasks msgs
  have h4 := h4 hne
  dsimp only
  generalize run find tasks msgs = m at *
  have hv := visible_pos m
  have hlen : m.cursor.toNat < m.hits.length := by omega
  refine ⟨m.hits[m.cursor.toNat], List.getElem?_eq_getElem hlen, ?_⟩
  have hget : ∀ k ∈ List.range (min (m.offset + m.visibleLines) m.hits.length - m.offset).toNat,
      (m.hits[(m.offset + (k : Int)).toNat]?).map (fun h => (h.task, decide (m.offset + (k : Int) = m.cursor))) =
      some (((m.hits[(m.offset + (k : Int)).toNat]?).map (·.task)).getD (m.hits[m.cursor.toNat]).task,
        decide (k = (m.cursor - m.offset).toNat)) := by
    intro k hk
    rw [List.mem_range] at hk
    have hk' : (m.offset + (k : Int)).toNat < m.hits.length := by omega
    rw [List.getElem?_eq_getElem hk']
    simp only [Option.map_some, Option.getD_some, Option.some.injEq, Prod.mk.injEq, true_and]
    rw [decide_eq_decide]
    omega
  have hlines := filterMap_eq_map_of _ _ _ hget
  have e : m.lines = (List.range (min (m.offset + m.visibleLines) m.hits.length - m.offset).toNat).map (fun (k : Nat) =>
      (((m.hits[(m.offset + (k : Int)).toNat]?).map (·.task)).getD (m.hits[m.cursor.toNat]).task,
        decide (k = (m.cursor - m.offset).toNat))) := hlines
  constructor
  · rw [e, List.filter_map]
    have hc : (m.cursor - m.offset).toNat < (min (m.offset + m.visibleLines) m.hits.length - m.offset).toNat := by omega
    have := filter_range_eq _ _ hc
    have e2 : ((fun x : Task × Bool => x.2) ∘ fun (k : Nat) =>
      (((m.hits[(m.offset + (k : Int)).toNat]?).map (·.task)).getD (m.hits[m.cursor.toNat]).task,
        decide (k = (m.cursor - m.offset).toNat))) = fun k => decide (k = (m.cursor - m.offset).toNat) := rfl
    rw [e2, this]
    have e3 : (m.offset + ((m.cursor - m.offset).toNat : Int)).toNat = m.cursor.toNat := by omega
    simp only [List.map_cons, List.map_nil, decide_true]
    rw [e3, List.getElem?_eq_getElem hlen]
    rfl
  · rw [e, List.length_map, List.length_range]
    by_cases ho : 0 < m.offset
    · have := h6 ho; omega
    · omega

/-- C55: pressing enter chooses the marked entry; without entries nothing is chosen. -/
theorem C55_enter (find : Str → List Str → List Hit) (tasks : TaskMap) (msgs : List Msg) :
    let m := run find tasks msgs
    (run find tasks (msgs ++ [.enter])).selected =
      match m.hits[m.cursor.toNat]? with
      | some x => some x.task
      | none => m.selected := by
  obtain ⟨_, h1, h2, h3, h4, h5, h6⟩ := C55_cursor find tasks msgs
  dsimp only
  have e : run find tasks (msgs ++ [.enter]) = (run find tasks msgs).update find .enter := by
    unfold run; rw [List.foldl_append]; rfl
  rw [e]
  generalize run find tasks msgs = m at *
  dsimp only [Model.update]
  by_cases hc : m.cursor < m.hits.length
  · rw [if_pos hc]
    have hl : m.cursor.toNat < m.hits.length := by omega
    rw [List.getElem?_eq_getElem hl]; rfl
  · rw [if_neg hc]
    have hl : m.hits.length ≤ m.cursor.toNat := by omega
    rw [List.getElem?_eq_none hl]

/-- C55: what is chosen in the end is a task of the Babfile. -/
theorem C55_selected_exists (find : Str → List Str → List Hit) (tasks : TaskMap) (msgs : List Msg) {t : Task}
    (h : (run find tasks msgs).selected = some t) : ∃ name, (name, t) ∈ tasks := by
  have := (inv_run find tasks msgs).sel t h
  rw [(sortBy_perm _ _).mem_iff, List.mem_map] at this
  obtain ⟨⟨n, t'⟩, h1, rfl⟩ := this
  exact ⟨n, h1⟩

/-! ### What a search shows -/

namespace Spec

/-- the fuzzy matcher finds the query in the `i`-th text -/
def Finds (find : Str → List Str → List Hit) (query : Str) (texts : List Str) (i : Nat) : Prop :=
  ∃ h ∈ find query texts, h.index = i

/-- some alias of the task is the query, or the matcher's best alias is not empty -/
def ByAlias (find : Str → List Str → List Hit) (query : Str) (t : Task) : Prop :=
  let aliases := (if t.alias = [] then [] else [t.alias]) ++ t.aliases
  query ∈ aliases ∨ ∃ best rest, find query aliases = best :: rest ∧ aliases ≠ [] ∧ ∃ a, aliases[best.index]? = some a ∧ a ≠ []

end Spec

open Spec

theorem byAlias_iff (find : Str → List Str → List Hit) (query : Str) (hq : query ≠ []) (names : List Hit) (i : Nat) (t : Task) :
    (aliasMatch find query names i t).isSome = true ↔ ByAlias find query t := by
  have hs : (aliasMatch find query names i t).isSome = true ↔ (searchAliases find query t).1 ≠ [] := by
    unfold aliasMatch
    dsimp only
    by_cases h : (searchAliases find query t).1 ≠ []
    · rw [if_pos h]; simp [h]
    · rw [if_neg h]; simp at h; simp [h]
  rw [hs]
  unfold searchAliases ByAlias
  rw [← shownAliases_eq]
  dsimp only
  by_cases h1 : shownAliases t = []
  · rw [if_pos h1, h1]
    simp
  · rw [if_neg h1]
    by_cases h2 : query ∈ shownAliases t
    · rw [if_pos h2]
      exact ⟨fun _ => .inl h2, fun _ => hq⟩
    · rw [if_neg h2]
      cases hf : find query (shownAliases t) with
      | nil => simp [h2]
      | cons best rest =>
        dsimp only
        constructor
        · intro h
          refine .inr ⟨best, rest, rfl, h1, ?_⟩
          rw [List.getD_eq_getElem?_getD] at h
          cases hg : (shownAliases t)[best.index]? with
          | none => rw [hg] at h; exact absurd rfl h
          | some a => rw [hg] at h; exact ⟨a, rfl, h⟩
        · rintro (h | ⟨b, r, hbr, _, a, ha, hne⟩)
          · exact absurd h h2
          · obtain ⟨rfl, rfl⟩ := List.cons.inj hbr
            rw [List.getD_eq_getElem?_getD, ha]; exact hne

theorem lastHit_some (hits : List Hit) (i : Nat) : (∃ h, lastHit hits i = some h) ↔ ∃ h ∈ hits, h.index = i := by
  unfold lastHit
  constructor
  · rintro ⟨h, hh⟩
    have := List.mem_of_getLast? hh
    rw [List.mem_filter, decide_eq_true_eq] at this
    exact ⟨h, this⟩
  · rintro ⟨h, h1, h2⟩
    have hm : h ∈ hits.filter (fun h => h.index = i) := List.mem_filter.mpr ⟨h1, decide_eq_true h2⟩
    cases hg : (hits.filter (fun h => h.index = i)).getLast? with
    | none => rw [List.getLast?_eq_none_iff.mp hg] at hm; cases hm
    | some x => exact ⟨x, rfl⟩

theorem aliasMatch_task {find : Str → List Str → List Hit} {q : Str} {names : List Hit} {i : Nat} {t : Task} {x : Match}
    (h : aliasMatch find q names i t = some x) : x.task = t := by
  unfold aliasMatch at h
  dsimp only at h
  split at h
  · obtain rfl := Option.some.inj h; rfl
  · cases h

theorem nameMatch_task {find : Str → List Str → List Hit} {q : Str} {names : List Hit} {i : Nat} {t : Task} {x : Match}
    (h : nameMatch find q names i t = some x) : x.task = t ∧ aliasMatch find q names i t = none := by
  unfold nameMatch at h
  split at h
  · cases h
  · next hn =>
    obtain ⟨_, _, rfl⟩ := Option.map_eq_some_iff.mp h
    exact ⟨rfl, by simpa using hn⟩

theorem filterMap_sublist {α β γ : Type} (f : α → Option β) (g : β → γ) (k : α → γ) (h : ∀ a b, f a = some b → g b = k a) :
    ∀ l : List α, ((l.filterMap f).map g).Sublist (l.map k)
  | [] => List.Sublist.refl _
  | a :: l => by
    have ih := filterMap_sublist f g k h l
    cases hf : f a with
    | none => rw [List.filterMap_cons_none hf, List.map_cons]; exact ih.cons _
    | some b => rw [List.filterMap_cons_some hf, List.map_cons, List.map_cons, h a b hf]; exact ih.cons_cons _

theorem zipIdx_map_name (tasks : List Task) : tasks.zipIdx.map (fun q => q.1.name) = tasks.map (·.name) := by
  have := List.zipIdx_map_fst 0 tasks
  refine Eq.trans ?_ (congrArg (List.map (fun t : Task => t.name)) this)
  rw [List.map_map]; rfl

theorem index_unique {tasks : List Task} (hnd : (tasks.map (·.name)).Nodup) {i j : Nat} {t t' : Task}
    (hi : tasks[i]? = some t) (hj : tasks[j]? = some t') (h : t.name = t'.name) : i = j := by
  have h1 : (tasks.map (·.name))[i]? = some t.name := by rw [List.getElem?_map, hi]; rfl
  have h2 : (tasks.map (·.name))[j]? = some t.name := by rw [List.getElem?_map, hj, h]; rfl
  have hli : i < (tasks.map (·.name)).length := (List.getElem?_eq_some_iff.mp h1).1
  exact (List.nodup_iff_getElem?_ne_getElem? .. |> fun H => by
    by_contra hne
    rcases Nat.lt_or_gt_of_ne hne with hlt | hlt
    · exact (H.mp hnd) i j hlt (List.getElem?_eq_some_iff.mp h2).1 (by rw [h1, h2])
    · exact (H.mp hnd) j i hlt hli (by rw [h1, h2]))

theorem mem_zipIdx_get {tasks : List Task} {t : Task} {i : Nat} (h : (t, i) ∈ tasks.zipIdx) : tasks[i]? = some t :=
  List.mk_mem_zipIdx_iff_getElem?.mp h

/-- C55: an entry is shown exactly for the tasks whose name or one of whose aliases matches what is typed (all tasks, if
nothing is typed). -/
theorem C55_search (find : Str → List Str → List Hit) (query : Str) (tasks : List Task) (hnd : (tasks.map (·.name)).Nodup)
    {i : Nat} {t : Task} (hi : tasks[i]? = some t) :
    (∃ x ∈ search find query tasks, x.task = t) ↔
      query = [] ∨ ByAlias find query t ∨ Finds find query (tasks.map (·.name)) i := by
  have hm : t ∈ tasks := List.mem_of_getElem? hi
  unfold search
  by_cases hq : query = []
  · rw [if_pos hq]
    exact ⟨fun _ => .inl hq, fun _ => ⟨{ task := t }, List.mem_map.mpr ⟨t, hm, rfl⟩, rfl⟩⟩
  · rw [if_neg hq]
    dsimp only
    have hz : (t, i) ∈ tasks.zipIdx := List.mk_mem_zipIdx_iff_getElem?.mpr hi
    simp only [(sortBy_perm matchLe _).mem_iff, List.mem_append, List.mem_filterMap]
    constructor
    · rintro ⟨x, ⟨⟨t', j⟩, hj, hx⟩ | ⟨⟨t', j⟩, hj, hx⟩, rfl⟩
      · dsimp only at hx
        obtain rfl := aliasMatch_task hx
        exact .inr (.inl ((byAlias_iff find query hq _ j _).mp (by rw [hx]; rfl)))
      · dsimp only at hx
        obtain ⟨rfl, _⟩ := nameMatch_task hx
        obtain rfl := index_unique hnd hi (mem_zipIdx_get hj) rfl
        refine .inr (.inr ((lastHit_some _ _).mp ?_))
        unfold nameMatch at hx
        split at hx
        · cases hx
        · obtain ⟨h, hh, _⟩ := Option.map_eq_some_iff.mp hx
          exact ⟨h, hh⟩
    · rintro (h | h | h)
      · exact absurd h hq
      · have := (byAlias_iff find query hq (find query (tasks.map (·.name))) i t).mpr h
        obtain ⟨x, hx⟩ := Option.isSome_iff_exists.mp this
        exact ⟨x, .inl ⟨(t, i), hz, hx⟩, aliasMatch_task hx⟩
      · cases ha : aliasMatch find query (find query (tasks.map (·.name))) i t with
        | some x => exact ⟨x, .inl ⟨(t, i), hz, ha⟩, aliasMatch_task ha⟩
        | none =>
          obtain ⟨hh, hl⟩ := (lastHit_some _ _).mpr h
          have hx : nameMatch find query (find query (tasks.map (·.name))) i t =
              some { task := t, nameIndexes := hh.positions, score := hh.score } := by
            unfold nameMatch
            rw [ha, hl]; rfl
          exact ⟨_, .inr ⟨(t, i), hz, hx⟩, rfl⟩

/-- C55: no task is shown twice. -/
theorem C55_once (find : Str → List Str → List Hit) (query : Str) (tasks : List Task) (hnd : (tasks.map (·.name)).Nodup) :
    ((search find query tasks).map (fun x => x.task.name)).Nodup := by
  unfold search
  by_cases hq : query = []
  · rw [if_pos hq, List.map_map]; exact hnd
  · rw [if_neg hq]
    dsimp only
    rw [((sortBy_perm matchLe _).map _).nodup_iff, List.map_append, List.nodup_append]
    rw [← zipIdx_map_name] at hnd
    refine ⟨hnd.sublist (filterMap_sublist _ _ _ (fun a b h => by rw [aliasMatch_task h]) _),
      hnd.sublist (filterMap_sublist _ _ _ (fun a b h => by rw [(nameMatch_task h).1]) _), ?_⟩
    rintro n h1 n' h2 rfl
    obtain ⟨x, hx, e1⟩ := List.mem_map.mp h1
    obtain ⟨y, hy, e2⟩ := List.mem_map.mp h2
    obtain ⟨⟨t, i⟩, hi, hx⟩ := List.mem_filterMap.mp hx
    obtain ⟨⟨t', j⟩, hj, hy⟩ := List.mem_filterMap.mp hy
    dsimp only at hx hy
    have e3 := aliasMatch_task hx
    obtain ⟨e4, e5⟩ := nameMatch_task hy
    rw [zipIdx_map_name] at hnd
    have hi' := mem_zipIdx_get hi
    have hj' := mem_zipIdx_get hj
    obtain rfl := index_unique hnd hi' hj' (by rw [← e3, ← e4, e1, e2])
    rw [hi'] at hj'
    obtain rfl := Option.some.inj hj'
    rw [hx] at e5; cases e5

theorem matchLe_total (a b : Match) : (matchLe a b || matchLe b a) = true := by
  unfold matchLe
  by_cases h : a.score = b.score
  · rw [if_neg (by simpa using h), if_neg (by simpa using h.symm)]; exact strLe_total _ _
  · rw [if_pos h, if_pos (fun e => h e.symm)]
    simp only [Bool.or_eq_true, decide_eq_true_eq]; omega

theorem matchLe_trans (a b c : Match) (h1 : matchLe a b = true) (h2 : matchLe b c = true) : matchLe a c = true := by
  unfold matchLe at *
  by_cases e1 : a.score = b.score
  · rw [if_neg (by simpa using e1)] at h1
    by_cases e2 : b.score = c.score
    · rw [if_neg (by simpa using e2)] at h2
      rw [if_neg (by simpa using e1.trans e2)]
      exact strLe_trans _ _ _ h1 h2
    · rw [if_pos e2] at h2
      rw [if_pos (by rw [e1]; exact e2), e1]; exact h2
  · rw [if_pos e1] at h1
    have := of_decide_eq_true h1
    by_cases e2 : b.score = c.score
    · rw [← e2, if_pos e1]; exact h1
    · rw [if_pos e2] at h2
      have := of_decide_eq_true h2
      rw [if_pos (by omega)]
      exact decide_eq_true (by omega)

/-- C55: the entries are ordered by score, equal scores by name, so the unstable sorting of Go has only one possible
result. -/
theorem C55_ranked (find : Str → List Str → List Hit) (query : Str) (tasks : List Task) (hnd : (tasks.map (·.name)).Nodup)
    (hq : query ≠ []) :
    (search find query tasks).Pairwise
      (fun a b => a.score > b.score ∨ a.score = b.score ∧ strLe a.task.name b.task.name = true) ∧
    ∀ l : List Match, l.Perm (search find query tasks) → l.Pairwise (fun a b => matchLe a b = true) →
      l = search find query tasks := by
  have hsort : (search find query tasks).Pairwise (fun a b => matchLe a b = true) := by
    unfold search
    rw [if_neg hq]
    exact sortBy_sorted matchLe_trans matchLe_total _
  constructor
  · refine hsort.imp ?_
    intro a b h
    unfold matchLe at h
    split at h
    · exact .inl (of_decide_eq_true h)
    · next e => exact .inr ⟨by simpa using e, h⟩
  · intro l hp hl
    refine hp.eq_of_pairwise ?_ hl hsort
    intro a b ha hb h1 h2
    have ha := hp.mem_iff.mp ha
    have hname : a.task.name = b.task.name := by
      unfold matchLe at h1 h2
      by_cases e : a.score = b.score
      · rw [if_neg (by simpa using e)] at h1
        rw [if_neg (by simpa using e.symm)] at h2
        exact strLe_antisymm _ _ h1 h2
      · rw [if_pos e] at h1
        rw [if_pos (fun h => e h.symm)] at h2
        have := of_decide_eq_true h1
        have := of_decide_eq_true h2
        omega
    exact List.inj_on_of_nodup_map (C55_once find query tasks hnd) ha hb hname

/-- C55: a task one of whose aliases is exactly what is typed comes before every task without such an alias, as long as
the matcher's scores for names stay below 1000 and its alias matches have less than 500 positions. -/
theorem C55_exact_alias_first (find : Str → List Str → List Hit) (query : Str) (tasks : List Task)
    (hnd : (tasks.map (·.name)).Nodup) (hq : query ≠ []) (hs : ∀ texts, ∀ h ∈ find query texts, h.score < 1000 ∧ h.positions.length < 500)
    (pre post : List Match) (x : Match) (hx : search find query tasks = pre ++ x :: post)
    (hal : query ∈ (if x.task.alias = [] then [] else [x.task.alias]) ++ x.task.aliases) :
    ∀ y ∈ pre, query ∈ (if y.task.alias = [] then [] else [y.task.alias]) ++ y.task.aliases := by
  have hscore : ∀ y ∈ search find query tasks,
      (query ∈ shownAliases y.task → y.score = 1000) ∧ (query ∉ shownAliases y.task → y.score < 1000) := by
    intro y hy
    unfold search at hy
    rw [if_neg hq] at hy
    dsimp only at hy
    rw [(sortBy_perm matchLe _).mem_iff, List.mem_append, List.mem_filterMap, List.mem_filterMap] at hy
    rcases hy with ⟨⟨t, i⟩, _, hy⟩ | ⟨⟨t, i⟩, _, hy⟩
    · dsimp only at hy
      have e := aliasMatch_task hy
      unfold aliasMatch at hy
      dsimp only at hy
      split at hy
      · obtain rfl := Option.some.inj hy
        dsimp only
        unfold searchAliases
        dsimp only
        by_cases h1 : shownAliases t = []
        · rw [if_pos h1, h1]
          simp
        · rw [if_neg h1]
          by_cases h2 : query ∈ shownAliases t
          · rw [if_pos h2]; simp [h2]
          · rw [if_neg h2]
            refine ⟨fun h => absurd h h2, fun _ => ?_⟩
            cases hf : find query (shownAliases t) with
            | nil => simp
            | cons best rest =>
              have := (hs (shownAliases t) best (by rw [hf]; simp)).2
              dsimp only
              simp only [Bool.false_eq_true, if_false]
              split <;> omega
      · cases hy
    · dsimp only at hy
      obtain ⟨e, hn⟩ := nameMatch_task hy
      unfold nameMatch at hy
      split at hy
      · cases hy
      · obtain ⟨h, hh, rfl⟩ := Option.map_eq_some_iff.mp hy
        dsimp only
        refine ⟨fun hal => ?_, fun _ => ?_⟩
        · have := (byAlias_iff find query hq (find query (tasks.map (·.name))) i t).mpr (.inl (by rw [← shownAliases_eq]; exact hal))
          rw [hn] at this; cases this
        · unfold lastHit at hh
          exact (hs _ h (List.mem_of_mem_filter (List.mem_of_getLast? hh))).1
  have hsort := (C55_ranked find query tasks hnd hq).1
  intro y hy
  rw [← shownAliases_eq] at hal ⊢
  have hxs := (hscore x (by rw [hx]; simp)).1 hal
  by_contra hno
  have hys := (hscore y (by rw [hx]; simp [hy])).2 hno
  rw [hx, List.pairwise_append] at hsort
  have := hsort.2.2 y hy x (by simp)
  omega

/-- C55: the picker does not depend on the order in which Go iterates over the map of tasks. -/
theorem C55_order_independent (find : Str → List Str → List Hit) (tasks tasks' : TaskMap) (hwf : tasks.WF)
    (hn : ∀ k t, (k, t) ∈ tasks → t.name = k) (hp : tasks.Perm tasks') (msgs : List Msg) :
    run find tasks msgs = run find tasks' msgs := by
  have key : sortBy (fun a b : Task => strLe a.name b.name) (tasks.map (·.2)) =
      sortBy (fun a b : Task => strLe a.name b.name) (tasks'.map (·.2)) := by
    have hnd : ((tasks.map (·.2)).map (·.name)).Nodup := by
      have e : (tasks.map (·.2)).map (·.name) = tasks.keys := by
        rw [List.map_map]
        refine List.map_congr_left ?_
        rintro ⟨k, t⟩ hk
        exact hn k t hk
      rw [e]; exact hwf
    refine List.Perm.eq_of_pairwise ?_
      (sortBy_sorted (fun a b c => strLe_trans a.name b.name c.name) (fun a b => strLe_total a.name b.name) _)
      (sortBy_sorted (fun a b c => strLe_trans a.name b.name c.name) (fun a b => strLe_total a.name b.name) _)
      ((sortBy_perm _ _).trans ((hp.map _).trans (sortBy_perm _ _).symm))
    intro a b ha hb h1 h2
    have ha := (sortBy_perm _ _).mem_iff.mp ha
    have hb := (hp.map _).mem_iff.mpr ((sortBy_perm _ _).mem_iff.mp hb)
    exact List.inj_on_of_nodup_map hnd ha hb (strLe_antisymm _ _ h1 h2)
  unfold run new
  rw [key]

/-- three tasks, a matcher that finds prefixes: typing `te` leaves two, going down and pressing enter chooses the second -/
example :
    let find : Str → List Str → List Hit := fun q l => (l.zipIdx.filter (fun x => hasPrefix x.1 q)).map (fun x => ⟨x.2, [0], 5⟩)
    let T : Str → Task := fun n => { name := n }
    let tasks : TaskMap := [("test".toList, T "test".toList), ("build".toList, T "build".toList), ("tea".toList, T "tea".toList)]
    let m := run find tasks [.size 5, .other "te".toList, .down, .enter]
    m.lines.map (·.2) = [true] ∧ m.offset = 1 ∧ m.cursor = 1 ∧ (m.selected.map (·.name)) = some "test".toList := by
  decide +kernel

/-- `t` is the alias of `build` and the beginning of two names: the task with the alias comes first, and the three are found once -/
example :
    let find : Str → List Str → List Hit := fun q l => (l.zipIdx.filter (fun x => hasPrefix x.1 q)).map (fun x => ⟨x.2, [0], 5⟩)
    let tasks : List Task := [{ name := "test".toList }, { name := "build".toList, «alias» := "t".toList }, { name := "tea".toList }, { name := "lint".toList }]
    (tasks.map (·.name)).Nodup ∧ (search find "t".toList tasks).map (fun x => (x.task.name, x.score)) =
      [("build".toList, 1000), ("tea".toList, 5), ("test".toList, 5)] := by
  decide +kernel

end Bab.Picker
