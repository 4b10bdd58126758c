import Verif.Proof.Protocol
/-
Property C68: the views of parallel items show what is going on.
-/

namespace Bab.View
open Bab Spec

variable {text : Option (List (Str × Icon)) → Str} {labels : List Str} {n : Nat} {s : Sys}

/-- **C68** At any time the view holds exactly the items that are there, at every depth: each with its label, the items below it
in their order, the last lines of its output, whether it has started, and whether and how it has ended. -/
theorem C68_items (h : Sys.Reach text labels n s) :
    (∀ q y, Place s q y → ∃ it, s.view.items.get? (pathToKey q) = some it ∧ Fits n q y it) ∧
    (∀ key it, s.view.items.get? key = some it → ∃ q y, key = pathToKey q ∧ Place s q y ∧ Fits n q y it) := by
  obtain ⟨hi, -⟩ := inv_reach h
  obtain rfl := reach_max h
  have key : ∀ q y, Place s q y → ∃ it, s.view.items.get? (pathToKey q) = some it ∧ Fits s.view.maxLines q y it := by
    rintro q y ⟨i, r, x, rfl, hx, hy⟩
    exact (hi.held i x hx r).1 y hy
  refine ⟨key, fun k it hk => ?_⟩
  obtain ⟨i, q, x, y, rfl, hx, hy⟩ := hi.only k it hk
  obtain ⟨it', h1, h2⟩ := key (i :: q) y ⟨i, q, x, rfl, hx, hy⟩
  rw [hk] at h1
  cases h1
  exact ⟨_, y, rfl, ⟨i, q, x, rfl, hx, hy⟩, h2⟩

/-- **C68** Every message is handled: whatever a goroutine does next, the view follows. -/
theorem C68_handled (h : Sys.Reach text labels n s) {i : Nat} {k k' : Node} {m : Option Msg} (hk : s.kids[i]? = some k)
    (hm : Move text [i] k m k') :
    ∃ view', deliver s.view m = some view' ∧
      Sys.Reach text labels n { s with kids := s.kids.set i k', errs := record s.errs i k', view := view' } := by
  obtain ⟨hi, -⟩ := inv_reach h
  have h1 : i < s.kids.length := (List.getElem?_eq_some_iff.mp hk).1
  have hl : i < s.labels.length := by rw [← hi.kids]; exact h1
  have hx : (s.labels.zip s.kids)[i]? = some (s.labels[i], k) := by
    rw [List.getElem?_zip_eq_some]
    exact ⟨List.getElem?_eq_getElem hl, hk⟩
  obtain ⟨b', e, _⟩ := move_held hm (by simp) (hi.good k (List.mem_of_getElem? hk)) hi.tree (hi.held i _ hx)
  exact ⟨b', e, .step h (.item hk hm e)⟩

theorem icon_eq {p : List Nat} {x : Str × Node} {it : Item} (h : Fits n p x it) (stop : Bool) : statusIcon it stop = icon stop x.2 := by
  obtain ⟨l, nd⟩ := x
  unfold statusIcon
  cases nd with
  | ended r o =>
    obtain ⟨h1, h2⟩ := h.ended r o rfl
    rw [h1, h2]
    cases o <;> simp [icon]
  | waiting =>
    obtain ⟨h1, h2⟩ := h.going (fun r o => by simp)
    rw [h1, h2.mpr rfl]
    cases stop <;> simp [icon]
  | _ =>
    obtain ⟨h1, h2⟩ := h.going (fun r o => by simp)
    have h3 : it.started = true := by
      cases hs : it.started with
      | true => rfl
      | false => cases h2.mp hs
    rw [h1, h3]
    cases stop <;> simp [icon]

theorem titlesAll_eq (stop : Bool) (d : Nat) : ∀ (labels : List Str) (kids : List Node),
    titlesAll stop d labels kids = (labels.zip kids).flatMap (fun y => titles stop d y.1 y.2)
  | [], _ => by simp [titlesAll]
  | _ :: _, [] => by simp [titlesAll]
  | l :: ls, k :: ks => by rw [titlesAll, List.zip_cons_cons, List.flatMap_cons, titlesAll_eq stop d ls ks]

theorem titles_eq (stop : Bool) (d : Nat) (l : Str) (nd : Node) :
    titles stop d l nd = (d, l, icon stop nd) :: (sub nd).flatMap (fun y => titles stop (d + 1) y.1 y.2) := by
  cases nd with
  | adding out labels n =>
    rw [titles, sub, List.flatMap_map]
    congr 1
    induction labels.take n with
    | nil => rfl
    | cons a as ih => rw [List.map_cons, List.flatMap_cons, ih]; rfl
  | block out labels kids errs => rw [titles, sub, titlesAll_eq]; rfl
  | _ => rfl

theorem belowAll_eq (stop : Bool) (n d : Nat) : ∀ (labels : List Str) (kids : List Node),
    belowAll stop n d labels kids = (labels.zip kids).flatMap (fun y => below stop n d y.1 y.2)
  | [], _ => by simp [belowAll]
  | _ :: _, [] => by simp [belowAll]
  | l :: ls, k :: ks => by rw [belowAll, List.zip_cons_cons, List.flatMap_cons, belowAll_eq stop n d ls ks]

theorem below_eq (stop : Bool) (n d : Nat) (l : Str) (nd : Node) :
    below stop n d l nd = .compact d l (icon stop nd) (snippet n nd) :: (sub nd).flatMap (fun y => below stop n (d + 1) y.1 y.2) := by
  cases nd with
  | adding out labels k =>
    rw [below, sub, List.flatMap_map]
    congr 1
    induction labels.take k with
    | nil => rfl
    | cons a as ih => rw [List.map_cons, List.flatMap_cons, ih]; simp [below, snippet, said, recent]
  | block out labels kids errs => rw [below, sub, belowAll_eq]; rfl
  | ended r o => cases o <;> rfl
  | _ => rfl

mutual
theorem heads_below (stop : Bool) (n d : Nat) (l : Str) : ∀ nd : Node, (below stop n d l nd).filterMap head = titles stop d l nd
  | .adding out labels k => by
    rw [below, titles, List.filterMap_cons]
    simp only [head]
    congr 1
    rw [List.filterMap_map]
    induction labels.take k with
    | nil => rfl
    | cons a as ih => rw [List.filterMap_cons, List.map_cons, ← ih]; rfl
  | .block out labels kids errs => by
    rw [below, titles, List.filterMap_cons, heads_belowAll stop n (d + 1) labels kids]
    rfl
  | .ended r o => by cases o <;> rfl
  | .waiting => rfl
  | .idle _ => rfl
  | .summing _ _ _ => rfl
theorem heads_belowAll (stop : Bool) (n d : Nat) : ∀ (labels : List Str) (kids : List Node),
    (belowAll stop n d labels kids).filterMap head = titlesAll stop d labels kids
  | _, [] => by simp [belowAll, titlesAll]
  | [], _ :: _ => by simp [belowAll, titlesAll]
  | l :: ls, k :: ks => by rw [belowAll, titlesAll, List.filterMap_append, heads_below stop n d l k, heads_belowAll stop n d ls ks]
end

theorem heads_box (stop : Bool) (n : Nat) (l : Str) (nd : Node) : (box stop n l nd).filterMap head = titles stop 0 l nd := by
  have e1 : ∀ ls : List Str, (ls.map Row.line).filterMap head = [] := by
    intro ls
    rw [List.filterMap_map]
    exact List.filterMap_eq_nil_iff.mpr (fun _ _ => rfl)
  have e2 : ∀ k, (List.replicate k Row.pad).filterMap head = [] := fun k =>
    List.filterMap_eq_nil_iff.mpr (fun a ha => by rw [List.eq_of_mem_replicate ha]; rfl)
  rw [titles_eq, box, List.cons_append, List.filterMap_cons, List.filterMap_append]
  simp only [head, List.filterMap_cons, List.filterMap_nil, List.append_nil]
  congr 1
  split
  · rw [List.filterMap_flatMap]
    congr 1
    funext y
    exact heads_below stop n 1 y.1 y.2
  · next h =>
    rw [List.filterMap_append, e1, e2, not_not.mp h]
    rfl

/-- drawing several items after each other -/
theorem draw_all {α : Type} {F : Str → Option (List Row)} {G : α → List Row} {cs : List Str} {ys : List α}
    (h : List.Forall₂ (fun c y => F c = some (G y)) cs ys) :
    ∃ rs, cs.mapM F = some rs ∧ rs.flatten = ys.flatMap G := by
  induction h with
  | nil => exact ⟨[], rfl, rfl⟩
  | cons h1 _ ih =>
    obtain ⟨rs, e3, e4⟩ := ih
    refine ⟨_ :: rs, by rw [List.mapM_cons, h1, e3]; rfl, ?_⟩
    rw [List.flatten_cons, e4, List.flatMap_cons]

theorem compact_eq {p : List Nat} {x : Str × Node} {it : Item} (h : Fits n p x it) (stop : Bool) (d : Nat) :
    compactRow it stop d = .compact d x.1 (icon stop x.2) (snippet n x.2) := by
  unfold compactRow
  rw [icon_eq h, h.label]
  congr 1
  obtain ⟨l, nd⟩ := x
  have last : it.lines.reverse.find? (fun l => trimSpace l ≠ []) = ((recent n (said nd)).filter (fun l => trimSpace l ≠ [])).getLast? := by
    rw [h.lines, ← List.head?_filter, List.filter_reverse, List.head?_reverse]
  by_cases hn : ∃ r o, nd = .ended r o
  · obtain ⟨r, o, rfl⟩ := hn
    obtain ⟨h1, h2⟩ := h.ended r o rfl
    cases o with
    | ok => rw [if_pos ⟨h1, h2⟩]; rfl
    | failed => rw [if_neg (fun e => by rw [h2] at e; cases e.2), last]; rfl
    | cancelled => rw [if_neg (fun e => by rw [h2] at e; cases e.2), last]; rfl
  · have h1 := (h.going (fun r o e => hn ⟨r, o, e⟩)).1
    rw [if_neg (fun e => by rw [h1] at e; cases e.1), last]
    cases nd with
    | ended r o => exact absurd ⟨r, o, rfl⟩ hn
    | _ => rfl

theorem render_below {b : Base} (ht : TreeLike b.items) : ∀ (fuel : Nat) {p : List Nat} {x : Str × Node} (depth : Nat), p ≠ [] →
    Held b.maxLines b.items p x → longest b.items + 1 < (pathToKey p).length + fuel → fuel ≠ 0 → depth > 0 →
    renderItem b fuel (pathToKey p) depth = some (below b.cancelled b.maxLines depth x.1 x.2) := by
  intro fuel
  induction fuel with
  | zero => intro p x depth _ _ _ h; exact absurd rfl h
  | succ fuel ih =>
    intro p x depth hp h hf _ hd
    obtain ⟨it, h1, h2⟩ := held_self h
    rw [renderItem, h1, below_eq]
    dsimp only
    rw [if_pos hd]
    obtain ⟨rs, e1, e2⟩ := draw_all (F := fun ck => renderItem b fuel ck (depth + 1))
        (G := fun y : Str × Node => below b.cancelled b.maxLines (depth + 1) y.1 y.2) (cs := it.children) (ys := sub x.2) (by
      rw [h2.children, List.forall₂_map_left_iff, List.forall₂_iff_get]
      refine ⟨by simp, fun j hj hj' => ?_⟩
      simp only [List.get_eq_getElem, List.getElem_range]
      have hj2 : (sub x.2)[j]? = some (sub x.2)[j] := List.getElem?_eq_getElem hj'
      have hc : pathToKey (p ++ [j]) ∈ it.children := by
        rw [h2.children]
        exact List.mem_map.mpr ⟨j, List.mem_range.mpr hj', rfl⟩
      have l1 := le_longest h1 hc
      have l2 := ht _ _ h1 _ hc
      exact ih (depth + 1) (by simp) (held_kid h hj2) (by omega) (by omega) (by omega))
    rw [e1, Option.map_some, e2, compact_eq h2]

theorem render_box {b : Base} (ht : TreeLike b.items) {p : List Nat} {x : Str × Node} (h : Held b.maxLines b.items p x) :
    renderItem b (longest b.items + 2) (pathToKey p) 0 = some (box b.cancelled b.maxLines x.1 x.2) := by
  obtain ⟨it, h1, h2⟩ := held_self h
  rw [renderItem, h1, box]
  dsimp only
  rw [if_neg (Nat.lt_irrefl 0), icon_eq h2, h2.label]
  have hlen : it.children.length = (sub x.2).length := by rw [h2.children]; simp
  by_cases hs : sub x.2 = []
  · rw [if_neg (by rw [hlen, hs]; simp), if_neg (not_not.mpr hs), h2.lines]
    congr 1
    rw [List.cons_append, List.cons_append, List.cons_append]
    congr 1
    congr 1
    congr 1
    obtain ⟨l, nd⟩ := x
    by_cases hn : ∃ r o, nd = .ended r o
    · obtain ⟨r, o, rfl⟩ := hn
      rw [if_neg (fun e => by rw [(h2.ended r o rfl).1] at e; cases e.1)]
      rfl
    · have h3 := (h2.going (fun r o e => hn ⟨r, o, e⟩)).1
      have h4 : pads b.maxLines nd = if (recent b.maxLines (said nd)).length = 0 then 0 else groupedMaxLines - (recent b.maxLines (said nd)).length := by
        cases nd with
        | ended r o => exact absurd ⟨r, o, rfl⟩ hn
        | _ => rfl
      rw [h4]
      dsimp only
      by_cases h5 : (recent b.maxLines (said nd)).length = 0
      · rw [if_neg (by omega), if_pos h5]; rfl
      · rw [if_neg h5]
        split
        · rfl
        · next h6 =>
          have : groupedMaxLines - (recent b.maxLines (said nd)).length = 0 := by
            by_contra h7
            exact h6 ⟨h3, by omega, by omega⟩
          rw [this]
          rfl
  · have hpos : 0 < (sub x.2).length := List.length_pos_iff.mpr hs
    rw [if_pos (by omega), if_pos hs]
    obtain ⟨rs, e1, e2⟩ := draw_all (F := fun ck => renderItem b (longest b.items + 1) ck 1)
        (G := fun y : Str × Node => below b.cancelled b.maxLines 1 y.1 y.2) (cs := it.children) (ys := sub x.2) (by
      rw [h2.children, List.forall₂_map_left_iff, List.forall₂_iff_get]
      refine ⟨by simp, fun j hj hj' => ?_⟩
      simp only [List.get_eq_getElem, List.getElem_range]
      have hj2 : (sub x.2)[j]? = some (sub x.2)[j] := List.getElem?_eq_getElem hj'
      have hc : pathToKey (p ++ [j]) ∈ it.children := by
        rw [h2.children]
        exact List.mem_map.mpr ⟨j, List.mem_range.mpr hj', rfl⟩
      have l2 := ht _ _ h1 _ hc
      exact render_below ht _ 1 (by simp) (held_kid h hj2) (by omega) (by omega) (by omega))
    rw [e1, Option.map_some, e2]

/-- **C68** The grouped view can always be drawn, and it shows, from top to bottom, every item of the block: its title, and then
the items of the nested block it is in, or else the last lines of its output. After the end nothing is drawn. -/
theorem C68_grouped (h : Sys.Reach text labels n s) :
    drawGrouped s.view = some (if s.over = true then [] else (labels.zip s.kids).flatMap (fun y => box s.view.cancelled n y.1 y.2)) := by
  obtain ⟨hi, rfl⟩ := inv_reach h
  obtain rfl := reach_max h
  unfold drawGrouped
  by_cases ho : s.over = true
  · rw [if_pos (hi.over.mpr ho), if_pos ho]
  · rw [if_neg (fun e => ho (hi.over.mp e)), if_neg ho]
    have hlen : (s.labels.zip s.kids).length = s.labels.length := by
      rw [List.length_zip, hi.kids, Nat.min_self]
    obtain ⟨rs, e1, e2⟩ := draw_all (F := fun key => renderItem s.view (longest s.view.items + 2) key 0)
      (G := fun y : Str × Node => box s.view.cancelled s.view.maxLines y.1 y.2) (cs := s.view.roots) (ys := s.labels.zip s.kids) (by
        rw [hi.roots, List.forall₂_map_left_iff, List.forall₂_iff_get]
        refine ⟨by simp [hi.kids], fun j hj hj' => ?_⟩
        simp only [List.get_eq_getElem, List.getElem_range]
        exact render_box hi.tree (hi.held j _ (List.getElem?_eq_getElem hj')))
    rw [e1, Option.map_some, e2]

/-- **C68** The titles on the rows are those of all items that are there, at every depth, from top to bottom, each with the symbol
it ought to have. -/
theorem C68_titles (h : Sys.Reach text labels n s) (ho : s.over = false) :
    ∃ rows, drawGrouped s.view = some rows ∧ rows.filterMap head = titlesAll s.view.cancelled 0 labels s.kids := by
  refine ⟨_, C68_grouped h, ?_⟩
  rw [if_neg (by rw [ho]; simp), List.filterMap_flatMap, titlesAll_eq]
  congr 1
  funext y
  exact heads_box _ n y.1 y.2

/-- **C68** The tabs are those of the items of the block, in order, each with the symbol it ought to have, and the active one is
marked. -/
theorem C68_tabs (h : Sys.Reach text labels n s) (active : Int) :
    tabTitles ⟨s.view, active⟩ =
      (labels.zip s.kids).zipIdx.map (fun q => (decide ((q.2 : Int) = active), q.1.1, icon s.view.cancelled q.1.2)) := by
  obtain ⟨hi, rfl⟩ := inv_reach h
  have hlen : (s.labels.zip s.kids).length = s.labels.length := by
    rw [List.length_zip, hi.kids, Nat.min_self]
  have gen : ∀ (m j : Nat) (xs : List (Str × Node)), xs.length = m → (∀ i x, xs[i]? = some x → Held s.view.maxLines s.view.items [j + i] x) →
      (((List.range' j m).map (fun i => pathToKey [i])).zipIdx j).filterMap (fun q =>
        match s.view.items.get? q.1 with
        | none => none
        | some it => some (decide ((q.2 : Int) = active), it.label, statusIcon it s.view.cancelled)) =
      (xs.zipIdx j).map (fun q => (decide ((q.2 : Int) = active), q.1.1, icon s.view.cancelled q.1.2)) := by
    intro m
    induction m with
    | zero =>
      intro j xs hxs _
      obtain rfl := List.eq_nil_of_length_eq_zero hxs
      rfl
    | succ m ih =>
      intro j xs hxs hh
      cases xs with
      | nil => cases hxs
      | cons x xs =>
        obtain ⟨it, h1, h2⟩ := held_self (hh 0 x rfl)
        rw [Nat.add_zero] at h1
        rw [List.range'_succ, List.map_cons, List.zipIdx_cons, List.filterMap_cons]
        dsimp only
        rw [h1]
        dsimp only
        rw [List.zipIdx_cons, List.map_cons, icon_eq h2, h2.label]
        congr 1
        refine ih (j + 1) xs (by simpa using hxs) (fun i y hy => ?_)
        have := hh (i + 1) y (by rw [List.getElem?_cons_succ]; exact hy)
        rwa [Nat.add_assoc, Nat.add_comm 1 i]
  have := gen s.labels.length 0 (s.labels.zip s.kids) hlen (fun i x hx => by rw [Nat.zero_add]; exact hi.held i x hx)
  unfold tabTitles
  rw [hi.roots, List.range_eq_range']
  exact this

theorem tab_content (h : Sys.Reach text labels n s) {i : Nat} {x : Str × Node} (hx : (labels.zip s.kids)[i]? = some x) :
    ∃ it, tabContent ⟨s.view, i⟩ = buildContent s.view it ∧ Fits n [i] x it := by
  obtain ⟨hi, rfl⟩ := inv_reach h
  obtain rfl := reach_max h
  have hl : i < s.labels.length := by
    have := (List.getElem?_eq_some_iff.mp hx).1
    rw [List.length_zip] at this
    omega
  obtain ⟨it, h1, h2⟩ := held_self (hi.held i x hx)
  refine ⟨it, ?_, h2⟩
  unfold tabContent
  simp only [Int.toNat_natCast]
  rw [hi.roots, List.getElem?_map, List.getElem?_range hl]
  simp only [Option.map_some]
  rw [h1]

theorem note_eq {p : List Nat} {x : Str × Node} {it : Item} (h : Fits n p x it) :
    (if it.done = true ∧ it.outcome ≠ .ok then Note.error
      else match it.lines.getLast? with
        | some l => if trimSpace l ≠ [] then Note.last l else Note.none
        | none => Note.none) = note n x.2 := by
  obtain ⟨l, nd⟩ := x
  have last : (match it.lines.getLast? with
        | some l => if trimSpace l ≠ [] then Note.last l else Note.none
        | none => Note.none) = (match (recent n (said nd)).getLast? with
        | some l => if trimSpace l = [] then Note.none else Note.last l
        | none => Note.none) := by
    rw [h.lines]
    cases (recent n (said nd)).getLast? with
    | none => rfl
    | some l => dsimp only; rw [ite_not]
  by_cases hn : ∃ r o, nd = .ended r o
  · obtain ⟨r, o, rfl⟩ := hn
    obtain ⟨h1, h2⟩ := h.ended r o rfl
    cases o with
    | ok => rw [if_neg (fun e => e.2 h2), last]; rfl
    | failed => rw [if_pos ⟨h1, by rw [h2]; simp⟩]; rfl
    | cancelled => rw [if_pos ⟨h1, by rw [h2]; simp⟩]; rfl
  · have h1 := (h.going (fun r o e => hn ⟨r, o, e⟩)).1
    rw [if_neg (fun e => by rw [h1] at e; cases e.1), last]
    cases nd with
    | ended r o => exact absurd ⟨r, o, rfl⟩ hn
    | _ => rfl

/-- **C68** The tab of an item that is in a nested block lists the items of that block, in order, each with the symbol it ought
to have, and with its error or the last line of its output. -/
theorem C68_tab_nested (h : Sys.Reach text labels n s) {i : Nat} {x : Str × Node} (hx : (labels.zip s.kids)[i]? = some x)
    (hs : sub x.2 ≠ []) :
    tabContent ⟨s.view, i⟩ = .nested ((sub x.2).map (fun y => (y.1, icon s.view.cancelled y.2, note n y.2))) := by
  obtain ⟨it, h1, h2⟩ := tab_content h hx
  rw [h1]
  obtain ⟨hi, rfl⟩ := inv_reach h
  obtain rfl := reach_max h
  have hh := hi.held i x hx
  unfold buildContent
  have hc : it.children.length > 0 := by
    rw [h2.children, List.length_map, List.length_range]
    exact List.length_pos_iff.mpr hs
  rw [if_pos hc, h2.children]
  congr 1
  have gen : ∀ (m j : Nat) (ys : List (Str × Node)), ys.length = m → (∀ r y, ys[r]? = some y → Held s.view.maxLines s.view.items ([i] ++ [j + r]) y) →
      ((List.range' j m).map (fun r => pathToKey ([i] ++ [r]))).filterMap (fun ck =>
        match s.view.items.get? ck with
        | none => none
        | some child =>
          some (child.label, statusIcon child s.view.cancelled,
            if child.done = true ∧ child.outcome ≠ .ok then Note.error
            else match child.lines.getLast? with
              | some l => if trimSpace l ≠ [] then Note.last l else Note.none
              | none => Note.none)) = ys.map (fun y => (y.1, icon s.view.cancelled y.2, note s.view.maxLines y.2)) := by
    intro m
    induction m with
    | zero =>
      intro j ys hys _
      obtain rfl := List.eq_nil_of_length_eq_zero hys
      rfl
    | succ m ih =>
      intro j ys hys hh
      cases ys with
      | nil => cases hys
      | cons y ys =>
        obtain ⟨it, h1, h2⟩ := held_self (hh 0 y rfl)
        rw [Nat.add_zero] at h1
        rw [List.range'_succ, List.map_cons, List.filterMap_cons, h1]
        dsimp only
        rw [List.map_cons, icon_eq h2, h2.label, note_eq h2]
        congr 1
        refine ih (j + 1) ys (by simpa using hys) (fun r z hz => ?_)
        have := hh (r + 1) z (by rw [List.getElem?_cons_succ]; exact hz)
        rwa [Nat.add_assoc, Nat.add_comm 1 r]
  have := gen (sub x.2).length 0 (sub x.2) rfl (fun r y hy => by rw [Nat.zero_add]; exact held_kid hh hy)
  rw [← List.range_eq_range'] at this
  exact this

/-- **C68** The tab of an item that is not in a nested block shows the output of the item. -/
theorem C68_tab_lines (h : Sys.Reach text labels n s) {i : Nat} {x : Str × Node} (hx : (labels.zip s.kids)[i]? = some x)
    (hs : sub x.2 = []) (hl : said x.2 ≠ []) : tabContent ⟨s.view, i⟩ = .lines (recent n (said x.2)) := by
  obtain ⟨it, h1, h2⟩ := tab_content h hx
  have hr : (recent n (said x.2)).length ≠ 0 := by
    have : (said x.2).length ≠ 0 := fun e => hl (List.eq_nil_of_length_eq_zero e)
    unfold recent
    split
    · exact this
    · rw [List.length_drop]; omega
  rw [h1, buildContent, if_neg (by rw [h2.children, hs]; simp), h2.lines, if_neg hr]

/-- the symbol of an outcome -/
theorem done_icon (r : List Str) (o : Outcome) (stop : Bool) :
    (if o ≠ .ok then (if o = .cancelled then Icon.cancelled else .failed) else .ok) = icon stop (.ended r o) := by
  cases o <;> simp [icon]

theorem summary_eq {labels : List Str} {kids : List Node} {errs : List Outcome} (h1 : kids.length = labels.length)
    (h2 : errs.length = labels.length) (h3 : ∀ (i : Nat) (r : List Str) (o : Outcome), kids[i]? = some (Node.ended r o) → errs[i]? = some o)
    (hall : ∀ k ∈ kids, ∃ r o, k = .ended r o) :
    renderParallelDone labels errs = some (List.zipWith (fun l k => (l, icon false k)) labels kids) := by
  unfold renderParallelDone
  rw [if_neg (by simpa using h2)]
  congr 1
  apply List.ext_getElem?
  intro i
  rw [List.getElem?_zipWith, List.getElem?_zipWith]
  cases hk : kids[i]? with
  | none =>
    have : labels[i]? = none := by rw [List.getElem?_eq_none_iff] at hk ⊢; omega
    rw [this]
  | some k =>
    obtain ⟨r, o, rfl⟩ := hall k (List.mem_of_getElem? hk)
    rw [h3 i r o hk]
    cases labels[i]? with
    | none => rfl
    | some l => dsimp only; rw [done_icon r o false]

/-- **C68** The summary of the block tells for each item, in order, how it ended. -/
theorem C68_summary (h : Sys.Reach text labels n s) (hall : ∀ k ∈ s.kids, ∃ r o, k = .ended r o) :
    renderParallelDone labels s.errs = some (List.zipWith (fun l k => (l, icon false k)) labels s.kids) := by
  obtain ⟨hi, rfl⟩ := inv_reach h
  exact summary_eq hi.kids hi.errs hi.kept hall

/-- **C68** The same for the summary of a nested block, at any depth. -/
theorem C68_summary_nested (h : Sys.Reach text labels n s) {q : List Nat} {l : Str} {out ls : List Str} {kids : List Node} {errs : List Outcome}
    (hq : Place s q (l, .block out ls kids errs)) (hall : ∀ k ∈ kids, ∃ r o, k = .ended r o) :
    renderParallelDone ls errs = some (List.zipWith (fun l k => (l, icon false k)) ls kids) := by
  obtain ⟨hi, -⟩ := inv_reach h
  obtain ⟨i, r, x, -, hx, hy⟩ := hq
  have hg : Good x.2 := hi.good x.2 (List.of_mem_zip (List.mem_of_getElem? hx)).2
  have gen : ∀ (r : List Nat) (x : Str × Node), Good x.2 → ∀ y, find x r = some y → Good y.2 := by
    intro r
    induction r with
    | nil => intro x hx y hy; cases hy; exact hx
    | cons j r ih =>
      intro x hx y hy
      rw [find] at hy
      split at hy
      · next z hz =>
        refine ih z ?_ y hy
        obtain ⟨l, nd⟩ := x
        have hm := List.mem_of_getElem? hz
        cases hx with
        | adding _ =>
          obtain ⟨_, _, rfl⟩ := List.mem_map.mp hm
          exact .waiting
        | block _ _ h3 _ => exact h3 _ (List.of_mem_zip hm).2
        | _ => cases hm
      · cases hy
  cases gen r x hg _ hy with
  | block g1 g2 g3 g4 => exact summary_eq g1 g2 g4 hall

/-- **C68** When the last item has ended, the view can be closed, and then all items have ended. -/
theorem C68_end (h : Sys.Reach text labels n s) :
    (s.over = true → ∀ k ∈ s.kids, ∃ r o, k = .ended r o) ∧
    ((∀ k ∈ s.kids, ∃ r o, k = .ended r o) → ∃ s', Sys.Step text s s' ∧ s'.over = true ∧ drawGrouped s'.view = some []) := by
  refine ⟨?_, fun hall => ⟨_, .close hall rfl, rfl, rfl⟩⟩
  induction h with
  | init => intro h; cases h
  | step _ hs ih =>
    intro ho
    cases hs with
    | item hk hm _ =>
      obtain ⟨r, o, rfl⟩ := ih ho _ (List.mem_of_getElem? hk)
      cases hm
    | user => exact ih ho
    | close hall _ => exact hall

namespace Sample

/-- one item whose nested block has two items, the second of which is running -/
example : ∃ s, Sys.Reach (fun _ => []) ["A".toList, "B".toList] 5 s ∧
    s.kids = [.block [] ["x".toList, "y".toList] [.ended [] .failed, .idle []] [.failed, .ok], .waiting] := by
  have h0 := Sys.Reach.init (text := fun _ => []) (labels := ["A".toList, "B".toList]) (maxLines := 5)
  obtain ⟨_, _, h1⟩ := C68_handled h0 (i := 0) rfl .start
  obtain ⟨_, _, h2⟩ := C68_handled h1 (i := 0) rfl (.enter ["x".toList, "y".toList])
  obtain ⟨_, _, h3⟩ := C68_handled h2 (i := 0) rfl (.register (by decide))
  obtain ⟨_, _, h4⟩ := C68_handled h3 (i := 0) rfl (.register (by decide))
  obtain ⟨_, _, h5⟩ := C68_handled h4 (i := 0) rfl .fork
  obtain ⟨_, _, h6⟩ := C68_handled h5 (i := 0) rfl (.inside (i := 0) rfl .start)
  obtain ⟨_, _, h7⟩ := C68_handled h6 (i := 0) rfl (.inside (i := 0) rfl (.finish .failed))
  obtain ⟨_, _, h8⟩ := C68_handled h7 (i := 0) rfl (.inside (i := 1) rfl .start)
  exact ⟨_, h8, rfl⟩

/-- what it looks like -/
example : titlesAll false 0 ["A".toList, "B".toList] [.block [] ["x".toList, "y".toList] [.ended [] .failed, .idle []] [.failed, .ok], .waiting] =
    [(0, "A".toList, .running), (1, "x".toList, .failed), (1, "y".toList, .running), (0, "B".toList, .waiting)] := by decide

/-- an item that has said three lines, when two are kept, and one that is in a nested block -/
example : box false 2 "A".toList (.idle ["1".toList, "2".toList, "3".toList]) =
      [.title "A".toList .running, .line "2".toList, .line "3".toList, .pad, .pad, .pad, .bottom] ∧
    box false 2 "B".toList (.block [] ["x".toList, "y".toList] [.ended ["bad".toList, " ".toList] .failed, .idle []] [.failed, .ok]) =
      [.title "B".toList .running, .compact 1 "x".toList .failed (some "bad".toList), .compact 1 "y".toList .running none, .bottom] := by
  constructor <;> decide +kernel

/-- The tab of an item that has ended without any output says that it is running. -/
theorem C68_tab_of_silent_item : ∃ s, Sys.Reach (fun _ => []) ["A".toList] 0 s ∧ s.kids = [.ended [] .ok] ∧
    tabContent ⟨s.view, 0⟩ = .running := by
  have h0 := Sys.Reach.init (text := fun _ => []) (labels := ["A".toList]) (maxLines := 0)
  obtain ⟨v1, e1, h1⟩ := C68_handled h0 (i := 0) rfl .start
  obtain ⟨v2, e2, h2⟩ := C68_handled h1 (i := 0) rfl (.finish .ok)
  refine ⟨_, h2, rfl, ?_⟩
  cases e1
  cases e2
  decide +kernel

end Sample
end Bab.View
