import Verif.Model.Fit
import Verif.Props.View
/-
C106: the views of parallel items fit the window.
-/

namespace Bab.View
open Bab

namespace Spec

/-- What is known about the library: a text that is cut is not wider than asked for, and is a beginning of the text; what fits and ends
before a blank is left; the tail counts. -/
structure Cuts (L : Cutter) : Prop where
  fits : ∀ s n, L.width (L.cut s n) ≤ n
  begins : ∀ s n, L.cut s n <+: s
  most : ∀ p r n, L.width p ≤ n → p <+: L.cut (p ++ ' ' :: r) n
  dots : ∀ s n, L.width (L.cutDots s n) ≤ n

/-- the margin of a nested item -/
def margin : Nat → Str
  | 0 => []
  | d + 1 => ['│', ' ', ' '] ++ List.replicate (2 * d) ' '

/-- a row without cutting -/
def whole : Row → Str
  | .title label icon => ['┌', '─', ' '] ++ label ++ ' ' :: icon.text
  | .line t => ['│', ' ', ' '] ++ t
  | .pad => ['│']
  | .bottom => ['└']
  | .compact d label icon none => margin d ++ icon.text ++ ' ' :: label
  | .compact d label icon (some t) => margin d ++ icon.text ++ ' ' :: label ++ [' ', ' '] ++ t

end Spec
open Spec

section
variable {L : Cutter}

theorem truncateLine_fits (hL : Cuts L) (s : Str) {w : Nat} (hw : 0 < w) : L.width (truncateLine L s w) ≤ w := by
  unfold truncateLine
  split
  · next h => rcases h with h | h
              · omega
              · exact h
  · exact hL.fits s w

theorem truncateLine_begins (hL : Cuts L) (s : Str) (w : Nat) : truncateLine L s w <+: s := by
  unfold truncateLine
  split
  · exact List.prefix_refl s
  · exact hL.begins s w

/-- a row as it is shown: cut, or a snippet with `…` -/
def shown (L : Cutter) (w : Nat) : Row → Str
  | .compact d label icon (some t) =>
    let pre := icon.text ++ ' ' :: label
    let available := w - L.width (margin d) - L.width pre - 2
    if 0 < available then
      truncateLine L (margin d ++ pre ++ [' ', ' '] ++ (if available < L.width t then L.cutDots t available else t)) w
    else truncateLine L (margin d ++ pre) w
  | .line t => outputLine L w [] t
  | r => truncateLine L (whole r) w

theorem compactLine_eq (w : Nat) (it : Item) (cancelled : Bool) (d : Nat) :
    compactLine L w it cancelled (margin d) = shown L w (compactRow it cancelled d) := by
  unfold compactLine compactRow
  dsimp only
  by_cases h : it.done = true ∧ it.outcome = .ok
  · rw [if_pos h, if_pos h]; simp [shown, whole]
  · rw [if_neg h, if_neg h]
    cases it.lines.reverse.find? (fun l => trimSpace l ≠ []) with
    | none => simp [shown, whole]
    | some t => rfl

theorem mapM_map {α β γ : Type} {f : α → Option β} {g : α → Option γ} {h : β → γ} (l : List α)
    (hl : ∀ a ∈ l, g a = (f a).map h) : l.mapM g = (l.mapM f).map (List.map h) := by
  induction l with
  | nil => rfl
  | cons a l ih =>
    rw [List.mapM_cons, List.mapM_cons, hl a (by simp), ih (fun x hx => hl x (by simp [hx]))]
    cases f a with
    | none => rfl
    | some b =>
      cases l.mapM f with
      | none => rfl
      | some bs => rfl

theorem margin_succ (d : Nat) : margin (d + 1) ++ [' ', ' '] = margin (d + 2) := by
  unfold margin
  rw [List.append_assoc]
  congr 1
  rw [show 2 * (d + 1) = 2 * d + 2 from by omega, List.replicate_add]
  rfl

theorem fitItem_eq (w : Nat) (b : Base) : ∀ (fuel : Nat) (key : Str) (depth : Nat),
    fitItem L w b fuel key (margin depth) depth = (renderItem b fuel key depth).map (List.map (shown L w))
  | 0, _, _ => rfl
  | fuel + 1, key, depth => by
    unfold fitItem renderItem
    cases hg : b.items.get? key with
    | none => rfl
    | some it =>
      dsimp only
      cases depth with
      | succ d =>
        rw [if_pos (by omega), if_pos (by omega), margin_succ]
        rw [mapM_map (f := fun ck => renderItem b fuel ck (d + 1 + 1)) (h := List.map (shown L w)) it.children
          (fun a _ => fitItem_eq w b fuel a (d + 2))]
        cases it.children.mapM (fun ck => renderItem b fuel ck (d + 1 + 1)) with
        | none => rfl
        | some rs => simp [compactLine_eq, List.map_flatten]
      | zero =>
        rw [if_neg (Nat.lt_irrefl 0), if_neg (Nat.lt_irrefl 0)]
        by_cases hc : it.children.length > 0
        · rw [if_pos hc, if_pos hc]
          rw [mapM_map (f := fun ck => renderItem b fuel ck 1) (g := fun ck => fitItem L w b fuel ck (margin 0 ++ ['│', ' ', ' ']) 1) (h := List.map (shown L w)) it.children
            (fun a _ => fitItem_eq w b fuel a 1)]
          cases it.children.mapM (fun ck => renderItem b fuel ck 1) with
          | none => rfl
          | some rs => simp [List.map_flatten, shown, whole, margin]
        · rw [if_neg hc, if_neg hc]
          by_cases hp : it.done = false ∧ it.lines.length > 0 ∧ it.lines.length < groupedMaxLines
          · rw [if_pos hp, if_pos hp]; simp [shown, whole, margin, Function.comp_def]
          · rw [if_neg hp, if_neg hp]; simp [shown, whole, margin, Function.comp_def]

/-- C106. The rows of text are the rows of the drawing (C68), each cut for itself: none is left out and none is added. -/
theorem C106_rows {w : Nat} {b : Base} (hd : b.done = false) : fitGrouped L w b = (drawGrouped b).map (List.map (shown L w)) := by
  unfold fitGrouped drawGrouped
  rw [if_neg (by rw [hd]; decide), if_neg (by rw [hd]; decide)]
  rw [mapM_map (f := fun key => renderItem b (longest b.items + 2) key 0) (g := fun key => fitItem L w b (longest b.items + 2) key [] 0) (h := List.map (shown L w)) b.roots
    (fun a _ => fitItem_eq w b _ a 0)]
  cases b.roots.mapM (fun key => renderItem b (longest b.items + 2) key 0) with
  | none => rfl
  | some rs => simp [List.map_flatten]

/-- C106. No row of the grouped view is wider than the window. -/
theorem C106_width (hL : Cuts L) {w : Nat} (hw : 0 < w) {b : Base} (hd : b.done = false) {rows : List Str} (h : fitGrouped L w b = some rows) :
    ∀ r ∈ rows, L.width r ≤ w := by
  rw [C106_rows hd] at h
  cases hr : drawGrouped b with
  | none => rw [hr] at h; cases h
  | some rs =>
    rw [hr] at h
    cases h
    intro r hm
    obtain ⟨row, -, rfl⟩ := List.mem_map.mp hm
    unfold shown outputLine
    split
    · dsimp only
      split <;> exact truncateLine_fits hL _ hw
    · exact truncateLine_fits hL _ hw
    · exact truncateLine_fits hL _ hw

/-- C106. What is shown of a row that is not a snippet is a beginning of it. -/
theorem C106_begins (hL : Cuts L) (w : Nat) (row : Row) (hs : ∀ d l i t, row ≠ .compact d l i (some t)) : shown L w row <+: whole row := by
  unfold shown outputLine
  split
  · next d l i t => exact absurd rfl (hs d l i t)
  · next t =>
    dsimp only [whole]
    refine (truncateLine_begins hL _ w).trans ?_
    rw [List.nil_append]
    refine (List.prefix_append_right_inj _).mpr ?_
    split
    · exact hL.begins _ _
    · exact List.prefix_refl _
  · exact truncateLine_begins hL _ w

/-- C106. A row that fits is shown as it is. -/
theorem C106_unchanged {w : Nat} {row : Row} (hs : ∀ d l i t, row ≠ .compact d l i (some t)) (hl : ∀ t, row ≠ .line t)
    (h : L.width (whole row) ≤ w) : shown L w row = whole row := by
  unfold shown
  split
  · next d l i t => exact absurd rfl (hs d l i t)
  · next t => exact absurd rfl (hl t)
  · unfold truncateLine; rw [if_pos (.inr h)]

theorem truncateLine_keeps (hL : Cuts L) {p r : Str} {w : Nat} (h : L.width p ≤ w) : p <+: truncateLine L (p ++ ' ' :: r) w := by
  unfold truncateLine
  split
  · exact List.prefix_append p _
  · exact hL.most p r w h

/-- C106. The row of a nested item shows how the item is, if the window is wide enough for the margin and the symbol. -/
theorem C106_nested_status (hL : Cuts L) {w d : Nat} {label : Str} {icon : Icon} {snippet : Option Str}
    (h : L.width (margin d ++ icon.text) ≤ w) : margin d ++ icon.text <+: shown L w (.compact d label icon snippet) := by
  cases snippet with
  | none => exact truncateLine_keeps hL h
  | some t =>
    unfold shown
    dsimp only
    split
    · have := truncateLine_keeps hL (r := label ++ [' ', ' '] ++
        (if w - L.width (margin d) - L.width (icon.text ++ ' ' :: label) - 2 < L.width t then
          L.cutDots t (w - L.width (margin d) - L.width (icon.text ++ ' ' :: label) - 2) else t)) h
      simpa using this
    · have := truncateLine_keeps hL (r := label) h
      simpa using this

/-- C106, for titles that fit (partial: the symbol stands behind the label and is lost if the label is too long, `C106_status_lost`). The
title of an item shows how the item is. -/
theorem C106_title_status_partial {w : Nat} {label : Str} {icon : Icon} (h : L.width (whole (.title label icon)) ≤ w) :
    ∃ pre, shown L w (.title label icon) = pre ++ icon.text := by
  rw [C106_unchanged (by rintro _ _ _ _ ⟨⟩) (by rintro _ ⟨⟩) h]
  exact ⟨['┌', '─', ' '] ++ label ++ [' '], by simp [whole]⟩

/-- C106. From its first line to its end, the block of an item without nested items has the same height. -/
theorem C106_steady {b : Base} {fuel : Nat} {key : Str} {it : Item} (hg : b.items.get? key = some it) (hc : it.children = []) (hd : it.done = false)
    (h0 : it.lines ≠ []) (h5 : it.lines.length ≤ groupedMaxLines) {rows : List Row} (h : renderItem b (fuel + 1) key 0 = some rows) :
    rows.length = groupedMaxLines + 2 := by
  unfold renderItem at h
  rw [hg] at h
  dsimp only at h
  have hpos : it.lines.length > 0 := List.length_pos_iff.mpr h0
  rw [if_neg (Nat.lt_irrefl 0), if_neg (by rw [hc]; decide)] at h
  cases h
  simp only [List.length_append, List.length_cons, List.length_map, List.length_nil]
  by_cases hl : it.lines.length < groupedMaxLines
  · rw [if_pos ⟨hd, hpos, hl⟩, List.length_replicate]; omega
  · rw [if_neg (fun hh => hl hh.2.2)]; simp only [List.length_nil]; omega

/-- C106, if there is room (partial: with many tabs the active one may be outside of the window, `C106_tab_hidden`). If the titles of the
tabs together are not wider than the window, all of them are inside. -/
theorem C106_titles_partial {w : Nat} : ∀ {x : Nat} {titles : List (Bool × Str × Icon)},
    x + (titles.map fun q => titleWidth L q.2.1 q.2.2).sum ≤ w → ∀ p ∈ titleColumns L x titles, p.1 + p.2.1 ≤ w
  | _, [], _, p, hp => by cases hp
  | x, q :: r, h, p, hp => by
    simp only [List.map_cons, List.sum_cons] at h
    rcases List.mem_cons.mp hp with rfl | hp
    · dsimp only; omega
    · exact C106_titles_partial (x := x + titleWidth L q.2.1 q.2.2) (by omega) p hp

end

/-- every character takes one column -/
def Sample.cutter : Cutter where
  width := List.length
  cut := fun s n => s.take n
  cutDots := fun s n => if s.length ≤ n then s else if n = 0 then [] else s.take (n - 1) ++ ['…']

theorem Sample.cutter_cuts : Cuts Sample.cutter where
  fits := fun s n => by simp [Sample.cutter]; omega
  begins := fun s n => List.take_prefix n s
  most := fun p r n h => by
    have h : p.length ≤ n := h
    show p <+: (p ++ ' ' :: r).take n
    rw [List.take_append, List.take_of_length_le h]
    exact List.prefix_append p _
  dots := fun s n => by
    simp only [Sample.cutter]
    split
    · assumption
    · split
      · simp
      · simp; omega

/-- one item with a label of this length, ended in this way -/
def Sample.ended (n : Nat) (o : Outcome) : Option Base :=
  history (newBase [List.replicate n 'a'] groupedMaxLines) [.size, .start (itemKey 0), .done (itemKey 0) o]

/-- C106 fails for long labels: whether the item has succeeded or failed, the view is the same. -/
theorem C106_status_lost : ∃ b b', Sample.ended 77 .ok = some b ∧ Sample.ended 77 .failed = some b' ∧
    fitGrouped Sample.cutter 80 b = fitGrouped Sample.cutter 80 b' ∧ drawGrouped b ≠ drawGrouped b' :=
  ⟨_, _, rfl, rfl, by decide +kernel, by decide +kernel⟩

/-- with a shorter label it is not -/
example : ∃ b b', Sample.ended 75 .ok = some b ∧ Sample.ended 75 .failed = some b' ∧
    fitGrouped Sample.cutter 80 b ≠ fitGrouped Sample.cutter 80 b' := ⟨_, _, rfl, rfl, by decide +kernel⟩

/-- items that have all printed a line -/
def Sample.busy (n : Nat) : Option Base :=
  history (newBase ((List.range n).map fun _ => ['a']) groupedMaxLines)
    ((List.range n).flatMap fun i => [.start (itemKey i), .output (itemKey i) "123456789".toList])

/-- C106 fails for many items: the view of four items is higher than a window of 24 rows. -/
theorem C106_too_high : ∃ b rows, Sample.busy 4 = some b ∧ fitGrouped Sample.cutter 80 b = some rows ∧ rows.length = 28 :=
  ⟨_, _, rfl, rfl, by decide +kernel⟩

/-- C106 fails for many tabs: the title of the active tab begins behind the end of the window. -/
theorem C106_tab_hidden : ∃ b, Sample.busy 20 = some b ∧
    ∃ p ∈ titleColumns Sample.cutter 0 (tabTitles { base := b, active := 19 }), p.2.2 = true ∧ 80 < p.1 :=
  ⟨_, rfl, by decide +kernel⟩

/-- the text of a view -/
example : (Sample.busy 1).bind (fitGrouped Sample.cutter 8) =
    some ["┌─ a ◦".toList, "│  12345".toList, "│".toList, "│".toList, "│".toList, "│".toList, "└".toList] := by decide +kernel

example : ∃ b, Sample.busy 2 = some b ∧ ∀ p ∈ titleColumns Sample.cutter 0 (tabTitles { base := b, active := 1 }), p.1 + p.2.1 ≤ 14 :=
  ⟨_, rfl, C106_titles_partial (by decide +kernel)⟩

end Bab.View
