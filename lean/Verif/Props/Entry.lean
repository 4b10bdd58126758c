import Verif.Model.Entry
import Verif.Props.Picker
/-
Property C69: an entry of the picker shows its task and marks what was found.
-/

namespace Bab.Picker
open Bab

namespace Spec

/-- the text of pieces, without styles -/
def textOf (pieces : List (Style × Str)) : Str := pieces.flatMap (·.2)

/-- the style of each character -/
def charStyles (pieces : List (Style × Str)) : List (Style × Char) := pieces.flatMap (fun p => p.2.map (fun c => (p.1, c)))

/-- each character of a text with the style it ought to have; `positions` are positions in bytes -/
def marked (positions : List Nat) (base hl : Style) : Nat → Str → List (Style × Char)
  | _, [] => []
  | off, c :: t => (if off ∈ positions then hl else base, c) :: marked positions base hl (off + c.utf8Size) t

/-- the text of an entry: its mark, the name of the task, its aliases and its description -/
def entryText (t : Task) (selected : Bool) : Str :=
  let all := (if t.alias = [] then [] else [t.alias]) ++ t.aliases
  (if selected then "│ ".toList else "  ".toList) ++ t.name ++
    (if all = [] then [] else " (".toList ++ ", ".toList.intercalate all ++ ")".toList) ++
    (if t.desc = [] then [] else "  ".toList ++ t.desc)

end Spec

open Spec

theorem charStyles_append (a b : List (Style × Str)) : charStyles (a ++ b) = charStyles a ++ charStyles b := List.flatMap_append

theorem textOf_append (a b : List (Style × Str)) : textOf (a ++ b) = textOf a ++ textOf b := List.flatMap_append

theorem textOf_eq (pieces : List (Style × Str)) : textOf pieces = (charStyles pieces).map (·.2) := by
  induction pieces with
  | nil => rfl
  | cons p ps ih =>
    rw [textOf, List.flatMap_cons, charStyles, List.flatMap_cons, List.map_append]
    show p.2 ++ textOf ps = _ ++ List.map _ (charStyles ps)
    rw [ih, List.map_map]
    congr 1
    exact (List.map_id p.2).symm

theorem marked_text (positions : List Nat) (base hl : Style) : ∀ (t : Str) (off : Nat), (marked positions base hl off t).map (·.2) = t
  | [], _ => rfl
  | c :: t, off => by rw [marked, List.map_cons, marked_text positions base hl t]

theorem hlLoop_eq (set : List Nat) (base hl : Style) : ∀ (t : Str) (off : Nat) (first prev : Bool) (run : Str), (first = true → run = []) →
    charStyles (hlLoop set base hl off first prev run t) =
      run.map (fun c => ((if prev = true then hl else base), c)) ++ marked set base hl off t := by
  intro t
  induction t with
  | nil =>
    intro off first prev run _
    rw [hlLoop, marked, List.append_nil]
    cases run with
    | nil => rfl
    | cons c r => simp [charStyles]
  | cons c t ih =>
    intro off first prev run hf
    rw [hlLoop, marked, charStyles_append, ih _ false _ _ (fun h => nomatch h)]
    by_cases hfl : (!first && decide (off ∈ set) != prev) = true
    · rw [if_pos hfl, if_pos hfl]
      simp [charStyles]
    · rw [if_neg hfl, if_neg hfl]
      have hrun : run.map (fun c => ((if prev = true then hl else base), c)) = run.map (fun c => ((if off ∈ set then hl else base), c)) := by
        cases hfirst : first with
        | true => rw [hf hfirst]; rfl
        | false =>
          rw [hfirst] at hfl
          have : decide (off ∈ set) = prev := by simpa using hfl
          rw [← this]
          simp
      rw [hrun]
      simp [charStyles]

/-- **C69** A name is shown as it is, and the characters marked in it are exactly those the matcher has found. -/
theorem C69_name (text : Str) (positions : List Nat) (base hl : Style) :
    charStyles (highlight text positions base hl) = marked positions base hl 0 text ∧ textOf (highlight text positions base hl) = text := by
  have key : charStyles (highlight text positions base hl) = marked positions base hl 0 text := by
    unfold highlight
    split
    · next h =>
      obtain rfl := List.eq_nil_of_length_eq_zero h
      have : ∀ (t : Str) off, marked [] base hl off t = t.map (fun c => (base, c)) := by
        intro t
        induction t with
        | nil => intro _; rfl
        | cons c t ih => intro off; rw [marked, ih]; simp
      rw [this]
      simp [charStyles]
    · rw [hlLoop_eq _ _ _ _ _ _ _ _ (fun _ => rfl)]
      rfl
  exact ⟨key, by rw [textOf_eq, key, marked_text]⟩

theorem indexOf_some {sub : Str} : ∀ {t : Str} {i : Nat}, indexOf sub t = some i →
    (∃ v, t = t.take i ++ sub ++ v) ∧ i ≤ t.length ∧ ∀ u v, t = u ++ sub ++ v → i ≤ u.length
  | [], i, h => by
    rw [indexOf] at h
    split at h
    · next hs => cases h; subst hs; exact ⟨⟨[], rfl⟩, Nat.le_refl _, fun _ _ _ => Nat.zero_le _⟩
    · cases h
  | c :: t, i, h => by
    rw [indexOf] at h
    split at h
    · next hp =>
      cases h
      obtain ⟨v, hv⟩ := List.isPrefixOf_iff_prefix.mp hp
      exact ⟨⟨v, by rw [List.take_zero, List.nil_append, hv]⟩, Nat.zero_le _, fun _ _ _ => Nat.zero_le _⟩
    · next hp =>
      obtain ⟨j, hj, rfl⟩ := Option.map_eq_some_iff.mp h
      obtain ⟨⟨v, hv⟩, h2, h3⟩ := indexOf_some hj
      refine ⟨⟨v, ?_⟩, by rw [List.length_cons]; omega, ?_⟩
      · rw [List.take_succ_cons, List.cons_append, List.cons_append, ← hv]
      · intro u w e
        cases u with
        | nil =>
          refine absurd ?_ hp
          rw [List.isPrefixOf_iff_prefix]
          exact ⟨w, by rw [e]; rfl⟩
        | cons d u =>
          rw [List.cons_append, List.cons_append] at e
          injection e with _ e
          rw [List.length_cons]
          have := h3 u w e
          omega

theorem indexOf_none {sub : Str} : ∀ {t : Str}, indexOf sub t = none → ∀ u v, t ≠ u ++ sub ++ v
  | [], h, u, v, e => by
    rw [indexOf] at h
    split at h
    · cases h
    · next hs =>
      have := congrArg List.length e
      simp only [List.length_append, List.length_nil] at this
      exact hs (List.eq_nil_of_length_eq_zero (by omega))
  | c :: t, h, u, v, e => by
    rw [indexOf] at h
    split at h
    · cases h
    · next hp =>
      cases u with
      | nil => exact hp (List.isPrefixOf_iff_prefix.mpr ⟨v, by rw [e]; rfl⟩)
      | cons d u =>
        rw [List.cons_append, List.cons_append] at e
        injection e with _ e
        exact indexOf_none (Option.map_eq_none_iff.mp h) u v e

theorem aliasStart_eq (text matched : Str) : ∀ all : List Str, aliasStart text matched all = if matched ∈ all then indexOf matched text else none
  | [] => rfl
  | a :: rest => by
    rw [aliasStart]
    by_cases h : a = matched
    · subst h
      rw [if_pos rfl, if_pos List.mem_cons_self, aliasStart_eq text a rest]
      cases indexOf a text with
      | some i => rfl
      | none => dsimp only; split <;> rfl
    · rw [if_neg h, aliasStart_eq text matched rest]
      have : matched ∈ a :: rest ↔ matched ∈ rest := by
        rw [List.mem_cons]
        exact ⟨fun e => e.resolve_left (fun e => h e.symm), Or.inr⟩
      by_cases hm : matched ∈ rest
      · rw [if_pos hm, if_pos (this.mpr hm)]
      · rw [if_neg hm, if_neg (fun e => hm (this.mp e))]

/-- the text of the aliases, cut at one of them -/
theorem aliasText_cut (pre post : List Str) (a : Str) :
    aliasText (pre ++ a :: post) = (" (".toList ++ pre.flatMap (fun x => x ++ ", ".toList)) ++ a ++ (post.flatMap (fun x => ", ".toList ++ x) ++ ")".toList) := by
  have h1 : ∀ (a : Str) (post : List Str), ", ".toList.intercalate (a :: post) = a ++ post.flatMap (fun x => ", ".toList ++ x) := by
    intro a post
    induction post generalizing a with
    | nil => simp [List.intercalate]
    | cons b post ih =>
      have : ", ".toList.intercalate (a :: b :: post) = a ++ ", ".toList ++ ", ".toList.intercalate (b :: post) := by
        simp [List.intercalate]
      rw [this, ih, List.flatMap_cons]
      simp
  have h2 : ", ".toList.intercalate (pre ++ a :: post) = pre.flatMap (fun x => x ++ ", ".toList) ++ ", ".toList.intercalate (a :: post) := by
    induction pre with
    | nil => rfl
    | cons b pre ih =>
      rw [List.cons_append, h1, List.flatMap_cons]
      cases pre with
      | nil => rw [List.nil_append, List.flatMap_cons, h1]; simp
      | cons d pre =>
        rw [List.cons_append, h1] at ih
        rw [List.cons_append, List.flatMap_cons, List.append_assoc, List.append_assoc, ih]
        simp
  rw [aliasText, h2, h1]
  simp

theorem highlightAlias_text (text matched : Str) (all : List Str) : textOf (highlightAlias text matched all) = text := by
  unfold highlightAlias
  cases h : aliasStart text matched all with
  | none => simp [textOf]
  | some i =>
    dsimp only
    rw [textOf_append, textOf_append]
    have hi : textOf (if i > 0 then [(Style.aliases, text.take i)] else []) = text.take i := by
      split
      · simp [textOf]
      · next h => obtain rfl : i = 0 := (by omega); rw [List.take_zero]; rfl
    have hs : textOf (if i + matched.length < text.length then [(Style.aliases, text.drop (i + matched.length))] else []) =
        text.drop (i + matched.length) := by
      split
      · simp [textOf]
      · next h => rw [List.drop_eq_nil_of_le (by omega)]; rfl
    rw [hi, hs]
    have : text.take i = (text.take (i + matched.length)).take i := by rw [List.take_take]; congr 1; omega
    rw [this]
    simp only [textOf, List.flatMap_cons, List.flatMap_nil, List.append_nil]
    rw [List.take_append_drop, List.take_append_drop]

/-- **C69** Without styles an entry is its mark, the name of the task, its aliases and its description. -/
theorem C69_text (m : Match) (selected : Bool) :
    textOf (renderEntry m selected) = entryText m.task selected := by
  unfold entryText
  rw [← shownAliases_eq]
  unfold renderEntry
  dsimp only
  rw [textOf_append, textOf_append, textOf_append, (C69_name _ _ _ _).2]
  congr 1
  · congr 1
    · congr 1
      cases selected <;> rfl
    · by_cases h : shownAliases m.task = []
      · rw [if_neg (by rw [h]; simp), if_pos h]; rfl
      · rw [if_pos (List.length_pos_iff.mpr h), if_neg h]
        split
        · exact highlightAlias_text _ _ _
        · show aliasText _ ++ [] = _
          rw [List.append_nil]; rfl
  · by_cases h : m.task.desc = []
    · rw [if_neg (by rw [h]; simp), if_pos h]; rfl
    · rw [if_pos h, if_neg h]; simp [textOf]

theorem search_alias {find : Str → List Str → List Hit} {query : Str} {tasks : List Task} {x : Match} (hx : x ∈ search find query tasks)
    (hne : x.matchedAlias ≠ []) : x.matchedAlias ∈ shownAliases x.task := by
  unfold search at hx
  split at hx
  · obtain ⟨t, _, rfl⟩ := List.mem_map.mp hx
    exact absurd rfl hne
  · dsimp only at hx
    rw [(sortBy_perm _ _).mem_iff, List.mem_append] at hx
    rcases hx with hx | hx
    · obtain ⟨q, _, hq⟩ := List.mem_filterMap.mp hx
      unfold aliasMatch at hq
      dsimp only at hq
      split at hq
      · cases hq
        dsimp only at hne ⊢
        revert hne
        unfold searchAliases
        dsimp only
        split
        · intro h; exact absurd rfl h
        · split
          · next h => intro _; exact h
          · split
            · next best _ _ =>
              intro h
              dsimp only at h ⊢
              rw [List.getD_eq_getElem?_getD] at h ⊢
              cases hg : (shownAliases q.1)[best.index]? with
              | none => rw [hg] at h; exact absurd rfl h
              | some a => exact List.mem_of_getElem? hg
            · intro h; exact absurd rfl h
      · cases hq
    · obtain ⟨q, _, hq⟩ := List.mem_filterMap.mp hx
      unfold nameMatch at hq
      split at hq
      · cases hq
      · obtain ⟨h, _, rfl⟩ := Option.map_eq_some_iff.mp hq
        exact absurd rfl hne

theorem marks_of_alias {text matched : Str} {all : List Str} {i : Nat} (hm : matched ∈ all) (hi : indexOf matched text = some i) :
    highlightAlias text matched all = (if i > 0 then [(Style.aliases, text.take i)] else []) ++ [(.aliasFound, matched)] ++
      (if i + matched.length < text.length then [(.aliases, text.drop (i + matched.length))] else []) := by
  unfold highlightAlias
  rw [aliasStart_eq, if_pos hm, hi]
  dsimp only
  congr 3
  obtain ⟨⟨v, hv⟩, hle, _⟩ := indexOf_some hi
  congr 1
  have hl : (text.take i).length = i := by rw [List.length_take]; omega
  generalize text.take i = w at hv hl
  subst hv hl
  rw [← List.length_append, List.take_left, List.drop_left]

/-- **C69** Among the aliases, what is marked is the alias through which the task was found, once, and nothing if it was
found by its name. -/
theorem C69_alias_marked {find : Str → List Str → List Hit} {query : Str} {tasks : List Task} {x : Match} (hx : x ∈ search find query tasks)
    (selected : Bool) :
    (renderEntry x selected).filterMap (fun p => if p.1 = .aliasFound then some p.2 else none) =
      if x.matchedAlias = [] then [] else [x.matchedAlias] := by
  have hname : ∀ (text : Str) (pos : List Nat) (base : Style), base ≠ .aliasFound →
      (highlight text pos base .found).filterMap (fun p => if p.1 = .aliasFound then some p.2 else none) = [] := by
    intro text pos base hb
    have loop : ∀ (t : Str) (off : Nat) (first prev : Bool) (run : Str),
        (hlLoop pos base .found off first prev run t).filterMap (fun p => if p.1 = .aliasFound then some p.2 else none) = [] := by
      intro t
      induction t with
      | nil =>
        intro off first prev run
        rw [hlLoop]
        split
        · cases prev <;> simp [hb]
        · rfl
      | cons c t ih =>
        intro off first prev run
        rw [hlLoop, List.filterMap_append, ih, List.append_nil]
        split
        · cases prev <;> simp [hb]
        · rfl
    unfold highlight
    split
    · simp [hb]
    · exact loop _ _ _ _ _
  unfold renderEntry
  dsimp only
  rw [List.filterMap_append, List.filterMap_append, List.filterMap_append, hname _ _ _ (by cases selected <;> simp)]
  have h1 : List.filterMap (fun p : Style × Str => if p.1 = .aliasFound then some p.2 else none)
      (if selected = true then [(Style.indicator, "│ ".toList)] else [(.plain, "  ".toList)]) = [] := by cases selected <;> rfl
  have h3 : List.filterMap (fun p : Style × Str => if p.1 = .aliasFound then some p.2 else none)
      (if x.task.desc ≠ [] then [(.plain, "  ".toList), (.desc, x.task.desc)] else []) = [] := by split <;> rfl
  rw [h1, h3, List.append_nil, List.nil_append, List.nil_append]
  by_cases hne : x.matchedAlias = []
  · rw [if_pos hne]
    split
    · rw [if_neg (by rw [hne]; simp)]; rfl
    · rfl
  · have hm := search_alias hx hne
    rw [if_neg hne, if_pos (List.length_pos_iff.mpr (List.ne_nil_of_mem hm)), if_pos hne]
    obtain ⟨pre, post, e⟩ := List.append_of_mem hm
    cases hi : indexOf x.matchedAlias (aliasText (shownAliases x.task)) with
    | none => exact absurd (by rw [e]; exact aliasText_cut pre post _) (indexOf_none hi _ _)
    | some i =>
      rw [marks_of_alias hm hi, List.filterMap_append, List.filterMap_append]
      have g1 : List.filterMap (fun p : Style × Str => if p.1 = .aliasFound then some p.2 else none)
        (if i > 0 then [(Style.aliases, (aliasText (shownAliases x.task)).take i)] else []) = [] := by split <;> rfl
      have g2 : List.filterMap (fun p : Style × Str => if p.1 = .aliasFound then some p.2 else none)
        (if i + x.matchedAlias.length < (aliasText (shownAliases x.task)).length then
          [(Style.aliases, (aliasText (shownAliases x.task)).drop (i + x.matchedAlias.length))] else []) = [] := by split <;> rfl
      rw [g1, g2]
      rfl

/-- **C69** The place that is marked is that of the alias, provided that the alias is not part of what is written before it.
Missing: aliases that are part of an earlier one, see `C69_wrong_alias`. -/
theorem C69_alias_place_partial (pre post : List Str) (a : Str)
    (hfirst : ∀ k < (" (".toList ++ pre.flatMap (fun x => x ++ ", ".toList)).length, ¬ a <+: (aliasText (pre ++ a :: post)).drop k) :
    highlightAlias (aliasText (pre ++ a :: post)) a (pre ++ a :: post) =
      [(.aliases, " (".toList ++ pre.flatMap (fun x => x ++ ", ".toList)), (.aliasFound, a),
       (.aliases, post.flatMap (fun x => ", ".toList ++ x) ++ ")".toList)] := by
  have hm : a ∈ pre ++ a :: post := by simp
  have hcut := aliasText_cut pre post a
  cases hi : indexOf a (aliasText (pre ++ a :: post)) with
  | none => exact absurd hcut (indexOf_none hi _ _)
  | some i =>
    obtain ⟨⟨v, hv⟩, hle, hmin⟩ := indexOf_some hi
    have h1 := hmin _ _ hcut
    have h2 : (" (".toList ++ pre.flatMap (fun x => x ++ ", ".toList)).length ≤ i := by
      refine Nat.le_of_not_lt fun hlt => hfirst i hlt ⟨v, ?_⟩
      have hd := congrArg (List.drop i) hv
      have hl : ((aliasText (pre ++ a :: post)).take i).length = i := by rw [List.length_take]; omega
      rw [List.append_assoc, List.drop_left' hl] at hd
      exact hd.symm
    have hpos : 0 < (" (".toList ++ pre.flatMap (fun x => x ++ ", ".toList)).length := by simp
    have hend : 0 < (post.flatMap (fun x => ", ".toList ++ x) ++ ")".toList).length := by simp
    rw [marks_of_alias hm hi]
    generalize " (".toList ++ pre.flatMap (fun x => x ++ ", ".toList) = before at *
    generalize post.flatMap (fun x => ", ".toList ++ x) ++ ")".toList = after at *
    obtain rfl : i = before.length := by omega
    rw [hcut, if_pos hpos, if_pos (by simp only [List.length_append]; omega), List.append_assoc before a after, List.take_left, ← List.append_assoc,
      ← List.length_append, List.drop_left]
    rfl

theorem range_filterMap {α β : Type} (l : List α) (f : α → Nat → β) (o : Nat) : ∀ n : Nat,
    (List.range n).filterMap (fun k => (l[o + k]?).map (fun h => f h (o + k))) = ((l.zipIdx.drop o).take n).map (fun q => f q.1 q.2)
  | 0 => rfl
  | n + 1 => by
    rw [List.range_succ, List.filterMap_append, range_filterMap l f o n, List.take_add_one, List.map_append, List.getElem?_drop,
      List.getElem?_zipIdx]
    cases h : l[o + n]? <;> simp [h]

/-- **C69** What is below the separator: a note if nothing was found, otherwise as many of the results as fit, from the
offset on, each as the text of its task, the one under the cursor marked. -/
theorem C69_rows (find : Str → List Str → List Hit) (tasks : TaskMap) (msgs : List Msg) :
    let m := run find tasks msgs
    m.body.map textOf =
      if search find m.input m.tasks = [] then ["  No matching tasks :(".toList]
      else ((search find m.input m.tasks).zipIdx.drop m.offset.toNat |>.take m.visibleLines.toNat).map
        (fun q => entryText q.1.task (decide ((q.2 : Int) = m.cursor))) := by
  intro m
  have hinv := inv_run find tasks msgs
  have hhits : m.hits = search find m.input m.tasks := hinv.hits
  have hoff : 0 ≤ m.offset := hinv.off
  have hlow : m.offset ≤ m.cursor := hinv.low
  have hrange : m.cursor < max 1 (m.hits.length : Int) := hinv.range
  rw [← hhits]
  unfold Model.body
  by_cases hz : m.hits = []
  · rw [if_pos hz, if_pos (by rw [hz]; rfl)]
    simp [textOf]
  · have hp := List.length_pos_iff.mpr hz
    rw [if_neg hz, if_neg (by omega)]
    dsimp only
    obtain ⟨o, ho⟩ := Int.eq_ofNat_of_zero_le hoff
    rw [ho] at *
    have e' : ∀ k : Nat, (o : Int) + k = ((o + k : Nat) : Int) := by intro k; omega
    simp only [e', Int.toNat_natCast]
    rw [range_filterMap m.hits (fun h i => renderEntry h (decide ((i : Int) = m.cursor))), List.map_map]
    have hv := visible_pos m
    have ht : (min ((o : Int) + m.visibleLines) m.hits.length - o).toNat = min m.visibleLines.toNat (m.hits.zipIdx.drop o).length := by
      rw [List.length_drop, List.length_zipIdx]; omega
    rw [ht, ← List.take_eq_take_min]
    refine List.map_congr_left fun q _ => ?_
    exact C69_text _ _

/-- **C69** The screen is not higher than the window. -/
theorem C69_fits (field : List (Style × Str)) (width : Int) (m : Model) (h : 5 ≤ m.height) : ((m.view field width).length : Int) < m.height := by
  have hv : m.visibleLines = max 1 (m.height - 4) := rfl
  unfold Model.view
  split
  · simp; omega
  · rw [List.length_append]
    have : (m.body.length : Int) ≤ m.visibleLines := by
      unfold Model.body
      split
      · simp; omega
      · refine Int.le_trans (Int.ofNat_le.mpr (List.length_filterMap_le _ _)) ?_
        rw [List.length_range]
        omega
    simp only [List.length_cons, List.length_nil]
    omega

/-- **C69** The separator fills the width of the window and says how many of how many tasks are left. -/
theorem C69_separator (width : Int) (found total : Nat) :
    (∃ before after, textOf (separator width found total) = before ++ (" ".toList ++ found.repr.toList ++ "/".toList ++ total.repr.toList ++ " ".toList) ++ after ∧
      ∀ c ∈ before ++ after, c ∈ "─ bab.sh".toList) ∧
    (15 + (found.repr.toList.length : Int) + total.repr.toList.length ≤ width → ((textOf (separator width found total)).length : Int) = width) := by
  have hb : " bab.sh ".toList.length = 8 := by decide
  have hs : " ".toList.length = 1 := by decide
  have hs' : "/".toList.length = 1 := by decide
  have hd : "──".toList.length = 2 := by decide
  unfold separator
  simp only [textOf, List.flatMap_cons, List.flatMap_nil, List.append_nil, List.length_append, hb, hs, hs', hd, List.length_replicate]
  refine ⟨⟨_, "──".toList ++ (" bab.sh ".toList ++ "──".toList), (List.append_assoc _ _ _).symm, ?_⟩, ?_⟩
  · intro c hc
    rw [List.mem_append] at hc
    rcases hc with hc | hc
    · rw [(List.mem_replicate.mp hc).2]; decide
    · revert c; decide
  · intro h
    omega

namespace Sample

/-- a matcher that finds nothing but what is written in the same way -/
def find : Str → List Str → List Hit := fun q l => (l.zipIdx.filter (fun x => hasPrefix x.1 q)).map (fun x => ⟨x.2, List.range q.length, 5⟩)

def compile : Task := { name := "compile".toList, desc := "all".toList, aliases := ["build".toList, "b".toList] }

def pressed : Model := run find [("compile".toList, compile), ("bench".toList, { name := "bench".toList })] [.size 10, .other "b".toList]

/-- **C69, counterexample** An alias that is part of an earlier one is marked there: after `b` has been typed, the task
`compile` with the aliases `build` and `b` is found through `b`, but what is marked is the first letter of `build`. -/
theorem C69_wrong_alias :
    pressed.body =
      [[(.indicator, "│ ".toList), (.nameSelected, "compile".toList), (.aliases, " (".toList), (.aliasFound, "b".toList), (.aliases, "uild, b)".toList),
        (.plain, "  ".toList), (.desc, "all".toList)],
       [(.plain, "  ".toList), (.found, "b".toList), (.name, "ench".toList)]] := by decide +kernel

/-- the alias `build` is marked where it is -/
example : highlightAlias (aliasText ["b".toList, "build".toList]) "build".toList ["b".toList, "build".toList] =
    [(.aliases, " (b, ".toList), (.aliasFound, "build".toList), (.aliases, ")".toList)] :=
  C69_alias_place_partial ["b".toList] [] "build".toList (by decide +kernel)

/-- the sample is found through its alias -/
example : ((search find "b".toList [compile]).map (·.matchedAlias)) = ["b".toList] := by decide +kernel

/-- the positions are those of bytes: `é` takes two of them -/
example : highlight "bébé".toList [0, 3] .name .found = [(.found, "b".toList), (.name, "é".toList), (.found, "b".toList), (.name, "é".toList)] := by
  decide +kernel

/-- the screen of the sample: five rows, the count in the second of them -/
example : (pressed.view [] 30).map textOf =
    ["".toList, "".toList, "───────────── 2/2 ── bab.sh ──".toList, "│ compile (build, b)  all".toList, "  bench".toList] := by decide +kernel

end Sample

end Bab.Picker
