import Verif.Proof.Fuzzy
import Verif.Props.Entry
/-
C101: typing letters of a name narrows the list of tasks to those that contain them. C102: typing a name in full.
-/

namespace Bab.Picker
open Bab Spec Fuzzy

variable {u : Letters} {order : List Hit → List Hit}

/-- what the matcher gives -/
theorem find_mem (ho : ∀ l, (order l).Perm l) {query : Str} (h0 : query ≠ []) {texts : List Str} {h : Hit} :
    h ∈ Fuzzy.find u order query texts ↔ ∃ t i, texts[i]? = some t ∧ matchOne u query i t = some (some h) := by
  unfold Fuzzy.find
  rw [if_neg h0, (ho _).mem_iff, List.mem_filterMap]
  constructor
  · rintro ⟨⟨t, i⟩, hm, hh⟩
    refine ⟨t, i, List.mk_mem_zipIdx_iff_getElem?.mp hm, ?_⟩
    dsimp only at hh
    cases hr : matchOne u query i t with
    | none => rw [hr] at hh; cases hh
    | some r => rw [hr] at hh; rw [show r = some h from hh]
  · rintro ⟨t, i, hm, hh⟩
    exact ⟨(t, i), List.mk_mem_zipIdx_iff_getElem?.mpr hm, by dsimp only; rw [hh]; rfl⟩

theorem matchOne_index (hu : LettersOK u) {query : Str} (h0 : query ≠ []) {t : Str} (ht : nul ∉ t) {i : Nat} {h : Hit}
    (hm : matchOne u query i t = some (some h)) : h.index = i ∧ Within u query t ∧ Spells u t h.positions query := by
  obtain ⟨r, h1, h2, h3⟩ := matchOne_spec hu h0 ht i
  rw [hm] at h1
  obtain rfl := Option.some.inj h1
  exact ⟨(h3 h rfl).1, h2.mp rfl, (h3 h rfl).2⟩

/-- the matcher finds the texts that contain the query -/
theorem finds_iff (hu : LettersOK u) (ho : ∀ l, (order l).Perm l) {query : Str} (h0 : query ≠ []) {texts : List Str}
    (ht : ∀ t ∈ texts, nul ∉ t) {i : Nat} {t : Str} (hi : texts[i]? = some t) :
    Finds (Fuzzy.find u order) query texts i ↔ Within u query t := by
  constructor
  · rintro ⟨h, hm, rfl⟩
    obtain ⟨t', j, hj, hm⟩ := (find_mem ho h0).mp hm
    obtain ⟨e, hw, -⟩ := matchOne_index hu h0 (ht t' (List.mem_of_getElem? hj)) hm
    rw [← e, hi] at hj
    cases hj
    exact hw
  · intro hw
    obtain ⟨r, h1, h2, h3⟩ := matchOne_spec hu h0 (ht t (List.mem_of_getElem? hi)) i
    obtain ⟨h, rfl⟩ := Option.isSome_iff_exists.mp (h2.mpr hw)
    exact ⟨h, (find_mem ho h0).mpr ⟨t, i, hi, h1⟩, (h3 h rfl).1⟩

theorem within_refl (hu : LettersOK u) : ∀ q : Str, Within u q q
  | [] => .nil _
  | c :: q => .take (hu.refl c) (within_refl hu q)

theorem byAlias_within (hu : LettersOK u) (ho : ∀ l, (order l).Perm l) {query : Str} (h0 : query ≠ []) {t : Task}
    (ht : ∀ a ∈ (if t.alias = [] then [] else [t.alias]) ++ t.aliases, nul ∉ a) :
    ByAlias (Fuzzy.find u order) query t ↔ ∃ a ∈ (if t.alias = [] then [] else [t.alias]) ++ t.aliases, Within u query a := by
  unfold ByAlias
  dsimp only
  generalize (if t.alias = [] then [] else [t.alias]) ++ t.aliases = as at ht ⊢
  constructor
  · rintro (h | ⟨best, rest, hf, -, a, ha, -⟩)
    · exact ⟨query, h, within_refl hu query⟩
    · exact ⟨a, List.mem_of_getElem? ha, (finds_iff hu ho h0 ht ha).mp ⟨best, by rw [hf]; simp, rfl⟩⟩
  · rintro ⟨a, ha, hw⟩
    obtain ⟨i, hi⟩ := List.getElem?_of_mem ha
    obtain ⟨h, hh, -⟩ := (finds_iff hu ho h0 ht hi).mpr hw
    right
    cases hf : Fuzzy.find u order query as with
    | nil => rw [hf] at hh; cases hh
    | cons best rest =>
      refine ⟨best, rest, rfl, (by rintro rfl; cases ha), ?_⟩
      obtain ⟨b, j, hj, hm⟩ := (find_mem (u := u) (h := best) (texts := as) ho h0).mp (by rw [hf]; simp)
      obtain ⟨e, hw', -⟩ := matchOne_index hu h0 (ht b (List.mem_of_getElem? hj)) hm
      refine ⟨b, by rw [e]; exact hj, ?_⟩
      rintro rfl
      exact h0 (within_nil_iff.mp hw')

/-- **C101** Shown are exactly the tasks whose name, or one of whose aliases, contains what is typed: its letters in this order,
with others between them perhaps, in upper or lower case. -/
theorem C101_listed (hu : LettersOK u) (ho : ∀ l, (order l).Perm l) {tasks : List Task} (hnd : (tasks.map (·.name)).Nodup) (hp : Plain tasks)
    (query : Str) {t : Task} (ht : t ∈ tasks) : (∃ x ∈ search (Fuzzy.find u order) query tasks, x.task = t) ↔ Answers u query t := by
  obtain ⟨i, hi⟩ := List.getElem?_of_mem ht
  rw [C55_search _ query tasks hnd hi]
  by_cases h0 : query = []
  · subst h0
    exact ⟨fun _ => .inl (.nil _), fun _ => .inl rfl⟩
  · have hi' : (tasks.map (·.name))[i]? = some t.name := by rw [List.getElem?_map, hi]; rfl
    rw [byAlias_within hu ho h0 (hp t ht).2,
      finds_iff hu ho h0 (fun n hn => by obtain ⟨t', h1, rfl⟩ := List.mem_map.mp hn; exact (hp t' h1).1) hi']
    unfold Answers
    simp only [h0, false_or]
    exact Or.comm

/-- **C101** The matcher does not index behind the end of the query. -/
theorem C101_no_panic (hu : LettersOK u) {tasks : List Task} (hp : Plain tasks) (query : Str) :
    ¬ Panics u query (tasks.map (·.name)) ∧ ∀ t ∈ tasks, ¬ Panics u query ((if t.alias = [] then [] else [t.alias]) ++ t.aliases) := by
  have key : ∀ texts : List Str, (∀ t ∈ texts, nul ∉ t) → ¬ Panics u query texts := by
    rintro texts h ⟨h0, t, ht, i, hm⟩
    obtain ⟨r, h1, -⟩ := matchOne_spec hu h0 (h t ht) i
    rw [hm] at h1; cases h1
  exact ⟨key _ (fun n hn => by obtain ⟨t', h1, rfl⟩ := List.mem_map.mp hn; exact (hp t' h1).1), fun t ht => key _ (hp t ht).2⟩

theorem within_sublist {q q' t : Str} (h : Within u q t) (hs : q'.Sublist q) : Within u q' t := by
  induction h generalizing q' with
  | nil t => rw [List.sublist_nil.mp hs]; exact .nil _
  | @take a c q t h hr ih =>
    cases hs with
    | cons _ hs => exact .skip (ih hs)
    | cons_cons _ hs => exact .take h (ih hs)
  | skip hr ih => exact .skip (ih hs)

/-- **C101** Typing more never brings up a task that was not shown before: whatever letters are taken away from what is typed, the
tasks that are shown stay. -/
theorem C101_narrows (hu : LettersOK u) (ho : ∀ l, (order l).Perm l) {tasks : List Task} (hnd : (tasks.map (·.name)).Nodup) (hp : Plain tasks)
    {query shorter : Str} (hs : shorter.Sublist query) {t : Task} (ht : t ∈ tasks) (h : ∃ x ∈ search (Fuzzy.find u order) query tasks, x.task = t) :
    ∃ x ∈ search (Fuzzy.find u order) shorter tasks, x.task = t := by
  rw [C101_listed hu ho hnd hp _ ht] at h ⊢
  rcases h with h | ⟨a, ha, h⟩
  · exact .inl (within_sublist h hs)
  · exact .inr ⟨a, ha, within_sublist h hs⟩

theorem within_part {q m pre post : Str} (h : List.Forall₂ (fun c a => u.same c a = true) m q) : Within u q (pre ++ m ++ post) := by
  induction pre with
  | cons c pre ih => exact .skip ih
  | nil =>
    rw [List.nil_append]
    induction h with
    | nil => exact .nil _
    | cons h _ ih => exact .take h ih

/-- **C101** A task is shown if any part of its name or of an alias is typed, in upper or lower case. -/
theorem C101_part (hu : LettersOK u) (ho : ∀ l, (order l).Perm l) {tasks : List Task} (hnd : (tasks.map (·.name)).Nodup) (hp : Plain tasks)
    {t : Task} (ht : t ∈ tasks) {text pre part post : Str} (htext : text = t.name ∨ text = t.alias ∨ text ∈ t.aliases)
    (he : text = pre ++ part ++ post) {query : Str} (hq : List.Forall₂ (fun c a => u.same c a = true) part query) (h0 : query ≠ []) :
    ∃ x ∈ search (Fuzzy.find u order) query tasks, x.task = t := by
  rw [C101_listed hu ho hnd hp _ ht]
  have hw : Within u query text := by rw [he]; exact within_part hq
  rcases htext with rfl | rfl | h
  · exact .inl hw
  · refine .inr ⟨t.alias, ?_, hw⟩
    rw [if_neg]
    · simp
    · intro e
      rw [e] at hw
      exact h0 (within_nil_iff.mp hw)
  · exact .inr ⟨text, List.mem_append_right _ h, hw⟩

/-- **C101** Enter chooses a task that contains what is typed at that time, after every history of keys, or nothing new. -/
theorem C101_chosen (hu : LettersOK u) (ho : ∀ l, (order l).Perm l) {tasks : TaskMap} (hnd : (tasks.map (·.2.name)).Nodup)
    (hp : Plain (tasks.map (·.2))) (msgs : List Msg) {t : Task}
    (h : (run (Fuzzy.find u order) tasks (msgs ++ [.enter])).selected = some t) (hno : (run (Fuzzy.find u order) tasks msgs).selected = none) :
    Answers u (run (Fuzzy.find u order) tasks msgs).input t := by
  rw [C55_enter] at h
  have hinv := inv_run (Fuzzy.find u order) tasks msgs
  have hperm := sortBy_perm (fun a b : Task => strLe a.name b.name) (tasks.map (·.2))
  generalize run (Fuzzy.find u order) tasks msgs = m at h hno hinv ⊢
  generalize sortBy (fun a b : Task => strLe a.name b.name) (tasks.map (·.2)) = list at hperm hinv
  cases hx : m.hits[m.cursor.toNat]? with
  | none => rw [hx] at h; rw [show m.selected = some t from h] at hno; cases hno
  | some x =>
    rw [hx] at h
    have hm := List.mem_of_getElem? hx
    rw [hinv.hits, hinv.tasks] at hm
    cases h
    refine (C101_listed (order := order) hu ho ?_ (fun t' h' => hp t' (hperm.mem_iff.mp h')) m.input (search_mem hm)).mp ⟨x, hm, rfl⟩
    rw [(hperm.map _).nodup_iff, List.map_map]; exact hnd

/-! ### What is marked -/

theorem marked_skip {m : Nat} {ms : List Nat} {base hl : Style} : ∀ (t : Str) (off : Nat), m < off → marked (m :: ms) base hl off t = marked ms base hl off t := by
  intro t
  induction t with
  | nil => intro off _; rfl
  | cons c t ih =>
    intro off h
    rw [marked, marked, ih _ (by omega)]
    have : (off ∈ m :: ms) ↔ off ∈ ms := by
      rw [List.mem_cons]
      exact ⟨fun h' => h'.resolve_left (by omega), .inr⟩
    simp only [this]

theorem marked_spells {base hl : Style} (hb : base ≠ hl) : ∀ (t : Str) (off : Nat) (positions : List Nat) (query : Str),
    List.Forall₂ (fun m a => ∃ pre c post, t = pre ++ c :: post ∧ off + (pre.map Char.utf8Size).sum = m ∧ u.same c a = true) positions query →
    positions.Pairwise (· < ·) →
    List.Forall₂ (fun c a => u.same c a = true) (((marked positions base hl off t).filter (fun x => x.1 = hl)).map (·.2)) query := by
  intro t
  induction t with
  | nil =>
    intro off positions query h _
    cases h with
    | nil => exact .nil
    | cons h _ =>
      obtain ⟨pre, c, post, he, -⟩ := h
      simp at he
  | cons d t ih =>
    intro off positions query h hs
    have shift : ∀ {ms : List Nat} {q : Str}, List.Forall₂ (fun m a => ∃ pre c post, d :: t = pre ++ c :: post ∧ off + (pre.map Char.utf8Size).sum = m ∧ u.same c a = true) ms q →
        (∀ m ∈ ms, off < m) →
        List.Forall₂ (fun m a => ∃ pre c post, t = pre ++ c :: post ∧ off + d.utf8Size + (pre.map Char.utf8Size).sum = m ∧ u.same c a = true) ms q := by
      intro ms q hf
      induction hf with
      | nil => intro _; exact .nil
      | @cons m a ms q h _ ih' =>
        intro hlt
        refine .cons ?_ (ih' (fun x hx => hlt x (List.mem_cons_of_mem _ hx)))
        obtain ⟨pre, c, post, he, hm, hsame⟩ := h
        have := hlt m (by simp)
        cases pre with
        | nil => simp at hm; omega
        | cons e pre =>
          obtain ⟨hd, he'⟩ := List.cons.inj he
          subst hd
          refine ⟨pre, c, post, he', ?_, hsame⟩
          rw [List.map_cons, List.sum_cons] at hm
          omega
    cases h with
    | nil =>
      have hno : ∀ (t : Str) (off : Nat), (marked [] base hl off t).filter (fun x => x.1 = hl) = [] := by
        intro t
        induction t with
        | nil => intro _; rfl
        | cons c t ih => intro off; rw [marked, List.filter_cons, ih]; simp [hb]
      rw [hno]; exact .nil
    | @cons m a ms q h hf =>
      rw [List.pairwise_cons] at hs
      obtain ⟨pre, c, post, he, hm, hsame⟩ := h
      have hle : off ≤ m := by omega
      by_cases e : m = off
      · subst e
        have hc : d = c := by
          cases pre with
          | nil => exact (List.cons.inj he).1
          | cons x pre =>
            rw [List.map_cons, List.sum_cons] at hm
            have := x.utf8Size_pos
            omega
        subst hc
        rw [marked, if_pos (by simp), marked_skip _ _ (by have := d.utf8Size_pos; omega)]
        rw [List.filter_cons_of_pos (by simp), List.map_cons]
        exact .cons hsame (ih _ _ _ (shift hf hs.1) hs.2)
      · have hlt : ∀ x ∈ m :: ms, off < x := by
          intro x hx
          rcases List.mem_cons.mp hx with rfl | hx
          · omega
          · have := hs.1 x hx; omega
        rw [marked, if_neg (fun h => Nat.lt_irrefl _ (hlt off h)), List.filter_cons_of_neg (by simpa using hb)]
        exact ih _ _ _ (shift (.cons ⟨pre, c, post, he, hm, hsame⟩ hf) hlt) (List.pairwise_cons.mpr hs)

/-- the letters of a name that are marked -/
def markedLetters (text : Str) (positions : List Nat) (base hl : Style) : Str :=
  ((charStyles (highlight text positions base hl)).filter (fun x => x.1 = hl)).map (·.2)

/-- **C101** The letters that are marked in a name, read from left to right, are what is typed. In a task that is shown because of an
alias nothing is marked in the name, unless the name contains it, too. -/
theorem C101_marks (hu : LettersOK u) (ho : ∀ l, (order l).Perm l) {tasks : List Task} (hp : Plain tasks)
    {query : Str} (h0 : query ≠ []) {x : Match} (hx : x ∈ search (Fuzzy.find u order) query tasks) {base hl : Style} (hb : base ≠ hl) :
    (Within u query x.task.name → List.Forall₂ (fun c a => u.same c a = true) (markedLetters x.task.name x.nameIndexes base hl) query) ∧
    (¬ Within u query x.task.name → x.nameIndexes = []) := by
  have hplain : ∀ n ∈ tasks.map (·.name), nul ∉ n := fun n hn => by
    obtain ⟨t', h1, rfl⟩ := List.mem_map.mp hn; exact (hp t' h1).1
  -- the positions are those of the last hit
  have key : ∃ i : Nat, tasks[i]? = some x.task ∧ x.nameIndexes = ((lastHit (Fuzzy.find u order query (tasks.map (·.name))) i).map (·.positions)).getD [] := by
    unfold search at hx
    rw [if_neg h0] at hx
    dsimp only at hx
    rw [(sortBy_perm matchLe _).mem_iff, List.mem_append, List.mem_filterMap, List.mem_filterMap] at hx
    rcases hx with ⟨⟨t, i⟩, hi, hy⟩ | ⟨⟨t, i⟩, hi, hy⟩
    · dsimp only at hy
      have e := aliasMatch_task hy
      refine ⟨i, by rw [e]; exact mem_zipIdx_get hi, ?_⟩
      unfold aliasMatch at hy
      dsimp only at hy
      split at hy
      · obtain rfl := Option.some.inj hy; rfl
      · cases hy
    · dsimp only at hy
      obtain ⟨e, -⟩ := nameMatch_task hy
      refine ⟨i, by rw [e]; exact mem_zipIdx_get hi, ?_⟩
      unfold nameMatch at hy
      split at hy
      · cases hy
      · obtain ⟨h, hh, rfl⟩ := Option.map_eq_some_iff.mp hy
        rw [hh]; rfl
  obtain ⟨i, hi, hn⟩ := key
  have hi' : (tasks.map (·.name))[i]? = some x.task.name := by rw [List.getElem?_map, hi]; rfl
  have hf := finds_iff (u := u) (order := order) hu ho h0 hplain hi'
  constructor
  · intro hw
    obtain ⟨h, hh⟩ := (lastHit_some _ i).mpr (hf.mpr hw)
    rw [hn, hh]
    unfold lastHit at hh
    have hm := List.mem_of_getLast? hh
    rw [List.mem_filter, decide_eq_true_eq] at hm
    obtain ⟨t', j, hj, hmo⟩ := (find_mem ho h0).mp hm.1
    obtain ⟨e, -, hs1, hs2⟩ := matchOne_index hu h0 (hplain t' (List.mem_of_getElem? hj)) hmo
    have ej : j = i := by rw [← e, hm.2]
    rw [ej, hi'] at hj
    cases hj
    show List.Forall₂ _ (markedLetters x.task.name h.positions base hl) query
    unfold markedLetters
    rw [(C69_name _ _ _ _).1]
    refine marked_spells hb _ _ _ _ (hs1.imp ?_) hs2
    rintro m a ⟨pre, c, post, g1, g2, g3⟩
    exact ⟨pre, c, post, g1, by omega, g3⟩
  · intro hw
    cases hl : lastHit (Fuzzy.find u order query (tasks.map (·.name))) i with
    | none => rw [hn, hl]; rfl
    | some h => exact absurd (hf.mp ((lastHit_some _ i).mp ⟨h, hl⟩)) hw

/-! ### C102: typing a name in full -/

/-- what is chosen after something was typed -/
theorem typed_enter (find : Str → List Str → List Hit) (tasks : TaskMap) {query : Str} (h0 : query ≠ []) :
    (run find tasks [.other query, .enter]).selected =
      ((search find query (sortBy (fun a b => strLe a.name b.name) (tasks.map (·.2)))).head?).map (·.task) := by
  have hr : run find tasks [.other query, .enter] = ((new find tasks).update find (.other query)).update find .enter := rfl
  rw [hr]
  have hin : (new find tasks).input = [] := rfl
  have h1 : (new find tasks).update find (.other query) = { new find tasks with input := query }.updateMatches find := by
    show (if query ≠ (new find tasks).input then _ else _) = _
    rw [hin, if_pos h0]
  rw [h1]
  show (if (0 : Int) < ((search find query (sortBy (fun a b => strLe a.name b.name) (tasks.map (·.2)))).length : Int) then _ else none) = _
  show (if (0 : Int) < ((search find query (sortBy (fun a b => strLe a.name b.name) (tasks.map (·.2)))).length : Int) then
    ((search find query (sortBy (fun a b => strLe a.name b.name) (tasks.map (·.2))))[0]?).map (·.task) else none) = _
  cases search find query (sortBy (fun a b => strLe a.name b.name) (tasks.map (·.2))) with
  | nil => rfl
  | cons x l => rw [if_pos (by simp)]; rfl

/-- **C102** If something is typed that only one task contains in its name or an alias, enter chooses this task. In particular if its
name is typed. Missing: other tasks that contain the name, see `C102_name_beaten`, `C102_name_below_alias`. -/
theorem C102_only_partial (hu : LettersOK u) (ho : ∀ l, (order l).Perm l) {tasks : TaskMap} (hnd : (tasks.map (·.2.name)).Nodup)
    (hp : Plain (tasks.map (·.2))) {query : Str} (h0 : query ≠ []) {t : Task} (ht : t ∈ tasks.map (·.2)) (ha : Answers u query t)
    (hno : ∀ t' ∈ tasks.map (·.2), Answers u query t' → t' = t) :
    (run (Fuzzy.find u order) tasks [.other query, .enter]).selected = some t := by
  rw [typed_enter _ _ h0]
  have hperm := sortBy_perm (fun a b : Task => strLe a.name b.name) (tasks.map (·.2))
  generalize sortBy (fun a b : Task => strLe a.name b.name) (tasks.map (·.2)) = list at hperm ⊢
  have hnd' : (list.map (·.name)).Nodup := by
    rw [(hperm.map _).nodup_iff, List.map_map]; exact hnd
  have hp' : Plain list := fun t' h' => hp t' (hperm.mem_iff.mp h')
  obtain ⟨x, hx, -⟩ := (C101_listed (order := order) hu ho hnd' hp' query (hperm.mem_iff.mpr ht)).mpr ha
  cases hs : search (Fuzzy.find u order) query list with
  | nil => rw [hs] at hx; cases hx
  | cons y l =>
    rw [List.head?_cons, Option.map_some]
    have hy : y ∈ search (Fuzzy.find u order) query list := by rw [hs]; simp
    have hyl : y.task ∈ list := (search_mem hy)
    have := (C101_listed (order := order) hu ho hnd' hp' query hyl).mp ⟨y, hy, rfl⟩
    rw [hno _ (hperm.mem_iff.mp hyl) this]

/-- **C102** If an alias of up to six characters is typed in full, enter chooses the task that has it, whatever else fits.
Missing: longer aliases, see `C102_alias_beaten`. -/
theorem C102_alias_partial (hu : LettersOK u) (ho : ∀ l, (order l).Perm l) {tasks : TaskMap} (hnd : (tasks.map (·.2.name)).Nodup)
    (hp : Plain (tasks.map (·.2))) {query : Str} (h0 : query ≠ []) (h6 : query.length ≤ 6) {t : Task} (ht : t ∈ tasks.map (·.2))
    (ha : query ∈ (if t.alias = [] then [] else [t.alias]) ++ t.aliases)
    (hno : ∀ t' ∈ tasks.map (·.2), query ∈ (if t'.alias = [] then [] else [t'.alias]) ++ t'.aliases → t' = t) :
    (run (Fuzzy.find u order) tasks [.other query, .enter]).selected = some t := by
  rw [typed_enter _ _ h0]
  have hperm := sortBy_perm (fun a b : Task => strLe a.name b.name) (tasks.map (·.2))
  generalize sortBy (fun a b : Task => strLe a.name b.name) (tasks.map (·.2)) = list at hperm ⊢
  have hnd' : (list.map (·.name)).Nodup := by
    rw [(hperm.map _).nodup_iff, List.map_map]; exact hnd
  have hp' : Plain list := fun t' h' => hp t' (hperm.mem_iff.mp h')
  obtain ⟨x, hx, hxt⟩ := (C101_listed (order := order) hu ho hnd' hp' query (hperm.mem_iff.mpr ht)).mpr (.inr ⟨query, ha, within_refl hu query⟩)
  have hsmall : ∀ texts, ∀ h ∈ Fuzzy.find u order query texts, h.score < 1000 ∧ h.positions.length < 500 := by
    intro texts h hh
    obtain ⟨t', i, -, hm⟩ := (find_mem ho h0).mp hh
    exact matchOne_small h6 hm
  obtain ⟨pre, post, hs⟩ := List.append_of_mem hx
  cases pre with
  | nil => rw [hs]; exact congrArg some hxt
  | cons y pre =>
    have hy := C55_exact_alias_first _ query list hnd' h0 hsmall _ post x hs (by rw [hxt]; exact ha) y (by simp)
    have hyl : y.task ∈ list := search_mem (find := Fuzzy.find u order) (q := query) (by rw [hs]; simp)
    rw [hs]
    exact congrArg some (hno _ (hperm.mem_iff.mp hyl) hy)

/-! Cases: letters of ASCII. -/

namespace Fuzzy.Sample

/-- ASCII letters -/
def ascii : Letters where
  same a b := a == b || (a.isAlpha && b.isAlpha && a.toLower == b.toLower)
  lower c := c.isLower
  upper c := c.isUpper

def ident : List Hit → List Hit := id

def task (n : String) (as : List String := []) : Str × Task := (n.toList, { name := n.toList, aliases := as.map String.toList })

end Fuzzy.Sample

open Fuzzy.Sample

/-- **C102, counterexample** The tasks `db` and `docs-build`: typing `db` and pressing enter runs `docs-build`, because letters after
a separator count more. -/
theorem C102_name_beaten :
    ((run (Fuzzy.find ascii ident) [task "db", task "docs-build"] [.other "db".toList, .enter]).selected.map (·.name)) = some "docs-build".toList := by
  decide +kernel

/-- **C102, counterexample** The task `ci`, and another one with the alias `cli`: typing `ci` runs the other one, because every alias
that contains what is typed comes before names. -/
theorem C102_name_below_alias :
    ((run (Fuzzy.find ascii ident) [task "ci", task "build" ["cli"]] [.other "ci".toList, .enter]).selected.map (·.name)) = some "build".toList := by
  decide +kernel

/-- **C102, counterexample** The alias `release` typed in full: if there is a task `release-notes`, that one runs, though an alias
that is typed in full ought to come first. -/
theorem C102_alias_beaten :
    ((run (Fuzzy.find ascii ident) [task "publish" ["release"], task "release-notes"] [.other "release".toList, .enter]).selected.map (·.name)) =
      some "release-notes".toList := by
  decide +kernel

/-- An alias that contains the rune 0 makes the matcher index behind the end of the query: the picker panics. -/
theorem C101_zero_panics : Panics ascii "a".toList [['a', nul, 'b']] :=
  ⟨by decide, _, List.mem_singleton_self _, 0, by decide +kernel⟩

/-- what the theorems ask of the comparison of letters holds for ASCII -/
theorem ascii_ok : LettersOK ascii where
  refl c := by simp [ascii]
  symm a b h := by
    simp only [ascii, Bool.or_eq_true, Bool.and_eq_true, beq_iff_eq] at h ⊢
    rcases h with h | ⟨⟨h1, h2⟩, h3⟩
    · exact .inl h.symm
    · exact .inr ⟨⟨h2, h1⟩, h3.symm⟩
  zero c h := by
    simp only [ascii, Bool.or_eq_true, Bool.and_eq_true, beq_iff_eq] at h
    rcases h with h | ⟨⟨h1, -⟩, -⟩
    · exact h.symm
    · exact absurd h1 (by decide)

/-- three tasks: `tk` leaves two of them, in one because of an alias; the letters are found in upper case, too -/
example : let tasks := [task "Test-Kit", task "build" ["take"], task "lint"].map (·.2)
    (tasks.map (·.name)).Nodup ∧ (∀ t ∈ tasks, nul ∉ t.name ∧ ∀ a ∈ t.aliases, nul ∉ a) ∧
    (search (Fuzzy.find ascii ident) "tk".toList tasks).map (fun x => (x.task.name, x.nameIndexes, x.matchedAlias)) =
      [("build".toList, [], "take".toList), ("Test-Kit".toList, [0, 5], [])] := by
  decide +kernel

/-- what is typed is in `Test-Kit`, and only there -/
example : Answers ascii "tkit".toList (task "Test-Kit").2 ∧ ¬ Answers ascii "tkit".toList (task "lint").2 ∧
    (run (Fuzzy.find ascii ident) [task "lint", task "Test-Kit"] [.other "tkit".toList, .enter]).selected = some (task "Test-Kit").2 := by
  have hp : Plain ([task "lint", task "Test-Kit"].map (·.2)) := by
    have : ∀ t ∈ [task "lint", task "Test-Kit"].map (·.2), nul ∉ t.name ∧ ∀ a ∈ (if t.alias = [] then [] else [t.alias]) ++ t.aliases, nul ∉ a := by decide +kernel
    exact this
  have yes : Answers ascii "tkit".toList (task "Test-Kit").2 := by
    left
    show Within ascii ['t', 'k', 'i', 't'] ['T', 'e', 's', 't', '-', 'K', 'i', 't']
    exact .take (by decide) (.skip (.skip (.skip (.skip (.take (by decide) (.take (by decide) (.take (by decide) (.nil _))))))))
  have no : ¬ Answers ascii "tkit".toList (task "lint").2 := by
    rintro (h | ⟨a, ha, -⟩)
    · obtain ⟨r, h1, h2, -⟩ := matchOne_spec (query := "tkit".toList) (text := "lint".toList) ascii_ok (by decide +kernel) (by decide +kernel) 0
      have h3 : (matchOne ascii "tkit".toList 0 "lint".toList).any (·.isNone) = true := by decide +kernel
      rw [h1] at h3
      have h4 := h2.mpr h
      cases r with
      | none => cases h4
      | some _ => cases h3
    · exact nomatch ha
  refine ⟨yes, no, C102_only_partial ascii_ok (fun _ => .refl _) (by decide +kernel) hp (by decide) (by simp) yes ?_⟩
  intro t' ht' h
  simp only [List.map_cons, List.map_nil, List.mem_cons, List.not_mem_nil, or_false] at ht'
  rcases ht' with rfl | rfl
  · exact absurd h no
  · rfl

/-- an alias of two letters, and a task whose name contains them after separators -/
example : (run (Fuzzy.find ascii ident) [task "docs-build", task "database" ["db"]] [.other "db".toList, .enter]).selected = some (task "database" ["db"]).2 := by
  refine C102_alias_partial ascii_ok (fun _ => .refl _) (by decide +kernel) ?_ (by decide) (by decide +kernel) (by simp) (by decide +kernel) ?_
  · have : ∀ t ∈ [task "docs-build", task "database" ["db"]].map (·.2), nul ∉ t.name ∧ ∀ a ∈ (if t.alias = [] then [] else [t.alias]) ++ t.aliases, nul ∉ a := by
      decide +kernel
    exact this
  · intro t' ht' h
    simp only [List.map_cons, List.map_nil, List.mem_cons, List.not_mem_nil, or_false] at ht'
    rcases ht' with rfl | rfl
    · exact absurd h (by decide +kernel)
    · rfl

end Bab.Picker
