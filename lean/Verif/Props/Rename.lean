import Verif.Proof.RenameRun
import Verif.Props.Transparent
/-
Property C111: tasks can be renamed.
-/

namespace Bab
open Spec Cli

/-! ### Files with other names of tasks -/

section
variable {g : Str → Str} (hg : ∀ a b, g a = g b → a = b)

theorem renameTasks_get (t : TaskMap) (n : Str) (hg : ∀ a b, g a = g b → a = b) :
    (renameTasks g t).get? (g n) = (t.get? n).map (renameTask g) := by
  induction t with
  | nil => rfl
  | cons q t ih =>
    obtain ⟨k, T⟩ := q
    show GoMap.get? ((g k, renameTask g T) :: renameTasks g t) (g n) = _
    rw [show GoMap.get? ((g k, renameTask g T) :: renameTasks g t) (g n) = if g k = g n then some (renameTask g T) else (renameTasks g t).get? (g n) from rfl,
      show GoMap.get? ((k, T) :: t) n = if k = n then some T else GoMap.get? t n from rfl, ih]
    by_cases h : k = n
    · rw [if_pos h, if_pos (by rw [h])]; rfl
    · rw [if_neg h, if_neg (fun e => h (hg _ _ e))]

theorem renameTasks_some {t : TaskMap} {n' : Str} {T' : Task} (hg : ∀ a b, g a = g b → a = b)
    (h : (renameTasks g t).get? n' = some T') : ∃ n T, n' = g n ∧ t.get? n = some T ∧ T' = renameTask g T := by
  have : ∃ n, n' = g n := by
    have := GoMap.mem_of_get? h
    obtain ⟨q, -, hq⟩ := List.mem_map.mp this
    cases hq
    exact ⟨_, rfl⟩
  obtain ⟨n, rfl⟩ := this
  rw [renameTasks_get t n hg] at h
  cases ht : t.get? n with
  | none => rw [ht] at h; cases h
  | some T => rw [ht] at h; cases h; exact ⟨n, T, rfl, ht, rfl⟩

theorem renameItems_comp (f h : Str → Str) (hc : ∀ x, f (h x) = h x) (items : List RunItem) :
    renameItems f (renameItems h items) = renameItems h items := by
  have item : ∀ i : RunItem, renameItem f (renameItem h i) = renameItem h i := by
    intro i
    induction i using RunItem.rec (motive_2 := fun l => renameItems f (renameItems h l) = renameItems h l) with
    | command | log | prompt => rfl
    | task t => simp only [renameItem, hc]
    | parallel items _ _ _ _ _ _ _ _ _ ih => simp only [renameItem, ih]
    | nil => rfl
    | cons a l iha ihl => simp only [renameItems, iha, ihl]
  induction items with
  | nil => rfl
  | cons a l ih => simp only [renameItems, item, ih]

theorem included_fixed {ns : Str} (h : ∀ x, g (nsName ns x) = nsName ns x) (r : ParseResult) (n : Str) (T : Task) :
    renameTask g (includedTask ns r n T) = includedTask ns r n T := by
  unfold renameTask includedTask
  simp only [h]
  congr 1
  · unfold prefixDeps
    rw [List.map_map]
    apply List.map_congr_left
    intro x _
    exact h x
  · rw [prefixTaskRuns_eq, renameItems_comp _ _ h]

theorem loads_no_circle {files : Files} {p : Str} (h : Loads files p) :
    ∀ ns nss q, Includes files p ns q → ¬ IncPath files q nss p := by
  have snoc : ∀ {a nss b ns c}, IncPath files a nss b → Includes files b ns c → ∃ l, IncPath files a l c := by
    intro a nss b ns c h hi
    induction h with
    | refl => exact ⟨_, .step hi (.refl _)⟩
    | step h _ ih => obtain ⟨l, hl⟩ := ih hi; exact ⟨_, .step h hl⟩
  induction h with
  | @mk p bf hf hi hd ih =>
    intro ns nss q hq hpath
    cases hpath with
    | refl => exact ih _ _ hq _ _ _ hq (.refl _)
    | step h hr =>
      obtain ⟨l, hl⟩ := snoc hr hq
      exact ih _ _ hq _ _ _ h hl

variable {files : Files} {p : Str} {b : Schema} (hb : files.get? p = some (some b))
  (hinc : ∀ ns x, (b.includes.get? ns).isSome → g (nsName ns x) = nsName ns x)

local notation "files'" => GoMap.set files p (some (renameFile g b))

theorem edited_same : GoMap.get? files' p = some (some (renameFile g b)) := by
  rw [GoMap.get?_set, if_pos rfl]

theorem edited_other {q : Str} (h : q ≠ p) : GoMap.get? files' q = files.get? q := by
  rw [GoMap.get?_set, if_neg (fun e => h e.symm)]

include hb in
theorem edited_includes (q ns r : Str) : Includes files' q ns r ↔ Includes files q ns r := by
  by_cases h : q = p
  · subst h
    constructor
    · rintro ⟨bf, inc, h1, h2, h3⟩
      rw [edited_same] at h1
      cases h1
      exact ⟨b, inc, hb, h2, h3⟩
    · rintro ⟨bf, inc, h1, h2, h3⟩
      rw [hb] at h1
      cases h1
      exact ⟨_, inc, edited_same, h2, h3⟩
  · unfold Includes
    rw [edited_other h]

include hb in
/-- files from which the edited one cannot be reached provide the same -/
theorem edited_provides {q : Str} (hq : ∀ nss, ¬ IncPath files q nss p) {nss : List Str} {bs : List Schema} {n f : Str} {T : Task} :
    Provides files' q nss bs n f T ↔ Provides files q nss bs n f T := by
  have ne : ∀ {q}, (∀ nss, ¬ IncPath files q nss p) → q ≠ p := fun h e => h [] (e ▸ .refl _)
  constructor
  · intro h
    induction h with
    | own hf ht => exact .own (by rw [edited_other (ne hq)] at hf; exact hf) ht
    | inc hi hf _ ih =>
      have hi := (edited_includes hb _ _ _).mp hi
      have hq' : ∀ nss, ¬ IncPath files _ nss p := fun nss hp => hq _ (IncPath.step hi hp)
      exact .inc hi (by rw [edited_other (ne hq')] at hf; exact hf) (ih hq')
  · intro h
    induction h with
    | own hf ht => exact .own (by rw [edited_other (ne hq)]; exact hf) ht
    | inc hi hf _ ih =>
      have hq' : ∀ nss, ¬ IncPath files _ nss p := fun nss hp => hq _ (IncPath.step hi hp)
      exact .inc ((edited_includes hb _ _ _).mpr hi) (by rw [edited_other (ne hq')]; exact hf) (ih hq')

include hb in
theorem edited_makes {q : Str} (hq : ∀ nss, ¬ IncPath files q nss p) {n : Str} {T : Task} :
    Makes files' q n T ↔ Makes files q n T := by
  have ne : ∀ {q}, (∀ nss, ¬ IncPath files q nss p) → q ≠ p := fun h e => h [] (e ▸ .refl _)
  constructor
  · intro h
    induction h with
    | own hf ht => exact .own (by rw [edited_other (ne hq)] at hf; exact hf) ht
    | inc hi hf _ ih =>
      have hi := (edited_includes hb _ _ _).mp hi
      have hq' : ∀ nss, ¬ IncPath files _ nss p := fun nss hp => hq _ (IncPath.step hi hp)
      exact .inc hi (by rw [edited_other (ne hq')] at hf; exact hf) (ih hq')
  · intro h
    induction h with
    | own hf ht => exact .own (by rw [edited_other (ne hq)]; exact hf) ht
    | inc hi hf _ ih =>
      have hq' : ∀ nss, ¬ IncPath files _ nss p := fun nss hp => hq _ (IncPath.step hi hp)
      exact .inc ((edited_includes hb _ _ _).mpr hi) (by rw [edited_other (ne hq')]; exact hf) (ih hq')

include hb in
theorem edited_loads {q : Str} (hq : ∀ nss, ¬ IncPath files q nss p) (h : Loads files q) : Loads files' q := by
  induction h with
  | @mk q bf hf hi hd ih =>
    have hne : q ≠ p := fun e => hq [] (e ▸ .refl _)
    refine .mk (by rw [edited_other hne]; exact hf) (fun ns r hr => ?_) ?_
    · have hr := (edited_includes hb _ _ _).mp hr
      exact ih ns r hr fun nss hp => hq _ (IncPath.step hr hp)
    · intro nss bs n f T nss' bs' n' f' T' h1 h2 h3
      exact hd _ _ _ _ _ _ _ _ _ _ ((edited_provides hb hq).mp h1) ((edited_provides hb hq).mp h2) h3

include hb in
theorem includes_fixed (hinc : ∀ ns x, (b.includes.get? ns).isSome → g (nsName ns x) = nsName ns x) {ns q : Str} (hi : Includes files p ns q)
    (x : Str) : g (nsName ns x) = nsName ns x := by
  obtain ⟨bf, inc, h1, h2, -⟩ := hi
  rw [hb] at h1
  cases h1
  exact hinc ns x (by rw [h2]; rfl)

include hb hg hinc in
/-- the tasks of the edited file are those of the file, with the new names -/
theorem renamed_makes (hl : Loads files p) {a' : Str} {T' : Task} :
    Makes files' p a' T' ↔ ∃ a T, Makes files p a T ∧ a' = g a ∧ T' = renameTask g T := by
  constructor
  · intro h
    cases h with
    | own hf ht =>
      rw [edited_same] at hf
      cases hf
      obtain ⟨n, T, rfl, hT, rfl⟩ := renameTasks_some hg ht
      exact ⟨n, _, .own hb hT, rfl, rfl⟩
    | @inc _ ns q b' n T hi hf hm =>
      have hi := (edited_includes hb _ _ _).mp hi
      have hq : ∀ nss, ¬ IncPath files q nss p := fun nss => loads_no_circle hl ns nss q hi
      have hne : q ≠ p := fun e => hq [] (e ▸ .refl _)
      rw [edited_other hne] at hf
      have hfix := includes_fixed hb hinc hi
      exact ⟨_, _, .inc hi hf ((edited_makes hb hq).mp hm), (hfix n).symm, (included_fixed hfix _ _ _).symm⟩
  · rintro ⟨a, T, h, rfl, rfl⟩
    cases h with
    | @own _ bf n T hf ht =>
      rw [hb] at hf
      cases hf
      have := renameTasks_get (g := g) b.tasks a hg
      rw [ht] at this
      exact .own (T := renameTask g T) edited_same this
    | @inc _ ns q b' n T hi hf hm =>
      have hq : ∀ nss, ¬ IncPath files q nss p := fun nss => loads_no_circle hl ns nss q hi
      have hne : q ≠ p := fun e => hq [] (e ▸ .refl _)
      have hfix := includes_fixed hb hinc hi
      rw [hfix, included_fixed hfix]
      exact .inc ((edited_includes hb _ _ _).mpr hi) (by rw [edited_other hne]; exact hf) ((edited_makes hb hq).mpr hm)

include hb hg in
theorem renamed_provides (hl : Loads files p) {nss : List Str} {bs : List Schema} {n f : Str} {T : Task} :
    Provides files' p nss bs n f T ↔ (nss ≠ [] ∧ Provides files p nss bs n f T) ∨
      (nss = [] ∧ bs = [] ∧ f = p ∧ ∃ a U, n = g a ∧ T = renameTask g U ∧ Provides files p [] [] a p U) := by
  constructor
  · intro h
    cases h with
    | own hf ht =>
      rw [edited_same] at hf
      cases hf
      obtain ⟨a, U, rfl, hU, rfl⟩ := renameTasks_some hg ht
      exact .inr ⟨rfl, rfl, rfl, a, U, rfl, rfl, .own hb hU⟩
    | @inc _ ns q b' nss bs n f T hi hf hm =>
      have hi := (edited_includes hb _ _ _).mp hi
      have hq : ∀ nss, ¬ IncPath files q nss p := fun nss => loads_no_circle hl ns nss q hi
      have hne : q ≠ p := fun e => hq [] (e ▸ .refl _)
      rw [edited_other hne] at hf
      exact .inl ⟨by simp, .inc hi hf ((edited_provides hb hq).mp hm)⟩
  · rintro (⟨h0, h⟩ | ⟨rfl, rfl, rfl, a, U, rfl, rfl, h⟩)
    · cases h with
      | own => exact absurd rfl h0
      | @inc _ ns q b' nss bs n f T hi hf hm =>
        have hq : ∀ nss, ¬ IncPath files q nss p := fun nss => loads_no_circle hl ns nss q hi
        have hne : q ≠ p := fun e => hq [] (e ▸ .refl _)
        exact .inc ((edited_includes hb _ _ _).mpr hi) (by rw [edited_other hne]; exact hf) ((edited_provides hb hq).mpr hm)
    · cases h with
      | own hf ht =>
        rw [hb] at hf
        cases hf
        have := renameTasks_get (g := g) b.tasks a hg
        rw [ht] at this
        exact .own edited_same this

include hb hinc in
/-- names that come from included files stay -/
theorem full_fixed {nss : List Str} {bs : List Schema} {n f : Str} {T : Task} (h : Provides files p nss bs n f T) (h0 : nss ≠ [])
    (x : Str) : g (fullName nss x) = fullName nss x := by
  cases h with
  | own => exact absurd rfl h0
  | inc hi hf hm => exact includes_fixed hb hinc hi _

include hb hg hinc in
theorem renamed_has (hl : Loads files p) (a' : Str) : FileHas files' p a' ↔ ∃ a, a' = g a ∧ FileHas files p a := by
  constructor
  · rintro ⟨nss, bs, n, f, T, h, rfl⟩
    rcases (renamed_provides hg hb hl).mp h with ⟨h0, k⟩ | ⟨rfl, rfl, rfl, a, U, rfl, rfl, k⟩
    · exact ⟨_, (full_fixed hb hinc k h0 n).symm, nss, bs, n, f, T, k, rfl⟩
    · exact ⟨a, rfl, [], [], a, f, U, k, rfl⟩
  · rintro ⟨a, rfl, nss, bs, n, f, T, h, rfl⟩
    by_cases h0 : nss = []
    · subst h0
      have : bs = [] ∧ f = p := by cases h; exact ⟨rfl, rfl⟩
      obtain ⟨rfl, rfl⟩ := this
      exact ⟨[], [], g n, f, renameTask g T, (renamed_provides hg hb hl).mpr (.inr ⟨rfl, rfl, rfl, n, T, rfl, rfl, h⟩), rfl⟩
    · exact ⟨nss, bs, n, f, T, (renamed_provides hg hb hl).mpr (.inl ⟨h0, h⟩), full_fixed hb hinc h h0 n⟩

include hb hg hinc in
theorem renamed_refers (hl : Loads files p) {a' b' : Str} (h : FileRefers files' p a' b') :
    ∃ x y, a' = g x ∧ b' = g y ∧ FileRefers files p x y := by
  obtain ⟨nss, bs, n, f, T, x, h, rfl, hx, rfl⟩ := h
  rcases (renamed_provides hg hb hl).mp h with ⟨h0, k⟩ | ⟨rfl, rfl, rfl, a, U, rfl, rfl, k⟩
  · exact ⟨_, _, (full_fixed hb hinc k h0 n).symm, (full_fixed hb hinc k h0 x).symm, nss, bs, n, f, T, x, k, rfl, hx, rfl⟩
  · have : ∃ y, x = g y ∧ (y ∈ U.deps ∨ CallsIn y U.run) := by
      rcases hx with hx | hx
      · obtain ⟨y, hy, rfl⟩ := List.mem_map.mp hx
        exact ⟨y, rfl, .inl hy⟩
      · obtain ⟨y, rfl, hy⟩ := (callsIn_renames g x U.run).mp hx
        exact ⟨y, rfl, .inr hy⟩
    obtain ⟨y, rfl, hy⟩ := this
    exact ⟨a, y, rfl, rfl, [], [], a, f, U, y, k, rfl, hy, rfl⟩

include hb hg hinc in
theorem renamed_alias (hl : Loads files p) (x a' : Str) : FileAlias files' p x a' ↔ ∃ a, a' = g a ∧ FileAlias files p x a := by
  constructor
  · rintro ⟨nss, bs, n, f, T, h, rfl, hx⟩
    rcases (renamed_provides hg hb hl).mp h with ⟨h0, k⟩ | ⟨rfl, rfl, rfl, a, U, rfl, rfl, k⟩
    · exact ⟨_, (full_fixed hb hinc k h0 n).symm, nss, bs, n, f, T, k, rfl, hx⟩
    · exact ⟨a, rfl, [], [], a, f, U, k, rfl, hx⟩
  · rintro ⟨a, rfl, nss, bs, n, f, T, h, rfl, hx⟩
    by_cases h0 : nss = []
    · subst h0
      have : bs = [] ∧ f = p := by cases h; exact ⟨rfl, rfl⟩
      obtain ⟨rfl, rfl⟩ := this
      exact ⟨[], [], g n, f, renameTask g T, (renamed_provides hg hb hl).mpr (.inr ⟨rfl, rfl, rfl, n, T, rfl, rfl, h⟩), rfl, hx⟩
    · exact ⟨nss, bs, n, f, T, (renamed_provides hg hb hl).mpr (.inl ⟨h0, h⟩), full_fixed hb hinc h h0 n, hx⟩

include hb hg hinc in
/-- **C111** A Babfile that is accepted is still accepted when its tasks are renamed, in their definitions and wherever they are referred
to: if the new names are different (`hg`), those of included files stay (`hinc`) and no new name is an alias (`hal`). -/
theorem C111_accepted (hacc : Accepted files p) (hal : ∀ x a n, FileAlias files p x a → FileHas files p n → g n ≠ x) :
    Accepted (GoMap.set files p (some (renameFile g b))) p := by
  have hl := hacc.loads
  have hd : ∀ nss bs n f T nss' bs' n' f' T', Provides files p nss bs n f T → Provides files p nss' bs' n' f' T' →
      fullName nss n = fullName nss' n' → nss = nss' ∧ n = n' := by
    cases hl with
    | mk _ _ hd => exact hd
  refine ⟨.mk edited_same (fun ns q hi => ?_) ?_, ?_, ?_, ?_, ?_, ?_⟩
  · have hi := (edited_includes hb _ _ _).mp hi
    refine edited_loads hb (fun nss => loads_no_circle hl ns nss q hi) ?_
    cases hl with
    | mk _ h _ => exact h ns q hi
  · intro nss bs n f T nss' bs' n' f' T' h1 h2 h3
    rcases (renamed_provides hg hb hl).mp h1 with ⟨e1, k1⟩ | ⟨rfl, rfl, rfl, a, U, rfl, rfl, k1⟩
    · rcases (renamed_provides hg hb hl).mp h2 with ⟨e2, k2⟩ | ⟨rfl, rfl, rfl, a', U', rfl, rfl, k2⟩
      · exact hd _ _ _ _ _ _ _ _ _ _ k1 k2 h3
      · have : fullName nss n = a' := hg _ _ ((full_fixed hb hinc k1 e1 n).trans h3)
        exact absurd (hd _ _ _ _ _ [] _ _ _ _ k1 k2 this).1 e1
    · rcases (renamed_provides hg hb hl).mp h2 with ⟨e2, k2⟩ | ⟨rfl, rfl, -, a', U', rfl, rfl, k2⟩
      · have : a = fullName nss' n' := hg _ _ (h3.trans (full_fixed hb hinc k2 e2 n').symm)
        exact absurd (hd [] _ _ _ _ _ _ _ _ _ k1 k2 this).1.symm e2
      · exact ⟨rfl, h3⟩
  · intro x y h
    obtain ⟨a, c, rfl, rfl, k⟩ := renamed_refers hg hb hinc hl h
    exact (renamed_has hg hb hinc hl _).mpr ⟨c, rfl, hacc.refs _ _ k⟩
  · rintro ⟨x, hx⟩
    have key : ∀ x y, Relation.TransGen (FileRefers files' p) x y →
        ∃ a c, x = g a ∧ y = g c ∧ Relation.TransGen (FileRefers files p) a c := by
      intro x y h
      induction h with
      | single h =>
        obtain ⟨a, c, e1, e2, h⟩ := renamed_refers hg hb hinc hl h
        exact ⟨a, c, e1, e2, .single h⟩
      | tail _ h ih =>
        obtain ⟨a, c, rfl, rfl, h1⟩ := ih
        obtain ⟨c', d, e1, rfl, h2⟩ := renamed_refers hg hb hinc hl h
        cases hg _ _ e1
        exact ⟨a, d, rfl, rfl, .tail h1 h2⟩
    obtain ⟨a, c, rfl, e, h⟩ := key x x hx
    cases hg _ _ e
    exact hacc.acyclic ⟨a, h⟩
  · intro x a' hx hh
    obtain ⟨a, rfl, kx⟩ := (renamed_alias hg hb hinc hl x a').mp hx
    obtain ⟨n, e, hn⟩ := (renamed_has hg hb hinc hl x).mp hh
    exact hal _ _ _ kx hn e.symm
  · intro x a' c' h1 h2
    obtain ⟨a, rfl, k1⟩ := (renamed_alias hg hb hinc hl x a').mp h1
    obtain ⟨c, rfl, k2⟩ := (renamed_alias hg hb hinc hl x c').mp h2
    rw [hacc.oneTask x a c k1 k2]
  · intro nss bs n f T h
    rcases (renamed_provides hg hb hl).mp h with ⟨h0, k⟩ | ⟨rfl, rfl, rfl, a, U, rfl, rfl, k⟩
    · exact hacc.once _ _ _ _ _ k
    · exact hacc.once [] [] a f U k

theorem renamed_wf {g : Str → Str} (hg : ∀ a b, g a = g b → a = b) {files : Files} {p : Str} {b : Schema} (hb : files.get? p = some (some b))
    (hw : FilesWF files) : FilesWF (GoMap.set files p (some (renameFile g b))) := by
  intro q bf hq
  by_cases h : q = p
  · subst h
    rw [edited_same] at hq
    cases hq
    obtain ⟨h1, h2, h3, h4, h5⟩ := hw q b hb
    refine ⟨?_, h2, h3, h4, ?_⟩
    · unfold GoMap.WF GoMap.keys at h1 ⊢
      show ((renameTasks g b.tasks).map _).Nodup
      unfold renameTasks
      rw [List.map_map]
      have : ((Prod.fst : Str × Task → Str) ∘ fun q => (g q.1, renameTask g q.2)) = g ∘ Prod.fst := rfl
      rw [this, ← List.map_map]
      exact h1.map (fun x y h => hg x y h)
    · intro n T hT
      obtain ⟨m, U, rfl, hU, rfl⟩ := renameTasks_some hg hT
      exact h5 m U hU
  · rw [edited_other h] at hq
    exact hw q bf hq

end

/-! ### Invocations -/

theorem GoMap.keys_length {β : Type} (m : GoMap β) : (GoMap.keys m).length = m.length := by
  unfold GoMap.keys
  rw [List.length_map]

/-- the cause of C111: two runs, one for a file and one for the file with other names -/
theorem renamed_run {w : World} {g : Str → Str} (hg : ∀ a b, g a = g b → a = b) {fl : Flags} {p : Str} {b : Schema}
    (hp : Chosen w fl.babfile p) (hb : w.files.get? p = some (some b))
    (hinc : ∀ ns x, (b.includes.get? ns).isSome → g (nsName ns x) = nsName ns x)
    {y y' : Str} {c c' : Cfg} {t t' : TaskMap} {G G' : GoMap Str} {m m' : Str} (h : RunsFor w fl y c t G m)
    (h' : RunsFor { w with files := w.files.set p (some (renameFile g b)) } fl y' c' t' G' m') :
    c' = c ∧ G' = G ∧ (∀ n, t'.get? (g n) = (t.get? n).map (renameTask g)) ∧ t.length = t'.length := by
  obtain ⟨q1, b1, f1, f2, f3, f4, f5, f6, f7, -⟩ := h.file
  obtain ⟨q2, b2, k1, k2, k3, k4, k5, k6, k7, -⟩ := h'.file
  cases chosen_unique hp f1
  have k1 : Chosen w fl.babfile q2 := k1
  cases chosen_unique hp k1
  rw [hb] at f3; cases f3
  have k3 : GoMap.get? (GoMap.set w.files p (some (renameFile g b))) p = some (some b2) := k3
  rw [edited_same] at k3
  cases k3
  have hmk : ∀ {a' T'}, t'.get? a' = some T' ↔ ∃ a T, t.get? a = some T ∧ a' = g a ∧ T' = renameTask g T := by
    intro a' T'
    rw [k5 a' T']
    show Makes (GoMap.set w.files p (some (renameFile g b))) p a' T' ↔ _
    rw [renamed_makes hg hb hinc f2.loads]
    simp only [f5]
  refine ⟨by rw [f7, k7]; rfl, ?_, ?_, ?_⟩
  · have k6 : resolveVars b.vars [] w.base.env = .ok G' := k6
    rw [f6] at k6
    cases k6; rfl
  · intro n
    cases hn : t.get? n with
    | some T => exact hmk.mpr ⟨n, T, hn, rfl, rfl⟩
    | none =>
      cases hn' : t'.get? (g n) with
      | none => rfl
      | some T' =>
        obtain ⟨a, T, ha, e, -⟩ := hmk.mp hn'
        cases hg _ _ e
        rw [hn] at ha; cases ha
  · have hperm : ((GoMap.keys t).map g).Perm (GoMap.keys t') := by
      rw [List.perm_ext_iff_of_nodup (f4.map (fun x y h => hg x y h)) k4]
      intro x
      constructor
      · intro hx
        obtain ⟨a, ha, rfl⟩ := List.mem_map.mp hx
        obtain ⟨T, hT⟩ := Option.ne_none_iff_exists'.mp (GoMap.mem_keys_iff.mp ha)
        rw [GoMap.mem_keys_iff, hmk.mpr ⟨a, T, hT, rfl, rfl⟩]
        exact fun h => by cases h
      · intro hx
        obtain ⟨T', hT'⟩ := Option.ne_none_iff_exists'.mp (GoMap.mem_keys_iff.mp hx)
        obtain ⟨a, T, hT, rfl, -⟩ := hmk.mp hT'
        exact List.mem_map.mpr ⟨a, by rw [GoMap.mem_keys_iff, hT]; simp, rfl⟩
    have := hperm.length_eq
    rw [List.length_map, GoMap.keys_length, GoMap.keys_length] at this
    exact this

theorem runTask_accepted {w : World} (hw : FilesWF w.files) {v : Visit} (hv : VisitOK v) {fl : Flags} {x p : Str} {b : Schema} {G : GoMap Str}
    (hp : Chosen w fl.babfile p) (hacc : Accepted w.files p) (hb : w.files.get? p = some (some b))
    (hG : resolveVars b.vars [] w.base.env = .ok G) :
    ∃ c t G' m, Cli.runTask w v fl x = .run c t G' m ∧ RunsFor w fl x c t G' m := by
  have hrun : run w w v v { fl with completion := [], validate := false, listTasks := false } [x] .killed =
      Cli.runTask w v fl x := by
    unfold run
    rw [if_neg (by simp), if_neg (by simp), if_neg (by simp)]
    rfl
  rcases C64_task (w' := w) (v' := v) hw hv (fl := { fl with completion := [], validate := false, listTasks := false })
    rfl rfl rfl x [] .killed with ⟨e, -, h⟩ | ⟨c, t, G', m, h4, hR⟩
  · rcases h with h | ⟨q, b', e', hq, hb', he, -⟩
    · exact (h ⟨p, hp, hacc⟩).elim
    · have hq : Chosen w fl.babfile q := hq
      cases chosen_unique hp hq
      rw [hb] at hb'
      cases hb'
      rw [hG] at he
      cases he
  · rw [hrun] at h4
    exact ⟨c, t, G', m, h4, runTask_run hw hv h4⟩

/-- what both runs can do is the same, apart from the names -/
def DoSame (g : Str → Str) (c : Cfg) (t t' : TaskMap) (G : GoMap Str) (m : Str) : Prop :=
  (∀ s, Reach (start c t G m) s → ∃ s', Reach (start c t' G (g m)) s' ∧ Twin g s s') ∧
  (∀ s', Reach (start c t' G (g m)) s' → ∃ s, Reach (start c t G m) s ∧ Twin g s s')

/-- **C111** Tasks of a Babfile are renamed, in their definitions and wherever they are referred to. Whatever `bab <name>` could do before,
`bab <new name>` can do afterwards and the other way round: the same events in the same order under every schedule, with the same
variables, processes, questions, failures and interruptions, and the same result, with the new names for the old ones. The new names must
be different (`hg`), those of included files stay (`hinc`), and no new name is an alias (`hal`). -/
theorem C111_renamed {w : World} (hw : FilesWF w.files) {v v' : Visit} (hv : VisitOK v) (hv' : VisitOK v') {fl : Flags}
    {g : Str → Str} (hg : ∀ a b, g a = g b → a = b) {p : Str} {b : Schema} (hp : Chosen w fl.babfile p) (hb : w.files.get? p = some (some b))
    (hinc : ∀ ns x, (b.includes.get? ns).isSome → g (nsName ns x) = nsName ns x)
    (hal : ∀ x a n, FileAlias w.files p x a → FileHas w.files p n → g n ≠ x)
    {n : Str} (hn : FileHas w.files p n) {c : Cfg} {t : TaskMap} {G : GoMap Str} {m : Str} (h : Cli.runTask w v fl n = .run c t G m) :
    m = n ∧ ∃ t', Cli.runTask { w with files := w.files.set p (some (renameFile g b)) } v' fl (g n) = .run c t' G (g n) ∧
      DoSame g c t t' G n := by
  have hR := runTask_run hw hv h
  obtain ⟨q1, b1, f1, f2, f3, f4, f5, f6, f7, f8, -⟩ := hR.file
  cases chosen_unique hp f1
  rw [hb] at f3; cases f3
  have hw' : FilesWF ({ w with files := w.files.set p (some (renameFile g b)) } : World).files := renamed_wf hg hb hw
  have hacc : Accepted ({ w with files := w.files.set p (some (renameFile g b)) } : World).files p := C111_accepted hg hb hinc f2 hal
  obtain ⟨c', t', G', m', h', hR'⟩ := runTask_accepted hw' hv' (fl := fl) (x := g n) hp hacc edited_same f6
  obtain ⟨rfl, rfl, h1, h2⟩ := renamed_run hg hp hb hinc hR hR'
  obtain ⟨q2, b2, k1, -, -, -, -, -, -, k8, -⟩ := hR'.file
  cases chosen_unique (w := w) hp k1
  have hm' : m' = g n := k8 ((renamed_has hg hb hinc f2.loads _).mpr ⟨n, rfl, hn⟩)
  subst hm'
  exact ⟨f8 hn, t', h', Rename.twins hg h1 h2 _ _⟩

/-- **C111** Aliases stay: an alias stands for its task under the new name. -/
theorem C111_alias {w : World} (hw : FilesWF w.files) {v v' : Visit} (hv : VisitOK v) (hv' : VisitOK v') {fl : Flags}
    {g : Str → Str} (hg : ∀ a b, g a = g b → a = b) {p : Str} {b : Schema} (hp : Chosen w fl.babfile p) (hb : w.files.get? p = some (some b))
    (hinc : ∀ ns x, (b.includes.get? ns).isSome → g (nsName ns x) = nsName ns x)
    (hal : ∀ x a n, FileAlias w.files p x a → FileHas w.files p n → g n ≠ x)
    {x a : Str} (hx : FileAlias w.files p x a) {c : Cfg} {t : TaskMap} {G : GoMap Str} {m : Str} (h : Cli.runTask w v fl x = .run c t G m) :
    m = a ∧ ∃ t', Cli.runTask { w with files := w.files.set p (some (renameFile g b)) } v' fl x = .run c t' G (g a) ∧
      DoSame g c t t' G a := by
  have hR := runTask_run hw hv h
  obtain ⟨q1, b1, f1, f2, f3, f4, f5, f6, f7, -, f9, -⟩ := hR.file
  cases chosen_unique hp f1
  rw [hb] at f3; cases f3
  have hw' : FilesWF ({ w with files := w.files.set p (some (renameFile g b)) } : World).files := renamed_wf hg hb hw
  have hacc : Accepted ({ w with files := w.files.set p (some (renameFile g b)) } : World).files p := C111_accepted hg hb hinc f2 hal
  obtain ⟨c', t', G', m', h', hR'⟩ := runTask_accepted hw' hv' (fl := fl) (x := x) hp hacc edited_same f6
  obtain ⟨rfl, rfl, h1, h2⟩ := renamed_run hg hp hb hinc hR hR'
  obtain ⟨q2, b2, k1, -, -, -, -, -, -, -, k9, -⟩ := hR'.file
  cases chosen_unique (w := w) hp k1
  have hm' : m' = g a := k9 _ ((renamed_alias hg hb hinc f2.loads _ _).mpr ⟨a, rfl, hx⟩)
  subst hm'
  exact ⟨f9 _ hx, t', h', Rename.twins hg h1 h2 _ _⟩

/-- **C111** The exit status and what the outside world sees are the same: processes, echoed commands, messages and questions. -/
theorem C111_outside {x : Texts} {g : Str → Str} {s s' : State} (h : Twin g s s') :
    s.sh.trace.filterMap effect = s'.sh.trace.filterMap effect ∧
    ∀ r, s.prog = .ret r → ∃ r', s'.prog = .ret r' ∧ (exitStatus (r.map (Err.toGo x))).1 = (exitStatus (r'.map (Err.toGo x))).1 := by
  constructor
  · have h := h.trace
    generalize s.sh.trace = tr, s'.sh.trace = tr' at h
    induction h with
    | nil => rfl
    | @cons e e' _ _ he _ ih =>
      have : effect e = effect e' := by
        cases he with
        | other e => cases e <;> rfl
        | _ => rfl
      rw [List.filterMap_cons, List.filterMap_cons, this, ih]
  · intro r hr
    obtain ⟨r', h1, h2⟩ := h.ends r hr
    refine ⟨r', h1, ?_⟩
    have key : ∀ {e e' : Err}, ErrIs g e e' → (e.toGo x).isCanceled = (e'.toGo x).isCanceled := by
      intro e e' h
      induction h with
      | leaf e hl => cases e <;> rfl
      | wrap w _ ih => exact ih
      | label n _ ih => exact ih
    have stat : ∀ e : Err, (exitStatus (some (e.toGo x))).1 = if (e.toGo x).isCanceled = true then 0 else 1 := by
      intro e
      rw [exitStatus]
      split <;> rfl
    cases h2 with
    | ok => rfl
    | fail h =>
      show (exitStatus (some _)).1 = (exitStatus (some _)).1
      rw [stat, stat, key h]

theorem swap_inj (a b : Str) : ∀ x y, swapNames a b x = swapNames a b y → x = y := by
  intro x y h
  unfold swapNames at h
  by_cases h1 : x = a <;> by_cases h2 : x = b <;> by_cases h3 : y = a <;> by_cases h4 : y = b <;> simp_all

/-- **C111** The common case: one task `a` of the Babfile gets the name `b`, where `b` is new and neither has a colon. Then the file is
still accepted, and every task does what it did, `b` what `a` did. -/
theorem C111_one {w : World} (hw : FilesWF w.files) {v v' : Visit} (hv : VisitOK v) (hv' : VisitOK v') {fl : Flags} {p : Str} {bf : Schema}
    (hp : Chosen w fl.babfile p) (hb : w.files.get? p = some (some bf)) {a b : Str} (ha : ':' ∉ a) (hb' : ':' ∉ b)
    (hnew : ¬ FileHas w.files p b) (hal : ∀ n, ¬ FileAlias w.files p b n)
    {n : Str} (hn : FileHas w.files p n) {c : Cfg} {t : TaskMap} {G : GoMap Str} {m : Str} (h : Cli.runTask w v fl n = .run c t G m) :
    Accepted (w.files.set p (some (renameFile (swapNames a b) bf))) p ∧
    ∃ t', Cli.runTask { w with files := w.files.set p (some (renameFile (swapNames a b) bf)) } v' fl (if n = a then b else n) =
        .run c t' G (if n = a then b else n) ∧ DoSame (swapNames a b) c t t' G n := by
  have hinc : ∀ ns x, (bf.includes.get? ns).isSome → swapNames a b (nsName ns x) = nsName ns x := by
    intro ns x _
    have hc : ':' ∈ nsName ns x := by unfold nsName; simp
    unfold swapNames
    have h1 : nsName ns x ≠ a := fun e => ha (e ▸ hc)
    have h2 : nsName ns x ≠ b := fun e => hb' (e ▸ hc)
    rw [if_neg h1, if_neg h2]
  have hacc : Accepted w.files p := by
    obtain ⟨q1, b1, f1, f2, -⟩ := (runTask_run hw hv h).file
    cases chosen_unique hp f1
    exact f2
  have hal' : ∀ x a' k, FileAlias w.files p x a' → FileHas w.files p k → swapNames a b k ≠ x := by
    intro x a' k hx hk e
    unfold swapNames at e
    split at e
    · exact hal a' (e ▸ hx)
    · split at e
      · rename_i e'; exact hnew (e' ▸ hk)
      · exact hacc.notName x a' hx (e ▸ hk)
  have hname : swapNames a b n = if n = a then b else n := by
    unfold swapNames
    split
    · rfl
    · have h1 : n ≠ b := fun e => hnew (e ▸ hn)
      rw [if_neg h1]
  refine ⟨C111_accepted (swap_inj a b) hb hinc hacc hal', ?_⟩
  have := (C111_renamed hw hv hv' (swap_inj a b) hp hb hinc hal' hn h).2
  rw [hname] at this
  exact this

namespace Sample

/-- two files, one of them included; in the file that includes the other one, `all` is renamed to `everything` -/
def partsRenamed : Files :=
  parts.set (s "/p/Babfile.yml") (some (renameFile (swapNames (s "all") (s "everything"))
    { includes := [(s "web", s "web.yml")], tasks := [(s "all", { name := [], deps := [s "web:make"] })] }))

/-- the same commands are run, under the new name -/
example : runs parts "/p/Babfile.yml" "all" = ("succeeds", [s "mkdir fast", s "make --fast bin---fast", s "lint"]) ∧
    runs partsRenamed "/p/Babfile.yml" "everything" = ("succeeds", [s "mkdir fast", s "make --fast bin---fast", s "lint"]) := by
  decide +kernel

/-- the conditions are met there, with every order of the maps -/
example (v v' : Visit) (hv : VisitOK v) (hv' : VisitOK v') {c : Cfg} {t : TaskMap} {G : GoMap Str} {m : Str}
    (h : Cli.runTask (desk parts) v { babfile := s "/p/Babfile.yml" } (s "all") = .run c t G m) :
    ∃ t', Cli.runTask (desk partsRenamed) v' { babfile := s "/p/Babfile.yml" } (s "everything") = .run c t' G (s "everything") ∧
      DoSame (swapNames (s "all") (s "everything")) c t t' G (s "all") := by
  have hp : Chosen (desk parts) (s "/p/Babfile.yml") (s "/p/Babfile.yml") :=
    ⟨s "/p/Babfile.yml", by rw [if_neg (by decide)], by decide +kernel, by decide +kernel⟩
  have hn : FileHas parts (s "/p/Babfile.yml") (s "all") := ⟨[], [], s "all", s "/p/Babfile.yml", _, .own rfl rfl, rfl⟩
  have own : ∀ {nss bs n f T}, Provides parts (s "/p/Babfile.yml") nss bs n f T → fullName nss n ≠ s "everything" ∧ T.alias = [] ∧ T.aliases = [] := by
    intro nss bs n f T h
    cases h with
    | own hf ht =>
      cases hf
      simp only [GoMap.get?] at ht
      split at ht
      · rename_i e; cases ht; cases e; exact ⟨by decide, rfl, rfl⟩
      · cases ht
    | @inc _ ns q b' nss bs n f T hi hf hm =>
      obtain ⟨bf, inc, h1, h2, rfl⟩ := hi
      cases h1
      simp only [GoMap.get?] at h2
      split at h2
      · rename_i e
        cases h2; cases e
        have hq : includePath (dirPath (s "/p/Babfile.yml")) (s "web.yml") = s "/p/web.yml" := by decide +kernel
        rw [hq] at hf hm
        refine ⟨fun e => absurd e (by simp [fullName, s]), ?_⟩
        cases hm with
        | own hf' ht =>
          cases hf'
          simp only [GoMap.get?] at ht
          split at ht
          · cases ht; exact ⟨rfl, rfl⟩
          · split at ht
            · cases ht; exact ⟨rfl, rfl⟩
            · cases ht
        | inc hi _ _ =>
          obtain ⟨bf, inc, h1, h2, -⟩ := hi
          cases h1
          cases h2
      · cases h2
  refine (C111_one (w := desk parts) parts_wf hv hv' (fl := { babfile := s "/p/Babfile.yml" }) hp rfl (a := s "all") (b := s "everything")
    (by decide) (by decide) ?_ ?_ hn h).2
  · rintro ⟨nss, bs, n, f, T, hP, e⟩
    exact (own hP).1 e.symm
  · rintro n ⟨nss, bs, k, f, T, hP, -, hx⟩
    obtain ⟨-, h1, h2⟩ := own hP
    unfold otherNames at hx
    rw [h1, h2] at hx
    simp at hx

end Sample

end Bab
