import Verif.Proof.Locate
import Verif.Props.Cli
import Verif.Props.Writer
/-
C66: the places shown in messages.
-/

namespace Bab
open Spec

namespace Spec

/-- a call of `x` on line `l`, possibly inside a parallel block -/
inductive CallAt (x : Str) (l : Nat) : List RunItem → Prop
  | here {t rest} (h : t.task = x) (hl : t.line = l) : CallAt x l (.task t :: rest)
  | block {items labels mode lim color s o pl w ln rest} (h : CallAt x l items) :
      CallAt x l (.parallel items labels mode lim color s o pl w ln :: rest)
  | later {item rest} (h : CallAt x l rest) : CallAt x l (item :: rest)

/-- what validation complains about is written in file `f` on line `l`, when `p` is the main file -/
inductive Fault (files : Files) (p : Str) : VErr → Str → Nat → Prop
  /-- a dependency: the line of `deps`, if it is known, else that of the task -/
  | dep {nss bs n f T x} (h : Provides files p nss bs n f T) (hx : x ∈ T.deps) :
      Fault files p (.notFound (fullName nss x) (fullName nss n)) f (if T.depsLine = 0 then T.line else T.depsLine)
  /-- the call of a task: the line of the call -/
  | call {nss bs n f T x l} (h : Provides files p nss bs n f T) (hx : CallAt x l T.run) :
      Fault files p (.notFound (fullName nss x) (fullName nss n)) f l
  /-- another name of a task: the line of the task -/
  | conflict {nss bs n f T x} (h : Provides files p nss bs n f T) (hx : x ∈ otherNames nss T) :
      Fault files p (.aliasConflict x (fullName nss n)) f T.line
  | twice {nss bs n f T x o} (h : Provides files p nss bs n f T) (hx : x ∈ otherNames nss T) :
      Fault files p (.aliasTwice x (fullName nss n) o) f T.line

end Spec

/-! ### The path that is shown -/

theorem dropCommon_spec (a b : List Str) : ∃ c, a = c ++ (dropCommon a b).1 ∧ b = c ++ (dropCommon a b).2 := by
  induction a generalizing b with
  | nil => exact ⟨[], by unfold dropCommon; simp⟩
  | cons x a ih =>
    cases b with
    | nil => exact ⟨[], by unfold dropCommon; simp⟩
    | cons y b =>
      unfold dropCommon
      split
      · rename_i h
        subst h
        obtain ⟨c, h1, h2⟩ := ih b
        exact ⟨x :: c, by rw [List.cons_append, ← h1], by rw [List.cons_append, ← h2]⟩
      · exact ⟨[], rfl, rfl⟩

theorem dropCommon_below (a b : List Str) : dropCommon a (a ++ b) = ([], b) := by
  induction a with
  | nil => cases b <;> simp [dropCommon]
  | cons x a ih => rw [List.cons_append, dropCommon, if_pos rfl, ih]

theorem pathElems_abs {p : Str} (h : p.head? = some '/') : pathElems p = (walk [] (elems p)).reverse := by
  unfold pathElems
  rw [show isAbs p = true by simp [isAbs, h], splitSlash_nil, cleanElems_walk (by simp)]

theorem elems_joinSlash {l : List Str} (hl : l ≠ []) (h : ∀ e ∈ l, '/' ∉ e) : elems (joinSlash l) = l := by
  have h1 := joinSlash_pathOf l
  have h2 : elems ('/' :: joinSlash l) = [] :: elems (joinSlash l) := by rw [elems, if_pos rfl]
  have h3 : elems (pathOf l.reverse) = [] :: l := by
    unfold pathOf
    rw [if_neg (by simpa using hl), List.reverse_reverse]
    have := elems_flat h []
    rw [List.nil_append] at this
    rw [this]; rfl
  rw [h1, h3] at h2
  exact (List.cons.inj h2).2.symm

theorem joinSlash_head {e : Str} {l : List Str} (he : PlainName e) : (joinSlash (e :: l)).head? ≠ some '/' := by
  cases e with
  | nil => exact absurd rfl he.1
  | cons c e =>
    have hc : c ≠ '/' := fun h => he.2.2.2 (by simp [h])
    cases l <;> simp [joinSlash, hc]

section
variable {d : List Str} (hd : ∀ e ∈ d, PlainName e) {p : Str} (hp : p.head? = some '/')
include hd hp

omit hd hp in
theorem plain_target : ∀ e ∈ walk [] (elems p), PlainName e := walk_plain (by simp) (elems_noslash p)

/-- the relative path, in terms of elements -/
theorem relPath_eq : relPath (pathOf d) p =
    if walk [] (elems p) = d then some ".".toList
    else
      let r := dropCommon d.reverse (walk [] (elems p)).reverse
      some (joinSlash (List.replicate r.1.length "..".toList ++ r.2)) := by
  have ht := plain_target (p := p)
  unfold relPath
  rw [cleanPath_abs hp, cleanPath_abs (pathOf_abs d), walk_pathOf hd, List.append_nil, pathElems_abs hp, pathElems_abs (pathOf_abs d),
    walk_pathOf hd, List.append_nil]
  by_cases h : walk [] (elems p) = d
  · rw [if_pos (by rw [h]), if_pos h]
  · rw [if_neg (fun h' => h (pathOf_inj ht hd h')), if_neg h, if_neg (by simp [isAbs, hp, pathOf_abs d])]
    dsimp only
    rw [if_neg]
    intro hh
    obtain ⟨c, h1, -⟩ := dropCommon_spec d.reverse (walk [] (elems p)).reverse
    generalize (dropCommon d.reverse (walk [] (elems p)).reverse).1 = x at hh h1
    cases x with
    | nil => cases hh
    | cons a x =>
      simp only [List.head?_cons, Option.some.injEq] at hh
      have : a ∈ d.reverse := by rw [h1]; simp
      exact (hd a (List.mem_reverse.mp this)).2.2.1 hh

omit hd hp in
theorem dotdot_prefix {n : Nat} (hn : 0 < n) (l : List Str) :
    "..".toList.isPrefixOf (joinSlash (List.replicate n "..".toList ++ l)) = true := by
  obtain ⟨m, rfl⟩ := Nat.exists_eq_succ_of_ne_zero (Nat.pos_iff_ne_zero.mp hn)
  rw [List.replicate_succ, List.cons_append]
  cases h : List.replicate m "..".toList ++ l with
  | nil => rfl
  | cons x y => rw [joinSlash]; rfl; simp

/-- **C66** The path that is shown names the same file, seen from the working directory. -/
theorem C66_same_file : seenFrom d (relativePath (some (pathOf d)) p) = seenFrom d p := by
  have hs : seenFrom d p = walk [] (elems p) := by unfold seenFrom; rw [if_pos hp]
  have ht := plain_target (p := p)
  rw [hs]
  unfold relativePath
  dsimp only
  rw [relPath_eq hd hp]
  by_cases h : walk [] (elems p) = d
  · rw [if_pos h, h]; rfl
  · rw [if_neg h]
    dsimp only
    obtain ⟨c, h1, h2⟩ := dropCommon_spec d.reverse (walk [] (elems p)).reverse
    generalize dropCommon d.reverse (walk [] (elems p)).reverse = r at h1 h2
    split
    · exact hs
    · rename_i hdd
      have hr : r.1 = [] := by
        cases hx : r.1 with
        | nil => rfl
        | cons a x => exact absurd (dotdot_prefix (by rw [hx]; simp) _) hdd
      rw [hr] at h1 ⊢
      rw [List.append_nil] at h1
      have hb : r.2 ≠ [] := by
        intro hb
        rw [hb, List.append_nil, ← h1] at h2
        exact h (List.reverse_injective h2)
      have hpl : ∀ e ∈ r.2, PlainName e := by
        intro e he
        refine ht e (List.mem_reverse.mp ?_)
        rw [h2]; exact List.mem_append_right _ he
      show seenFrom d (joinSlash r.2) = _
      unfold seenFrom
      rw [if_neg, elems_joinSlash hb (fun e he => (hpl e he).2.2.2), walk_self hpl]
      · have := congrArg List.reverse h2
        rw [List.reverse_reverse, List.reverse_append, ← h1, List.reverse_reverse] at this
        exact this.symm
      · cases hx : r.2 with
        | nil => exact absurd hx hb
        | cons e l => exact joinSlash_head (hpl e (by rw [hx]; simp))

/-- **C66** A file that is not below the working directory is shown with its full path. -/
theorem C66_elsewhere (h : ¬ d <:+ walk [] (elems p)) : relativePath (some (pathOf d)) p = p := by
  unfold relativePath
  dsimp only
  rw [relPath_eq hd hp, if_neg (fun h' : walk [] (elems p) = d => h (h'.symm ▸ List.suffix_refl d))]
  dsimp only
  obtain ⟨c, h1, h2⟩ := dropCommon_spec d.reverse (walk [] (elems p)).reverse
  generalize dropCommon d.reverse (walk [] (elems p)).reverse = r at h1 h2
  rw [if_pos]
  refine dotdot_prefix ?_ _
  refine List.length_pos_of_ne_nil fun hr => h ?_
  rw [hr, List.append_nil] at h1
  rw [← List.reverse_prefix, h1, h2]
  exact List.prefix_append _ _

/-- **C66** A file below the working directory is shown by the names that lead to it, unless the first one begins with two
dots. -/
theorem C66_below {e : Str} {l : List Str} (h : walk [] (elems p) = (e :: l).reverse ++ d) (he : "..".toList.isPrefixOf e = false) :
    relativePath (some (pathOf d)) p = joinSlash (e :: l) := by
  unfold relativePath
  dsimp only
  have hne : walk [] (elems p) ≠ d := by
    intro h'
    rw [h'] at h
    have := congrArg List.length h
    simp at this
    omega
  rw [relPath_eq hd hp, if_neg hne, h, List.reverse_append, List.reverse_reverse, dropCommon_below]
  dsimp only
  rw [List.length_nil, List.replicate_zero, List.nil_append, if_neg]
  have hpl : PlainName e := plain_target e (by rw [h]; simp)
  cases l with
  | nil => rw [joinSlash, he]; decide
  | cons x l =>
    show ¬ "..".toList.isPrefixOf (e ++ '/' :: joinSlash (x :: l)) = true
    intro hh
    cases e with
    | nil => exact hpl.1 rfl
    | cons a e =>
      cases e with
      | nil =>
        simp [List.isPrefixOf] at hh
      | cons b e =>
        revert he hh
        simp [List.isPrefixOf]

end

/-! ### The text of a place -/

theorem repr_no_colon (n : Nat) : ':' ∉ (Nat.repr n).toList := by
  rw [Nat.repr, String.toList_ofList]
  intro h
  have := Nat.isDigit_of_mem_toDigits (b := 10) (by omega) (by omega) h
  exact absurd this (by decide)

/-- what is shown of a place: the path, and line and column if they are known -/
def Spec.placeShown (cwd : Option Str) (a : Place) : Str × Nat × Nat :=
  (relativePath cwd a.path, a.line, if a.line = 0 then 0 else a.column)

/-- **C66** The text of a place can be read back, as long as the path contains no colon. -/
theorem C66_text {cwd : Option Str} {a b : Place} (ha : ':' ∉ relativePath cwd a.path) (hb : ':' ∉ relativePath cwd b.path)
    (h : formatLocation cwd a = formatLocation cwd b) : placeShown cwd a = placeShown cwd b := by
  unfold formatLocation at h
  unfold placeShown
  dsimp only at h
  generalize relativePath cwd a.path = p at ha h
  generalize relativePath cwd b.path = q at hb h
  have hna := repr_no_colon a.line
  have hnb := repr_no_colon b.line
  split at h
  · split at h
    · split at h
      · split at h
        · rw [List.append_assoc, List.append_assoc] at h
          obtain ⟨h1, h2⟩ := colon_split ha hb h
          obtain ⟨h3, h4⟩ := colon_split hna hnb h2
          rw [h1, repr_inj h3, repr_inj h4]
        · rw [List.append_assoc] at h
          obtain ⟨h1, h2⟩ := colon_split ha hb h
          exact absurd (h2 ▸ (by simp : ':' ∈ (Nat.repr a.line).toList ++ ':' :: (Nat.repr a.column).toList)) hnb
      · exact absurd (h ▸ (by simp : ':' ∈ p ++ ':' :: (Nat.repr a.line).toList ++ ':' :: (Nat.repr a.column).toList)) hb
    · rename_i hac
      split at h
      · split at h
        · rw [List.append_assoc] at h
          obtain ⟨h1, h2⟩ := colon_split ha hb h
          exact absurd (h2 ▸ (by simp : ':' ∈ (Nat.repr b.line).toList ++ ':' :: (Nat.repr b.column).toList)) hna
        · rename_i hbc
          obtain ⟨h1, h2⟩ := colon_split ha hb h
          rw [h1, repr_inj h2, show a.column = 0 by omega, show b.column = 0 by omega]
      · exact absurd (h ▸ (by simp : ':' ∈ p ++ ':' :: (Nat.repr a.line).toList)) hb
  · rename_i hal
    split at h
    · split at h
      · exact absurd (h ▸ (by simp : ':' ∈ q ++ ':' :: (Nat.repr b.line).toList ++ ':' :: (Nat.repr b.column).toList)) ha
      · exact absurd (h ▸ (by simp : ':' ∈ q ++ ':' :: (Nat.repr b.line).toList)) ha
    · rename_i hbl
      rw [h, show a.line = 0 by omega, show b.line = 0 by omega, if_pos rfl, if_pos rfl]

/-! ### The places of validation errors -/

mutual
/-- the calls in an item, with their lines -/
def refsOf : RunItem → List (Str × Nat)
  | .task t => [(t.task, t.line)]
  | .parallel items _ _ _ _ _ _ _ _ _ => refsOfs items
  | .command _ => []
  | .log _ => []
  | .prompt _ => []
def refsOfs : List RunItem → List (Str × Nat)
  | [] => []
  | item :: items => refsOf item ++ refsOfs items
end

mutual
theorem refsOf_rename (g : Str → Str) (item : RunItem) : refsOf (renameItem g item) = (refsOf item).map fun e => (g e.1, e.2) := by
  cases item with
  | parallel items _ _ _ _ _ _ _ _ _ => rw [renameItem, refsOf, refsOf, refsOfs_rename g items]
  | task t => rfl
  | command v => rfl
  | log v => rfl
  | prompt v => rfl
theorem refsOfs_rename (g : Str → Str) (items : List RunItem) :
    refsOfs (renameItems g items) = (refsOfs items).map fun e => (g e.1, e.2) := by
  match items with
  | [] => rfl
  | item :: items => rw [renameItems, refsOfs, refsOfs, refsOf_rename g item, refsOfs_rename g items, List.map_append]
end

mutual
theorem refsOf_bare (item : RunItem) : refsOf (bareItem item) = refsOf item := by
  cases item with
  | parallel items _ _ _ _ _ _ _ _ _ => rw [bareItem, refsOf, refsOf, refsOfs_bare items]
  | task t => rfl
  | command v => rfl
  | log v => rfl
  | prompt v => rfl
theorem refsOfs_bare (items : List RunItem) : refsOfs (bareItems items) = refsOfs items := by
  match items with
  | [] => rfl
  | item :: items => rw [bareItems, refsOfs, refsOfs, refsOf_bare item, refsOfs_bare items]
end

mutual
theorem callAt_item (x : Str) (l : Nat) (item : RunItem) (h : (x, l) ∈ refsOf item) (rest : List RunItem) : CallAt x l (item :: rest) := by
  cases item with
  | parallel items _ _ _ _ _ _ _ _ _ => exact .block (callAt_items x l items h)
  | task t =>
    rw [refsOf, List.mem_singleton] at h
    cases h
    exact .here rfl rfl
  | command v => cases h
  | log v => cases h
  | prompt v => cases h
theorem callAt_items (x : Str) (l : Nat) (items : List RunItem) (h : (x, l) ∈ refsOfs items) : CallAt x l items := by
  match items with
  | [] => cases h
  | item :: items =>
    rw [refsOfs, List.mem_append] at h
    rcases h with h | h
    · exact callAt_item x l item h items
    · exact .later (callAt_items x l items h)
end

theorem callAt_iff (x : Str) (l : Nat) (items : List RunItem) : CallAt x l items ↔ (x, l) ∈ refsOfs items := by
  refine ⟨fun h => ?_, callAt_items x l items⟩
  induction h with
  | here h hl => subst h hl; simp [refsOfs, refsOf]
  | block _ ih => rw [refsOfs, refsOf]; exact List.mem_append_left _ ih
  | later _ ih => rw [refsOfs]; exact List.mem_append_right _ ih

theorem callAt_included {nss : List Str} {bs : List Schema} {n f : Str} {T T' : Task} (h : AsIncluded nss bs n f T T') (b : Str) (l : Nat) :
    CallAt b l T'.run ↔ ∃ x, b = fullName nss x ∧ CallAt x l T.run := by
  have hr : refsOfs (if nss = [] then T.run else bareItems T.run) = refsOfs T.run := by
    split
    · rfl
    · exact refsOfs_bare _
  rw [h.run, callAt_iff, refsOfs_rename, hr, List.mem_map]
  constructor
  · rintro ⟨⟨x, k⟩, h1, h2⟩
    cases h2
    exact ⟨x, rfl, (callAt_iff _ _ _).mpr h1⟩
  · rintro ⟨x, rfl, h1⟩
    exact ⟨(x, l), (callAt_iff _ _ _).mp h1, rfl⟩

mutual
theorem refAt_eq (root by_ : Str) (tasks : TaskMap) (item : RunItem) :
    refAt root by_ tasks item = (refsOf item).flatMap fun e =>
      if tasks.has e.1 then [] else [{ err := .notFound e.1 by_, at_ := { path := root, line := e.2 } }] := by
  cases item with
  | parallel items _ _ _ _ _ _ _ _ _ => rw [refAt, refsOf, refsAt_eq root by_ tasks items]
  | task t => rw [refAt, refsOf]; simp
  | command v => rfl
  | log v => rfl
  | prompt v => rfl
theorem refsAt_eq (root by_ : Str) (tasks : TaskMap) (items : List RunItem) :
    refsAt root by_ tasks items = (refsOfs items).flatMap fun e =>
      if tasks.has e.1 then [] else [{ err := .notFound e.1 by_, at_ := { path := root, line := e.2 } }] := by
  match items with
  | [] => rfl
  | item :: items => rw [refsAt, refsOfs, refAt_eq root by_ tasks item, refsAt_eq root by_ tasks items, List.flatMap_append]
end

theorem mem_refsAt {root by_ : Str} {tasks : TaskMap} {items : List RunItem} {e : PlacedErr} :
    e ∈ refsAt root by_ tasks items ↔ ∃ x l, CallAt x l items ∧ tasks.has x = false ∧
      e = { err := .notFound x by_, at_ := { path := root, line := l } } := by
  rw [refsAt_eq, List.mem_flatMap]
  constructor
  · rintro ⟨⟨x, l⟩, h1, h2⟩
    dsimp only at h2
    split at h2
    · cases h2
    · rename_i hx
      exact ⟨x, l, (callAt_iff _ _ _).mpr h1, by simpa using hx, List.mem_singleton.mp h2⟩
  · rintro ⟨x, l, h1, h2, rfl⟩
    exact ⟨(x, l), (callAt_iff _ _ _).mp h1, by dsimp only; rw [if_neg (by simp [h2])]; exact List.mem_singleton.mpr rfl⟩

theorem mem_depsAt {root : Str} {order tasks : TaskMap} {e : PlacedErr} :
    e ∈ depsAt root order tasks ↔ ∃ name T x, (name, T) ∈ order ∧ x ∈ T.deps ∧ tasks.has x = false ∧
      e = { err := .notFound x name, at_ := { path := root, line := if T.depsLine = 0 then T.line else T.depsLine } } := by
  unfold depsAt
  rw [List.mem_flatMap]
  constructor
  · rintro ⟨⟨name, T⟩, h1, h2⟩
    dsimp only at h2
    obtain ⟨x, h3, h4⟩ := List.mem_flatMap.mp h2
    split at h4
    · cases h4
    · rename_i hx
      exact ⟨name, T, x, h1, h3, by simpa using hx, List.mem_singleton.mp h4⟩
  · rintro ⟨name, T, x, h1, h2, h3, rfl⟩
    refine ⟨(name, T), h1, List.mem_flatMap.mpr ⟨x, h2, ?_⟩⟩
    rw [if_neg (by simp [h3])]; exact List.mem_singleton.mpr rfl

/-- what the second map of aliases holds: the names and lines of tasks with the alias -/
def SeenOK (tasks : TaskMap) (seen : GoMap (Str × Nat)) : Prop :=
  ∀ a o l, seen.get? a = some (o, l) → ∃ T, tasks.get? o = some T ∧ T.line = l ∧ a ∈ declared T

/-- an error about aliases with the right lines -/
def AliasOK (root : Str) (tasks : TaskMap) (e : PlacedErr) : Prop :=
  ∃ name T x, tasks.get? name = some T ∧ x ∈ declared T ∧ e.at_ = { path := root, line := T.line } ∧
    (e.err = .aliasConflict x name ∨ ∃ o U, e.err = .aliasTwice x name o ∧ tasks.get? o = some U ∧ x ∈ declared U ∧ e.first = U.line)

theorem aliasAt_ok {root : Str} {tasks : TaskMap} {name : Str} {T : Task} (hT : tasks.get? name = some T) (l : List Str)
    (hl : ∀ a ∈ l, a ≠ [] → a ∈ declared T) (seen : GoMap (Str × Nat)) (hs : SeenOK tasks seen) :
    (∀ e ∈ (aliasAt root tasks name T l seen).1, AliasOK root tasks e) ∧ SeenOK tasks (aliasAt root tasks name T l seen).2 := by
  induction l generalizing seen with
  | nil => exact ⟨(by intro e he; cases he), hs⟩
  | cons a l ih =>
    have ih := ih (fun b hb => hl b (List.mem_cons_of_mem _ hb))
    rw [aliasAt]
    split
    · exact ih seen hs
    · rename_i ha
      have hd := hl a (by simp) ha
      split
      · dsimp only
        refine ⟨fun e he => ?_, (ih seen hs).2⟩
        rcases List.mem_cons.mp he with rfl | he
        · exact ⟨name, T, a, hT, hd, rfl, Or.inl rfl⟩
        · exact (ih seen hs).1 e he
      · cases hg : seen.get? a with
        | some original =>
          dsimp only
          refine ⟨fun e he => ?_, (ih seen hs).2⟩
          rcases List.mem_cons.mp he with rfl | he
          · obtain ⟨U, h1, h2, h3⟩ := hs a original.1 original.2 hg
            exact ⟨name, T, a, hT, hd, rfl, Or.inr ⟨original.1, U, rfl, h1, h3, h2.symm⟩⟩
          · exact (ih seen hs).1 e he
        | none =>
          dsimp only
          refine ih _ ?_
          intro b o k hb
          rw [GoMap.get?_set] at hb
          split at hb
          · rename_i hab
            subst hab
            cases hb
            exact ⟨T, hT, rfl, hd⟩
          · exact hs b o k hb

theorem mem_allAliases {T : Task} {a : Str} (h : a ∈ T.allAliases) (ha : a ≠ []) : a ∈ declared T := by
  unfold declared
  unfold Task.allAliases at h
  rw [List.mem_filter]
  refine ⟨?_, by simpa using ha⟩
  split at h
  · exact h
  · exact List.mem_cons_of_mem _ h

theorem aliasesAt_ok {root : Str} {tasks order : TaskMap} (ho : ∀ n T, (n, T) ∈ order → tasks.get? n = some T)
    (seen : GoMap (Str × Nat)) (hs : SeenOK tasks seen) : ∀ e ∈ aliasesAt root tasks order seen, AliasOK root tasks e := by
  induction order generalizing seen with
  | nil => intro e he; cases he
  | cons q order ih =>
    obtain ⟨n, T⟩ := q
    have h1 := aliasAt_ok (root := root) (ho n T (by simp)) T.allAliases (fun a h ha => mem_allAliases h ha) seen hs
    intro e he
    rw [aliasesAt] at he
    rcases List.mem_append.mp he with he | he
    · exact h1.1 e he
    · exact ih (fun n T h => ho n T (List.mem_cons_of_mem _ h)) _ h1.2 e he

/-- **C66** The errors that are placed are the errors of validation (C36–C39), in the same order. -/
theorem C66_errors (root : Str) (grow : Nat → Nat) (o1 o2 o3 o4 tasks : TaskMap) :
    (validateAt root grow o1 o2 o3 o4 tasks).map (·.err) = validateAll grow o1 o2 o3 o4 tasks :=
  validateAt_err root grow o1 o2 o3 o4 tasks

section
variable {files : Files} {o : Orders} {p : Str} {r : ParseResult} (hw : FilesWF files) (ho : OrdersOK o)
  (hl : load files o p = .ok r) {grow : Nat → Nat} {o1 o2 o3 o4 : TaskMap}
  (h1 : o1.Perm r.tasks) (h2 : o2.Perm r.tasks) (h4 : o4.Perm r.tasks)

include hw ho hl h1 h2 h4
/-- **C66** (partial) Every error of validation, other than a cycle, names the line on which its cause is written. The full
property also asks for the right file; that fails for included files, see `Sample.C66_wrong_file`. -/
theorem C66_line_partial {e : PlacedErr} (he : e ∈ validateAt p grow o1 o2 o3 o4 r.tasks) :
    e.at_.path = p ∧ ((∃ chain, e.err = .cycle chain) ∨ ∃ f, Fault files p e.err f e.at_.line) := by
  have hto := (parseFile_ok hw ho _ hl).2.1
  unfold validateAt at he
  rw [List.mem_append, List.mem_append, List.mem_append] at he
  rcases he with ((he | he) | he) | he
  · obtain ⟨name, T', x, hm, hx, -, rfl⟩ := mem_depsAt.mp he
    obtain ⟨nss, bs, n, f, T, hP, rfl, hA⟩ := hto.sound _ _ (GoMap.get?_of_mem hto.wf (h1.mem_iff.mp hm))
    rw [hA.deps] at hx
    obtain ⟨y, hy, rfl⟩ := List.mem_map.mp hx
    refine ⟨rfl, Or.inr ⟨f, ?_⟩⟩
    dsimp only
    rw [hA.line, hA.depsLine]
    exact .dep hP hy
  · unfold callsAt at he
    obtain ⟨⟨name, T'⟩, hm, he⟩ := List.mem_flatMap.mp he
    obtain ⟨x, l, hx, -, rfl⟩ := mem_refsAt.mp he
    obtain ⟨nss, bs, n, f, T, hP, rfl, hA⟩ := hto.sound _ _ (GoMap.get?_of_mem hto.wf (h2.mem_iff.mp hm))
    obtain ⟨y, rfl, hy⟩ := (callAt_included hA _ _).mp hx
    exact ⟨rfl, Or.inr ⟨f, .call hP hy⟩⟩
  · unfold cyclesAt at he
    obtain ⟨v, hv, rfl⟩ := List.mem_map.mp he
    refine ⟨rfl, Or.inl ?_⟩
    dsimp only
    unfold validateRunCycles at hv
    obtain ⟨v, -, rfl⟩ := List.mem_map.mp hv
    exact ⟨_, rfl⟩
  · obtain ⟨name, T', x, hT, hx, hat, hk⟩ := aliasesAt_ok (root := p)
      (fun n T h => GoMap.get?_of_mem hto.wf (h4.mem_iff.mp h)) [] (by intro a o l h; cases h) e he
    obtain ⟨nss, bs, n, f, T, hP, rfl, hA⟩ := hto.sound _ _ hT
    rw [declared_included hA] at hx
    rw [hat, hA.line]
    refine ⟨rfl, Or.inr ⟨f, ?_⟩⟩
    rcases hk with hk | ⟨o, U, hk, -⟩
    · rw [hk]; exact .conflict hP hx
    · rw [hk]; exact .twice hP hx

/-- **C66** (partial) If nothing is included, the file is right as well. -/
theorem C66_place_partial (hi : ∀ ns q, ¬ Includes files p ns q) {e : PlacedErr} (he : e ∈ validateAt p grow o1 o2 o3 o4 r.tasks) :
    (∃ chain, e.err = .cycle chain) ∨ Fault files p e.err e.at_.path e.at_.line := by
  obtain ⟨h5, h6⟩ := C66_line_partial hw ho hl h1 h2 h4 he
  rw [h5]
  refine h6.imp_right ?_
  rintro ⟨f, hf⟩
  have key : ∀ {nss bs n f T}, Provides files p nss bs n f T → f = p := by
    intro nss bs n f T h
    cases h with
    | own _ _ => rfl
    | inc h _ _ => exact absurd h (hi _ _)
  have hfp : f = p := by
    generalize e.err = v at hf
    generalize e.at_.line = l at hf
    cases hf <;> exact key ‹_›
  exact hfp ▸ hf

omit h1 h2 in
/-- **C66** The line given for the first use of an alias is the line of a task that has the alias. -/
theorem C66_first {e : PlacedErr} (he : e ∈ validateAt p grow o1 o2 o3 o4 r.tasks) {x n y : Str} (hk : e.err = .aliasTwice x n y) :
    ∃ nss bs m f T, Provides files p nss bs m f T ∧ y = fullName nss m ∧ x ∈ otherNames nss T ∧ e.first = T.line := by
  have hto := (parseFile_ok hw ho _ hl).2.1
  unfold validateAt at he
  rw [List.mem_append, List.mem_append, List.mem_append] at he
  rcases he with ((he | he) | he) | he
  · obtain ⟨_, _, _, _, _, _, rfl⟩ := mem_depsAt.mp he
    cases hk
  · unfold callsAt at he
    obtain ⟨_, _, he⟩ := List.mem_flatMap.mp he
    obtain ⟨_, _, _, _, rfl⟩ := mem_refsAt.mp he
    cases hk
  · unfold cyclesAt at he
    obtain ⟨v, hv, rfl⟩ := List.mem_map.mp he
    unfold validateRunCycles at hv
    obtain ⟨v, -, rfl⟩ := List.mem_map.mp hv
    cases hk
  · obtain ⟨name, T', _, hT, hx, hat, hk'⟩ := aliasesAt_ok (root := p)
      (fun n T h => GoMap.get?_of_mem hto.wf (h4.mem_iff.mp h)) [] (by intro a o l h; cases h) e he
    rw [hk] at hk'
    rcases hk' with hk' | ⟨o', U, hk', hU, hd, hf⟩
    · cases hk'
    · cases hk'
      obtain ⟨nss, bs, m, f, T, hP, rfl, hA⟩ := hto.sound _ _ hU
      exact ⟨nss, bs, m, f, T, hP, rfl, (declared_included hA) ▸ hd, by rw [hf, hA.line]⟩

omit h2 h4 in
/-- **C66** A dependency on a task that does not exist is reported, with the line of the dependencies. -/
theorem C66_dep_reported {nss : List Str} {bs : List Schema} {n f x : Str} {T : Task} (h : Provides files p nss bs n f T)
    (hx : x ∈ T.deps) (hn : ¬ FileHas files p (fullName nss x)) :
    ∃ e ∈ validateAt p grow o1 o2 o3 o4 r.tasks, e.err = .notFound (fullName nss x) (fullName nss n) ∧
      e.at_.line = if T.depsLine = 0 then T.line else T.depsLine := by
  have hto := (parseFile_ok hw ho _ hl).2.1
  obtain ⟨T', hT, hA⟩ := hto.complete _ _ _ _ _ h
  refine ⟨_, List.mem_append_left _ (List.mem_append_left _ (List.mem_append_left _ (mem_depsAt.mpr
    ⟨_, T', fullName nss x, h1.mem_iff.mpr (GoMap.mem_of_get? hT), by rw [hA.deps]; exact List.mem_map.mpr ⟨x, hx, rfl⟩, ?_, rfl⟩))),
    rfl, by dsimp only; rw [hA.line, hA.depsLine]⟩
  rw [Bool.eq_false_iff]
  exact fun hh => hn ((fileHas_iff hto _).mpr (GoMap.has_iff_exists.mp hh))

omit h1 h4 in
/-- **C66** Every call of a task that does not exist is reported, with its own line. -/
theorem C66_call_reported {nss : List Str} {bs : List Schema} {n f x : Str} {l : Nat} {T : Task} (h : Provides files p nss bs n f T)
    (hx : CallAt x l T.run) (hn : ¬ FileHas files p (fullName nss x)) :
    ∃ e ∈ validateAt p grow o1 o2 o3 o4 r.tasks, e.err = .notFound (fullName nss x) (fullName nss n) ∧ e.at_.line = l := by
  have hto := (parseFile_ok hw ho _ hl).2.1
  obtain ⟨T', hT, hA⟩ := hto.complete _ _ _ _ _ h
  refine ⟨_, List.mem_append_left _ (List.mem_append_left _ (List.mem_append_right _ (List.mem_flatMap.mpr
    ⟨(_, T'), h2.mem_iff.mpr (GoMap.mem_of_get? hT), mem_refsAt.mpr
      ⟨fullName nss x, l, (callAt_included hA _ _).mpr ⟨x, rfl, hx⟩, ?_, rfl⟩⟩))), rfl, rfl⟩
  rw [Bool.eq_false_iff]
  exact fun hh => hn ((fileHas_iff hto _).mpr (GoMap.has_iff_exists.mp hh))

end

namespace Sample

/-! ### Examples -/

/-- a project in which references fail, in the main file and in an included one -/
def slips : Files :=
  [ (s "/p/Babfile.yml", some { includes := [(s "web", s "web/b.yml")], tasks :=
      [(s "all", { name := [], line := 4, deps := [s "gone"], depsLine := 5, run := [.task { task := s "web:make", line := 7 }] }),
       (s "two", { name := [], line := 9, «alias» := s "all", aliases := [s "x"], run := [cmd "two"] }),
       (s "three", { name := [], line := 12, «alias» := s "x", run := [cmd "three"] })] }),
    (s "/p/web/b.yml", some { tasks :=
      [(s "make", { name := [], line := 31, run := [cmd "make", par [.task { task := s "lost", line := 35 }, .task { task := s "make", line := 36 }]] })] }) ]

/-- the errors of validation with their places -/
def placed (files : Files) (p : Str) : List PlacedErr :=
  match load files asWritten p with
  | .ok r => validateAt p doubling r.tasks r.tasks r.tasks r.tasks r.tasks
  | .error _ => []

/-- **C66** The call on line 35 of the included file is reported as being on line 35 of the main file; so are the lines of
everything else in included files. A cycle is reported without a line. -/
theorem C66_wrong_file : placed slips (s "/p/Babfile.yml") =
    [ { err := .notFound (s "gone") (s "all"), at_ := { path := s "/p/Babfile.yml", line := 5 } },
      { err := .notFound (s "web:lost") (s "web:make"), at_ := { path := s "/p/Babfile.yml", line := 35 } },
      { err := .cycle [s "all", s "web:make", s "web:make"], at_ := { path := s "/p/Babfile.yml" } },
      { err := .aliasConflict (s "all") (s "two"), at_ := { path := s "/p/Babfile.yml", line := 9 } },
      { err := .aliasTwice (s "x") (s "three") (s "two"), at_ := { path := s "/p/Babfile.yml", line := 12 }, first := 9 } ] := by
  decide +kernel

theorem slips_wf : FilesWF slips := files_wf (by decide +kernel)

/-- the task with the call belongs to the included file -/
theorem lost_at : ∃ bs T, Provides slips (s "/p/Babfile.yml") [s "web"] bs (s "make") (s "/p/web/b.yml") T ∧ CallAt (s "lost") 35 T.run := by
  refine ⟨_, _, .inc ⟨_, s "web/b.yml", rfl, rfl, by decide +kernel⟩ rfl (.own rfl rfl), ?_⟩
  exact .later (.block (.here rfl rfl))

example : (load slips asWritten (s "/p/Babfile.yml")).toOption.isSome = true := by decide +kernel

/-- a file that includes nothing -/
def alone : Files :=
  [ (s "/p/Babfile.yml", some { tasks := [(s "a", { name := [], line := 2, run := [cmd "a", .task { task := s "b", line := 5 }] })] }) ]

example : ∀ ns q, ¬ Includes alone (s "/p/Babfile.yml") ns q := by
  rintro ns q ⟨bf, inc, h1, h2, -⟩
  cases h1
  cases h2

example : (placed alone (s "/p/Babfile.yml")).map (formatLocation (some (s "/p")) ·.at_) = [s "Babfile.yml:5"] := by decide +kernel

/-! Paths: below the working directory, next to it, and below it with dots in the name. -/

example : relativePath (some (s "/p/src")) (s "/p/src/a/../b.yml") = s "b.yml" := by decide +kernel
example : relativePath (some (s "/p/src")) (s "/p/Babfile.yml") = s "/p/Babfile.yml" := by decide +kernel
example : relativePath (some (s "/p")) (s "/p/..hidden/b.yml") = s "/p/..hidden/b.yml" := by decide +kernel
example : relativePath (some (s "/p")) (s "/p") = s "." := by decide +kernel

example : seenFrom [s "src", s "p"] (relativePath (some (pathOf [s "src", s "p"])) (s "/p/src/a/../b.yml")) =
    seenFrom [s "src", s "p"] (s "/p/src/a/../b.yml") :=
  C66_same_file (by simp only [List.forall_mem_cons]; unfold PlainName; decide +kernel) rfl

/-- with a colon in the path a place can be misread -/
theorem C66_colon : formatLocation none { path := s "/p:3", line := 5 } = formatLocation none { path := s "/p", line := 3, column := 5 } := by
  decide +kernel

end Sample

end Bab
