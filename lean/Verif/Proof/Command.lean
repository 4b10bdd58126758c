import Verif.Proof.GoMap
import Verif.Spec.Command
import Mathlib.Tactic.ByContra
/-
Environments, paths and settings.
-/

namespace Bab
open Spec

/-! ### Environments -/

theorem lastEntry_append (k : Str) (a b : List (Str × Str)) :
    lastEntry k (a ++ b) = (lastEntry k b).or (lastEntry k a) := by
  induction a with
  | nil => simp [lastEntry]
  | cons p a ih => simp only [List.cons_append, lastEntry, ih, Option.or_assoc]

theorem lastEntry_none {k : Str} {l : List (Str × Str)} (h : ∀ p ∈ l, p.1 ≠ k) : lastEntry k l = none := by
  induction l with
  | nil => rfl
  | cons p l ih =>
    rw [lastEntry, ih (fun q hq => h q (List.mem_cons_of_mem _ hq)), if_neg (h p List.mem_cons_self)]
    rfl

theorem lastEntry_one (k a x : Str) (r : Option Str) :
    (lastEntry k [(a, x)]).or r = if k = a then some x else r := by
  by_cases h : a = k
  · subst h; simp [lastEntry]
  · simp [lastEntry, h, Ne.symm h]

theorem lastEntry_two (k a b x y : Str) (r : Option Str) :
    (lastEntry k [(a, x), (b, y)]).or r = if k = b then some y else if k = a then some x else r := by
  by_cases h : b = k
  · subst h; simp [lastEntry]
  · by_cases h' : a = k
    · subst h'; simp [lastEntry, h, Ne.symm h]
    · simp [lastEntry, h, Ne.symm h, h', Ne.symm h']

theorem lastEntry_map {m : GoMap Str} (h : m.WF) (k : Str) : lastEntry k m = m.get? k := by
  induction m with
  | nil => rfl
  | cons p m ih =>
    obtain ⟨x, v⟩ := p
    have hwf : GoMap.WF m := (List.nodup_cons.mp h).2
    have hx : x ∉ GoMap.keys m := (List.nodup_cons.mp h).1
    rw [lastEntry, ih hwf, GoMap.get?]
    by_cases hk : x = k
    · subst hk
      have : GoMap.get? m x = none := by
        by_contra hne
        exact hx (GoMap.mem_keys_iff.mpr hne)
      rw [this]; simp
    · simp [hk]

theorem get?_foldl_set {m : GoMap Str} (h : m.WF) (acc : GoMap Str) (k : Str) :
    GoMap.get? (m.foldl (fun a p => a.set p.1 p.2) acc) k = (m.get? k).or (acc.get? k) := by
  induction m generalizing acc with
  | nil => rfl
  | cons p m ih =>
    obtain ⟨x, v⟩ := p
    have hwf : GoMap.WF m := (List.nodup_cons.mp h).2
    have hx : x ∉ GoMap.keys m := (List.nodup_cons.mp h).1
    rw [List.foldl_cons, ih hwf, GoMap.get?_set, GoMap.get?]
    by_cases hk : x = k
    · subst hk
      have : GoMap.get? m x = none := by
        by_contra hne
        exact hx (GoMap.mem_keys_iff.mpr hne)
      rw [this]; simp
    · simp [hk]

theorem WF_foldl_set (m acc : GoMap Str) (h : acc.WF) : GoMap.WF (m.foldl (fun a p => a.set p.1 p.2) acc) := by
  induction m generalizing acc with
  | nil => exact h
  | cons p m ih => exact ih _ (GoMap.WF_set h _ _)

theorem WF_mergeEnvMaps (ms : List (GoMap Str)) : GoMap.WF (mergeEnvMaps ms) := by
  unfold mergeEnvMaps
  have : ∀ acc : GoMap Str, acc.WF → GoMap.WF (ms.foldl (fun acc m => m.foldl (fun a p => a.set p.1 p.2) acc) acc) := by
    induction ms with
    | nil => exact fun acc h => h
    | cons m ms ih => exact fun acc h => ih _ (WF_foldl_set _ _ h)
  exact this [] List.nodup_nil

theorem get?_mergeEnvMaps_two {a b : GoMap Str} (ha : a.WF) (hb : b.WF) (k : Str) :
    GoMap.get? (mergeEnvMaps [a, b]) k = (b.get? k).or (a.get? k) := by
  simp only [mergeEnvMaps, List.foldl_cons, List.foldl_nil]
  rw [get?_foldl_set hb, get?_foldl_set ha]
  cases b.get? k <;> cases a.get? k <;> rfl

theorem get?_mergeEnvMaps_one {a : GoMap Str} (ha : a.WF) (k : Str) :
    GoMap.get? (mergeEnvMaps [a]) k = a.get? k := by
  simp only [mergeEnvMaps, List.foldl_cons, List.foldl_nil]
  rw [get?_foldl_set ha]
  cases a.get? k <;> rfl

theorem interpolateEnv_keys {ctx : Ctx} {m r : GoMap Str} (h : interpolateEnv ctx m = .ok r) :
    GoMap.keys r = GoMap.keys m := by
  induction m generalizing r with
  | nil => cases h; rfl
  | cons p m ih =>
    obtain ⟨x, v⟩ := p
    unfold interpolateEnv at h
    cases h1 : interpolate v ctx with
    | error e => simp [h1] at h
    | ok v' =>
      cases h2 : interpolateEnv ctx m with
      | error e => simp [h1, h2] at h
      | ok r' =>
        simp only [h1, h2, Except.ok.injEq] at h
        subst h
        have := ih h2
        simp only [GoMap.keys, List.map_cons] at this ⊢
        rw [this]

theorem interpolateEnv_get? {ctx : Ctx} {m r : GoMap Str} (h : interpolateEnv ctx m = .ok r) (k : Str) :
    (∀ x, m.get? k = some x → ∃ y, interpolate x ctx = .ok y ∧ r.get? k = some y) ∧
    (m.get? k = none → r.get? k = none) := by
  induction m generalizing r with
  | nil => cases h; exact ⟨fun x hx => (by cases hx), fun _ => rfl⟩
  | cons p m ih =>
    obtain ⟨n, v⟩ := p
    unfold interpolateEnv at h
    cases h1 : interpolate v ctx with
    | error e => simp [h1] at h
    | ok v' =>
      cases h2 : interpolateEnv ctx m with
      | error e => simp [h1, h2] at h
      | ok r' =>
        simp only [h1, h2, Except.ok.injEq] at h
        subst h
        obtain ⟨i1, i2⟩ := ih h2
        simp only [GoMap.get?]
        by_cases hk : n = k
        · simp only [hk, if_true]
          exact ⟨fun x hx => ⟨v', by cases hx; exact h1, rfl⟩, fun hx => by cases hx⟩
        · simp only [hk, if_false]
          exact ⟨i1, i2⟩

theorem interpolateEnv_WF {ctx : Ctx} {m r : GoMap Str} (h : interpolateEnv ctx m = .ok r) (hm : m.WF) : r.WF := by
  unfold GoMap.WF at *
  rw [interpolateEnv_keys h]; exact hm

/-! ### Settings -/

theorem isSilent_iff (l : List (Option Bool)) (b : Bool) : isSilent l = b ↔ Decides false l b := by
  induction l with
  | nil => simp [isSilent, Decides]
  | cons x l ih =>
    cases x with
    | some v =>
      simp only [isSilent]
      constructor
      · rintro rfl
        exact Or.inl ⟨[], l, rfl, by simp⟩
      · rintro (⟨u, r, h1, h2⟩ | ⟨h1, -⟩)
        · cases u with
          | nil => simp at h1; exact h1.1
          | cons y u => simp at h1; have := h2 y (by simp); rw [← h1.1] at this; cases this
        · have := h1 (some v) (by simp); cases this
    | none =>
      simp only [isSilent, ih]
      constructor
      · rintro (⟨u, r, h1, h2⟩ | ⟨h1, h2⟩)
        · exact Or.inl ⟨none :: u, r, by rw [h1]; rfl, by simpa using h2⟩
        · exact Or.inr ⟨by simpa using h1, h2⟩
      · rintro (⟨u, r, h1, h2⟩ | ⟨h1, h2⟩)
        · cases u with
          | nil => simp at h1
          | cons y u => simp at h1; exact Or.inl ⟨u, r, h1.2, fun x hx => h2 x (by simp [hx])⟩
        · exact Or.inr ⟨fun x hx => h1 x (by simp [hx]), h2⟩

theorem isOutput_iff (l : List (Option Bool)) (b : Bool) : isOutput l = b ↔ Decides true l b := by
  induction l with
  | nil => simp [isOutput, Decides]
  | cons x l ih =>
    cases x with
    | some v =>
      simp only [isOutput]
      constructor
      · rintro rfl
        exact Or.inl ⟨[], l, rfl, by simp⟩
      · rintro (⟨u, r, h1, h2⟩ | ⟨h1, -⟩)
        · cases u with
          | nil => simp at h1; exact h1.1
          | cons y u => simp at h1; have := h2 y (by simp); rw [← h1.1] at this; cases this
        · have := h1 (some v) (by simp); cases this
    | none =>
      simp only [isOutput, ih]
      constructor
      · rintro (⟨u, r, h1, h2⟩ | ⟨h1, h2⟩)
        · exact Or.inl ⟨none :: u, r, by rw [h1]; rfl, by simpa using h2⟩
        · exact Or.inr ⟨by simpa using h1, h2⟩
      · rintro (⟨u, r, h1, h2⟩ | ⟨h1, h2⟩)
        · cases u with
          | nil => simp at h1
          | cons y u => simp at h1; exact Or.inl ⟨u, r, h1.2, fun x hx => h2 x (by simp [hx])⟩
        · exact Or.inr ⟨fun x hx => h1 x (by simp [hx]), h2⟩

/-! ### Paths -/

theorem elems_ne (p : Str) : elems p ≠ [] := by
  cases p with
  | nil => simp [elems]
  | cons c r =>
    unfold elems
    split
    · simp
    · split <;> simp

theorem splitSlash_elems (cur p : Str) :
    ∃ e es, elems p = e :: es ∧ splitSlash cur p = (cur.reverse ++ e) :: es := by
  induction p generalizing cur with
  | nil => exact ⟨[], [], rfl, by simp [splitSlash]⟩
  | cons c r ih =>
    unfold elems splitSlash
    by_cases hc : c = '/'
    · obtain ⟨e, es, h1, h2⟩ := ih []
      refine ⟨[], elems r, by simp [hc], ?_⟩
      simp [hc, h1, h2]
    · obtain ⟨e, es, h1, h2⟩ := ih (c :: cur)
      refine ⟨c :: e, es, by simp [hc, h1], ?_⟩
      simp [hc, h2]

theorem splitSlash_nil (p : Str) : splitSlash [] p = elems p := by
  obtain ⟨e, es, h1, h2⟩ := splitSlash_elems [] p
  rw [h1, h2]; rfl

theorem elems_append (a b : Str) : elems (a ++ '/' :: b) = elems a ++ elems b := by
  induction a with
  | nil => simp [elems]
  | cons c a ih =>
    simp only [List.cons_append]
    rw [elems, elems, ih]
    by_cases hc : c = '/'
    · simp [hc]
    · simp only [hc, if_false]
      cases h : elems a with
      | nil => exact absurd h (elems_ne a)
      | cons e es => rfl

theorem elems_single {e : Str} (h : '/' ∉ e) : elems e = [e] := by
  induction e with
  | nil => rfl
  | cons c e ih =>
    have hc : c ≠ '/' := fun h' => h (by simp [h'])
    rw [elems, if_neg hc, ih (fun h' => h (by simp [h']))]

theorem elems_noslash (p : Str) : ∀ e ∈ elems p, '/' ∉ e := by
  induction p with
  | nil => simp [elems]
  | cons c r ih =>
    rw [elems]
    by_cases hc : c = '/'
    · simp only [hc, if_true]
      intro e he
      rcases List.mem_cons.mp he with rfl | he
      · simp
      · exact ih e he
    · simp only [hc, if_false]
      cases h : elems r with
      | nil => exact absurd h (elems_ne r)
      | cons x xs =>
        intro e he
        rw [h] at ih
        rcases List.mem_cons.mp he with rfl | he
        · simp only [List.mem_cons, not_or]
          exact ⟨Ne.symm hc, ih x List.mem_cons_self⟩
        · exact ih e (List.mem_cons_of_mem _ he)

theorem walk_append (d a b : List Str) : walk d (a ++ b) = walk (walk d a) b := List.foldl_append

/-- the names that can be part of a directory -/
def PlainName (e : Str) : Prop := e ≠ [] ∧ e ≠ ".".toList ∧ e ≠ "..".toList ∧ '/' ∉ e

theorem walk_plain {d es : List Str} (hd : ∀ e ∈ d, PlainName e) (hs : ∀ e ∈ es, '/' ∉ e) :
    ∀ e ∈ walk d es, PlainName e := by
  induction es generalizing d with
  | nil => exact hd
  | cons x es ih =>
    refine ih (d := enter d x) ?_ (fun e he => hs e (List.mem_cons_of_mem _ he))
    unfold enter
    split
    · exact hd
    · split
      · exact fun e he => hd e (List.mem_of_mem_tail he)
      · rename_i h1 h2
        simp only [not_or] at h1
        intro e he
        rcases List.mem_cons.mp he with rfl | he
        · exact ⟨h1.1, h1.2, h2, hs _ List.mem_cons_self⟩
        · exact hd e he

theorem walk_self {d es : List Str} (h : ∀ e ∈ es, PlainName e) : walk d es = es.reverse ++ d := by
  induction es generalizing d with
  | nil => rfl
  | cons x es ih =>
    have hx := h x List.mem_cons_self
    have : enter d x = x :: d := by
      unfold enter
      rw [if_neg (by simp only [not_or]; exact ⟨hx.1, hx.2.1⟩), if_neg hx.2.2.1]
    show walk (enter d x) es = _
    rw [this, ih (fun e he => h e (List.mem_cons_of_mem _ he))]
    simp

theorem cleanElems_walk {out es : List Str} (h : ∀ e ∈ out, e ≠ "..".toList) :
    cleanElems true out es = (walk out es).reverse := by
  induction es generalizing out with
  | nil => simp [cleanElems, walk]
  | cons x es ih =>
    show _ = (walk (enter out x) es).reverse
    unfold cleanElems enter
    by_cases h1 : x = [] ∨ x = ".".toList
    · rw [if_pos h1, if_pos h1]; exact ih h
    · rw [if_neg h1, if_neg h1]
      by_cases h2 : x = "..".toList
      · rw [if_pos h2, if_pos h2]
        cases out with
        | nil => simp only [if_true, List.tail_nil]; exact ih h
        | cons o os =>
          simp only [List.tail_cons]
          rw [if_neg (h o List.mem_cons_self)]
          exact ih (fun e he => h e (List.mem_cons_of_mem _ he))
      · rw [if_neg h2, if_neg h2]
        refine ih ?_
        intro e he
        rcases List.mem_cons.mp he with rfl | he
        · exact h2
        · exact h e he

theorem joinSlash_pathOf (l : List Str) : '/' :: joinSlash l = pathOf l.reverse := by
  unfold pathOf
  cases l with
  | nil => rfl
  | cons e l =>
    have : (e :: l).reverse ≠ [] := by simp
    rw [if_neg this, List.reverse_reverse]
    clear this
    induction l generalizing e with
    | nil => simp [joinSlash]
    | cons x l ih =>
      rw [joinSlash, List.flatMap_cons, ← ih x]
      · rfl
      · simp

theorem cleanPath_abs {p : Str} (h : p.head? = some '/') : cleanPath p = pathOf (walk [] (elems p)) := by
  unfold cleanPath
  have ha : isAbs p = true := by simp [isAbs, h]
  simp only [ha, if_true]
  rw [splitSlash_nil, cleanElems_walk (by simp), joinSlash_pathOf, List.reverse_reverse]

theorem pathOf_abs (d : List Str) : (pathOf d).head? = some '/' := by
  unfold pathOf
  split
  · rfl
  · rename_i h
    cases hr : d.reverse with
    | nil => simp at hr; exact absurd hr h
    | cons e es => rfl

theorem elems_flat {l : List Str} (h : ∀ e ∈ l, '/' ∉ e) (pre : Str) :
    elems (pre ++ l.flatMap ('/' :: ·)) = elems pre ++ l := by
  induction l generalizing pre with
  | nil => simp
  | cons e l ih =>
    have := ih (fun e he => h e (List.mem_cons_of_mem _ he)) (pre ++ '/' :: e)
    rw [List.flatMap_cons, ← List.append_assoc, this, elems_append, elems_single (h e List.mem_cons_self)]
    simp

theorem walk_pathOf {d : List Str} (h : ∀ e ∈ d, PlainName e) (x : List Str) :
    walk x (elems (pathOf d)) = d ++ x := by
  unfold pathOf
  split
  · rename_i hd; subst hd; rfl
  · have := elems_flat (l := d.reverse) (fun e he => (h e (List.mem_reverse.mp he)).2.2.2) []
    rw [List.nil_append] at this
    rw [this]
    show walk (enter x []) d.reverse = _
    have h0 : enter x [] = x := by simp [enter]
    rw [h0, walk_self (fun e he => h e (List.mem_reverse.mp he)), List.reverse_reverse]

/-- the part of a path up to the last slash -/
theorem elems_upto (p : Str) (h : '/' ∈ p) :
    elems (p.reverse.dropWhile (· ≠ '/')).reverse = (elems p).dropLast ++ [[]] := by
  -- split the path at its last slash
  obtain ⟨a, b, rfl, hb⟩ : ∃ a b, p = a ++ '/' :: b ∧ '/' ∉ b := by
    induction p with
    | nil => cases h
    | cons c p ih =>
      by_cases hp : '/' ∈ p
      · obtain ⟨a, b, h1, h2⟩ := ih hp
        exact ⟨c :: a, b, by rw [h1]; rfl, h2⟩
      · have : c = '/' := by
          rcases List.mem_cons.mp h with h | h
          · exact h.symm
          · exact absurd h hp
        exact ⟨[], p, by rw [this]; rfl, hp⟩
  have h1 : ((a ++ '/' :: b).reverse.dropWhile (· ≠ '/')).reverse = a ++ ['/'] := by
    rw [List.reverse_append, List.reverse_cons, List.append_assoc]
    rw [List.dropWhile_append_of_pos]
    · simp
    · intro x hx
      simp only [ne_eq, decide_not, Bool.not_eq_eq_eq_not, Bool.not_true, decide_eq_false_iff_not]
      rintro rfl
      exact hb (List.mem_reverse.mp hx)
  rw [h1, elems_append, elems_append, elems_single hb]
  simp [elems]

theorem dirPath_abs {p : Str} (h : p.head? = some '/') : dirPath p = pathOf (dirOf p) := by
  have hm : '/' ∈ p := by
    cases p with
    | nil => cases h
    | cons c p => simp at h; simp [h]
  unfold dirPath
  rw [cleanPath_abs, elems_upto p hm, walk_append]
  · rfl
  · have := elems_upto p hm
    cases hq : (p.reverse.dropWhile (· ≠ '/')).reverse with
    | nil =>
      exfalso
      rw [hq] at this
      have hl := congrArg List.length this
      simp only [elems, List.length_append, List.length_cons, List.length_nil, List.length_dropLast] at hl
      have : 2 ≤ (elems p).length := by
        obtain ⟨a, b, rfl⟩ := List.append_of_mem hm
        rw [elems_append]
        have h1 := List.length_pos_iff.mpr (elems_ne a)
        have h2 := List.length_pos_iff.mpr (elems_ne b)
        simp; omega
      omega
    | cons c r =>
      -- the part is a prefix of the path
      have hpre : (p.reverse.dropWhile (· ≠ '/')).reverse <+: p := by
        have := (List.dropWhile_suffix (p := fun x : Char => decide (x ≠ '/')) (l := p.reverse))
        rw [← List.reverse_prefix] at this
        simpa using this
      rw [hq] at hpre
      obtain ⟨t, ht⟩ := hpre
      rw [← ht] at h
      simpa using h

theorem dirOf_plain (p : Str) : ∀ e ∈ dirOf p, PlainName e := by
  refine walk_plain (by simp) (fun e he => elems_noslash p e ((List.dropLast_sublist _).mem he))

/-- the path computed by `resolveDir` -/
theorem resolve_path {src d : Str} (h : src.head? = some '/') :
    cleanPath (if isAbs d = true then d else joinPath (dirPath src) d) = pathOf (seenFrom (dirOf src) d) := by
  unfold seenFrom
  by_cases hd : d.head? = some '/'
  · have : isAbs d = true := by simp [isAbs, hd]
    rw [if_pos this, if_pos hd, cleanPath_abs hd]
  · have : ¬ isAbs d = true := by simp [isAbs, hd]
    rw [if_neg this, if_neg hd]
    have hne : dirPath src ≠ [] := by
      rw [dirPath_abs h]
      intro h0
      have := pathOf_abs (dirOf src)
      rw [h0] at this; cases this
    have hjoin : joinPath (dirPath src) d = pathOf (walk (dirOf src) (elems d)) := by
      unfold joinPath
      rw [if_neg hne]
      by_cases h0 : d = []
      · rw [if_pos h0, dirPath_abs h, cleanPath_abs (pathOf_abs _), walk_pathOf (dirOf_plain _)]
        subst h0
        simp [elems, walk, enter]
      · rw [if_neg h0, cleanPath_abs, elems_append, walk_append, dirPath_abs h, walk_pathOf (dirOf_plain _)]
        · simp
        · rw [dirPath_abs h]
          have := pathOf_abs (dirOf src)
          cases hp : pathOf (dirOf src) with
          | nil => rw [hp] at this; cases this
          | cons c r => rw [hp] at this; simpa using this
    rw [hjoin, cleanPath_abs (pathOf_abs _), walk_pathOf]
    · simp
    · exact walk_plain (dirOf_plain _) (elems_noslash d)

/-! ### Commands -/

section
variable {c : Cfg} {tasks : TaskMap}

theorem prepare_inv {T : Task} {v : CommandRun} {tenv m : GoMap Str} {text : Str} {env : GoMap Str} {dir : Str}
    (h : prepareCommand c T v tenv m = .ok (text, env, dir)) :
    interpolate v.cmd ⟨m, c.env⟩ = .ok text ∧ interpolateEnv ⟨m, c.env⟩ (mergeEnvMaps [tenv, v.env]) = .ok env ∧
    resolveDir c T v.dir ⟨m, c.env⟩ = .ok dir := by
  unfold prepareCommand at h
  split at h
  · cases h
  · rename_i t h1
    split at h
    · cases h
    · rename_i e h2
      split at h
      · cases h
      · rename_i d h3
        cases h
        exact ⟨h1, h2, h3⟩

/-- the environment of a process apart from the settings of the Babfile -/
def colourEnv (fr : Frame) (show_ : Bool) : List (Str × Str) :=
  if fr.out.isSome && show_ then
    (if fr.noColor then [("TERM".toList, "dumb".toList), ("NO_COLOR".toList, "1".toList)]
     else [("FORCE_COLOR".toList, "1".toList)])
  else []

theorem procEnv_eq {fr : Frame} {T : Task} {v : CommandRun} {text : Str} {env : GoMap Str} {dir : Str}
    (henv : env.WF) (k : Str) :
    procEnv c (procSpec c fr T v text env dir) k = ((env.get? k).or
      (lastEntry k (colourEnv fr (isOutput [v.output, fr.ovOutput, T.output, c.globalOutput])))).or (lastEntry k c.environ) := by
  have hm : lastEntry k (if env = [] then [] else mergeEnvMaps [env]) = env.get? k := by
    split
    · rename_i he; subst he; rfl
    · rw [lastEntry_map (WF_mergeEnvMaps _), get?_mergeEnvMaps_one henv]
  unfold procEnv procSpec colourEnv
  dsimp only
  cases ho : fr.out with
  | none =>
    simp only [Option.isSome_none, Bool.false_and, Bool.false_eq_true, or_false, if_false]
    split
    · rename_i he
      simp only [Option.getD_some, List.append_nil, lastEntry_append]
      rw [if_neg he] at hm
      simp [lastEntry, hm]
    · rename_i he
      have he : env = [] := by simpa using he
      subst he
      simp [lastEntry, GoMap.get?]
  | some k' =>
    simp only [Option.isSome_some, Bool.true_and]
    split
    · simp only [Option.getD_some, lastEntry_append, hm, Option.or_assoc]
    · rename_i he
      simp only [not_or, Decidable.not_not] at he
      obtain ⟨he, hp⟩ := he
      subst he
      simp [lastEntry, GoMap.get?, hp]

theorem colourEnv_other {fr : Frame} {b : Bool} {k : Str} (hk : k ∉ colourNames) : lastEntry k (colourEnv fr b) = none := by
  refine lastEntry_none ?_
  intro p hp
  unfold colourEnv at hp
  rintro rfl
  refine hk ?_
  split at hp
  · split at hp
    · simp only [List.mem_cons, List.not_mem_nil, or_false] at hp
      rcases hp with rfl | rfl <;> decide
    · simp only [List.mem_singleton] at hp
      subst hp; decide
  · cases hp

theorem frame_noColor {loc : Loc} {call : Call} {fr : Frame} (h : FrameFor tasks loc call fr) :
    fr.noColor = (call.noColor || coloursOff tasks loc) := by
  unfold FrameFor at h
  unfold coloursOff
  split at h
  · rename_i hs
    subst h
    simp [hs, Frame.call]
  · rename_i j hs
    obtain ⟨_, items, labels, mode, lim, color, bs, bo, pl, w, ln, h1, h2, h3, h4⟩ := h
    simp only [hs, h1, h4]

theorem frame_silent {loc : Loc} {call : Call} {fr : Frame} (h : FrameFor tasks loc call fr) :
    fr.ovSilent = (blockSilent tasks loc).or call.silent := by
  unfold FrameFor at h
  unfold blockSilent
  split at h
  · rename_i hs
    subst h
    simp [hs, Frame.call]
  · rename_i j hs
    obtain ⟨_, items, labels, mode, lim, color, bs, bo, pl, w, ln, h1, h2, h3, h4⟩ := h
    simp only [hs, h1, h2]

theorem frame_output {loc : Loc} {call : Call} {fr : Frame} (h : FrameFor tasks loc call fr) :
    fr.ovOutput = (blockOutput tasks loc).or call.output := by
  unfold FrameFor at h
  unfold blockOutput
  split at h
  · rename_i hs
    subst h
    simp [hs, Frame.call]
  · rename_i j hs
    obtain ⟨_, items, labels, mode, lim, color, bs, bo, pl, w, ln, h1, h2, h3, h4⟩ := h
    simp only [hs, h1, h3]

theorem isOutput_or (a x y : Option Bool) (r : List (Option Bool)) :
    isOutput (a :: x.or y :: r) = isOutput (a :: x :: y :: r) := by
  cases a <;> cases x <;> simp [isOutput]

theorem isSilent_or (a x y : Option Bool) (r : List (Option Bool)) :
    isSilent (a :: x.or y :: r) = isSilent (a :: x :: y :: r) := by
  cases a <;> cases x <;> simp [isSilent]

theorem dirSetting_eq {a b d r : Str} (h : DirSetting [a, b, d] r) :
    r ≠ [] ∧ (if (if a = [] then b else a) = [] then d else (if a = [] then b else a)) = r := by
  obtain ⟨unset, rest, h1, h2, h3⟩ := h
  refine ⟨h2, ?_⟩
  match unset, h1 with
  | [], h1 =>
    simp only [List.nil_append, List.cons.injEq] at h1
    obtain ⟨rfl, -⟩ := h1
    simp [h2]
  | [x], h1 =>
    simp only [List.cons_append, List.nil_append, List.cons.injEq] at h1
    obtain ⟨rfl, rfl, -⟩ := h1
    have := h3 a (by simp)
    subst this
    simp [h2]
  | [x, y], h1 =>
    simp only [List.cons_append, List.nil_append, List.cons.injEq] at h1
    obtain ⟨rfl, rfl, rfl, -⟩ := h1
    have h4 := h3 a (by simp)
    have h5 := h3 b (by simp)
    subst h4; subst h5
    simp
  | x :: y :: z :: u, h1 =>
    simp at h1

end

end Bab
