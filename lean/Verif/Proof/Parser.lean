import Verif.Proof.Command
import Verif.Proof.Locate
import Verif.Spec.Parser
import Verif.Spec.Validate
import Mathlib.Data.List.Nodup
import Mathlib.Data.List.Pairwise
import Mathlib.Data.List.Perm.Subperm
/-
Loading files with includes.
-/

namespace Bab
open Spec

/-! ### Names -/

theorem nsName_eq (ns n : Str) : nsName ns n = fullName [ns] n := rfl

theorem fullName_append (a b : List Str) (n : Str) : fullName (a ++ b) n = fullName a (fullName b n) := by
  induction a with
  | nil => rfl
  | cons x a ih => simp [fullName, ih]

theorem nsName_inj {ns a b : Str} (h : nsName ns a = nsName ns b) : a = b := by
  unfold nsName at h
  exact List.cons_inj_right _ |>.mp (List.append_cancel_left h)

/-! ### Items -/

theorem callsIn_cons (x : Str) (item : RunItem) (items : List RunItem) :
    CallsIn x (item :: items) ↔ CallsIn x [item] ∨ CallsIn x items := by
  constructor
  · intro h
    cases h with
    | here h => exact Or.inl (.here h)
    | block h => exact Or.inl (.block h)
    | later h => exact Or.inr h
  · rintro (h | h)
    · cases h with
      | here h => exact .here h
      | block h => exact .block h
      | later h => cases h
    · exact .later h

mutual
theorem prefixTaskRun_eq (ns : Str) (item : RunItem) : prefixTaskRun ns item = renameItem (nsName ns) (bareItem item) := by
  cases item with
  | command v => rfl
  | task v => rfl
  | log v => rfl
  | prompt v => rfl
  | parallel items labels mode lim color s o pl w ln =>
    rw [prefixTaskRun, bareItem, renameItem, prefixTaskRuns_eq ns items]
theorem prefixTaskRuns_eq (ns : Str) (items : List RunItem) :
    prefixTaskRuns ns items = renameItems (nsName ns) (bareItems items) := by
  match items with
  | [] => rfl
  | item :: items => rw [prefixTaskRuns, bareItems, renameItems, prefixTaskRun_eq ns item, prefixTaskRuns_eq ns items]
end

mutual
theorem bare_rename (g : Str → Str) (item : RunItem) : bareItem (renameItem g item) = renameItem g (bareItem item) := by
  cases item with
  | command v => rfl
  | task v => rfl
  | log v => rfl
  | prompt v => rfl
  | parallel items labels mode lim color s o pl w ln =>
    rw [renameItem, bareItem, bareItem, renameItem, bares_rename g items]
theorem bares_rename (g : Str → Str) (items : List RunItem) :
    bareItems (renameItems g items) = renameItems g (bareItems items) := by
  match items with
  | [] => rfl
  | item :: items => rw [renameItems, bareItems, bareItems, renameItems, bare_rename g item, bares_rename g items]
end

mutual
theorem bare_bare (item : RunItem) : bareItem (bareItem item) = bareItem item := by
  cases item with
  | command v => rfl
  | task v => rfl
  | log v => rfl
  | prompt v => rfl
  | parallel items labels mode lim color s o pl w ln => rw [bareItem, bareItem, bares_bare items]
theorem bares_bare (items : List RunItem) : bareItems (bareItems items) = bareItems items := by
  match items with
  | [] => rfl
  | item :: items => rw [bareItems, bareItems, bare_bare item, bares_bare items]
end

mutual
theorem rename_rename (g h : Str → Str) (item : RunItem) :
    renameItem g (renameItem h item) = renameItem (fun x => g (h x)) item := by
  cases item with
  | command v => rfl
  | task v => rfl
  | log v => rfl
  | prompt v => rfl
  | parallel items labels mode lim color s o pl w ln => rw [renameItem, renameItem, renameItem, renames_rename g h items]
theorem renames_rename (g h : Str → Str) (items : List RunItem) :
    renameItems g (renameItems h items) = renameItems (fun x => g (h x)) items := by
  match items with
  | [] => rfl
  | item :: items => rw [renameItems, renameItems, renameItems, rename_rename g h item, renames_rename g h items]
end

mutual
theorem rename_id (item : RunItem) : renameItem (fun x => x) item = item := by
  cases item with
  | command v => rfl
  | task v => rfl
  | log v => rfl
  | prompt v => rfl
  | parallel items labels mode lim color s o pl w ln => rw [renameItem, renames_id items]
theorem renames_id (items : List RunItem) : renameItems (fun x => x) items = items := by
  match items with
  | [] => rfl
  | item :: items => rw [renameItems, rename_id item, renames_id items]
end

mutual
theorem callsIn_bare (x : Str) (item : RunItem) : CallsIn x [bareItem item] ↔ CallsIn x [item] := by
  cases item with
  | command v => exact Iff.rfl
  | task v => exact Iff.rfl
  | log v => exact Iff.rfl
  | prompt v => exact Iff.rfl
  | parallel items labels mode lim color s o pl w ln =>
    rw [bareItem]
    constructor
    · intro h
      cases h with
      | block h => exact .block ((callsIn_bares x items).mp h)
      | later h => cases h
    · intro h
      cases h with
      | block h => exact .block ((callsIn_bares x items).mpr h)
      | later h => cases h
theorem callsIn_bares (x : Str) (items : List RunItem) : CallsIn x (bareItems items) ↔ CallsIn x items := by
  match items with
  | [] => exact Iff.rfl
  | item :: items =>
    rw [bareItems, callsIn_cons, callsIn_cons x item, callsIn_bare x item, callsIn_bares x items]
end

mutual
theorem callsIn_rename (g : Str → Str) (x : Str) (item : RunItem) :
    CallsIn x [renameItem g item] ↔ ∃ b, x = g b ∧ CallsIn b [item] := by
  cases item with
  | command v =>
    constructor
    · intro h; cases h with | later h => cases h
    · rintro ⟨b, -, h⟩; cases h with | later h => cases h
  | log v =>
    constructor
    · intro h; cases h with | later h => cases h
    · rintro ⟨b, -, h⟩; cases h with | later h => cases h
  | prompt v =>
    constructor
    · intro h; cases h with | later h => cases h
    · rintro ⟨b, -, h⟩; cases h with | later h => cases h
  | task v =>
    rw [renameItem]
    constructor
    · intro h
      cases h with
      | here h => exact ⟨_, h.symm, .here rfl⟩
      | later h => cases h
    · rintro ⟨b, rfl, h⟩
      cases h with
      | here h => subst h; exact .here rfl
      | later h => cases h
  | parallel items labels mode lim color s o pl w ln =>
    rw [renameItem]
    constructor
    · intro h
      cases h with
      | block h =>
        obtain ⟨b, hb, hc⟩ := (callsIn_renames g x items).mp h
        exact ⟨b, hb, .block hc⟩
      | later h => cases h
    · rintro ⟨b, hb, h⟩
      cases h with
      | block h => exact .block ((callsIn_renames g x items).mpr ⟨b, hb, h⟩)
      | later h => cases h
theorem callsIn_renames (g : Str → Str) (x : Str) (items : List RunItem) :
    CallsIn x (renameItems g items) ↔ ∃ b, x = g b ∧ CallsIn b items := by
  match items with
  | [] =>
    constructor
    · intro h; cases h
    · rintro ⟨b, -, h⟩; cases h
  | item :: items =>
    rw [renameItems, callsIn_cons, callsIn_rename g x item, callsIn_renames g x items]
    constructor
    · rintro (⟨b, hb, h⟩ | ⟨b, hb, h⟩)
      · exact ⟨b, hb, (callsIn_cons b item items).mpr (Or.inl h)⟩
      · exact ⟨b, hb, .later h⟩
    · rintro ⟨b, hb, h⟩
      rcases (callsIn_cons b item items).mp h with h | h
      · exact Or.inl ⟨b, hb, h⟩
      · exact Or.inr ⟨b, hb, h⟩
end

/-! ### Settings -/

theorem firstOf_append {α : Type} (a b : List (Option α)) : firstOf (a ++ b) = (firstOf a).or (firstOf b) := by
  induction a with
  | nil => simp [firstOf]
  | cons x a ih => cases x <;> simp [firstOf, ih]

theorem firstOf_one {α : Type} (x : Option α) : firstOf [x] = x := by cases x <;> rfl

/-- own tasks are as in the file -/
theorem asIncluded_own (n p : Str) (T : Task) : AsIncluded [] [] n p T { T with name := n, sourcePath := p } where
  name := rfl
  source := rfl
  desc := rfl
  alias_ := by
    show T.alias = if T.alias = [] then [] else T.alias
    split
    · assumption
    · rfl
  aliases := by show T.aliases = T.aliases.map (fun x => x); simp
  vars := fun k => by simp [firstOf_one]
  noVars := by simp
  env := fun k => by simp [firstOf_one]
  silent := by simp [firstOf_one]
  output := by simp [firstOf_one]
  dir := by
    simp only [List.reverse_nil, List.map_nil, firstOf_one, nonEmpty]
    split
    · simp_all
    · rfl
  cond := rfl
  deps := by show T.deps = T.deps.map (fun x => x); simp
  run := by show T.run = renameItems (fun x => x) _; rw [renames_id]; rfl
  line := rfl
  depsLine := rfl

/-- one more include -/
theorem asIncluded_inc {nss : List Str} {bs : List Schema} {n f : Str} {T T' : Task} {b : Schema} {r : ParseResult} (ns : Str)
    (h : AsIncluded nss bs n f T T') (hv : r.vars = b.vars) (he : r.env = b.env) (hs : r.silent = b.silent)
    (ho : r.output = b.output) (hd : r.dir = b.dir) (w1 : GoMap.WF (b.vars.getD [])) (w2 : b.env.WF)
    (w3 : GoMap.WF (T'.vars.getD [])) (w4 : T'.env.WF) :
    AsIncluded (ns :: nss) (b :: bs) n f T (includedTask ns r (fullName nss n) T') where
  name := rfl
  line := h.line
  depsLine := h.depsLine
  source := h.source
  desc := h.desc
  alias_ := by
    show prefixAlias T'.alias ns = _
    unfold prefixAlias
    rw [h.alias_]
    by_cases ha : T.alias = []
    · simp [ha]
    · simp only [if_neg ha]
      rw [if_neg]
      · rfl
      · cases nss with
        | nil => exact ha
        | cons x nss => simp [fullName]
  aliases := by
    show T'.aliases.map (nsName ns) = _
    rw [h.aliases, List.map_map]; rfl
  vars := fun k => by
    show (mergeEnvMaps [r.vars.getD [], T'.vars.getD []]).get? k = _
    rw [hv, get?_mergeEnvMaps_two w1 w3, h.vars, List.reverse_cons, List.map_append, ← List.cons_append, firstOf_append]
    rw [List.map_cons, List.map_nil, firstOf_one]
  noVars := by simp [includedTask]
  env := fun k => by
    show (mergeEnvMaps [r.env, T'.env]).get? k = _
    rw [he, get?_mergeEnvMaps_two w2 w4, h.env, List.reverse_cons, List.map_append, ← List.cons_append, firstOf_append]
    rw [List.map_cons, List.map_nil, firstOf_one]
  silent := by
    show (if T'.silent = none then r.silent else T'.silent) = _
    rw [hs, h.silent, List.reverse_cons, List.map_append, ← List.cons_append, firstOf_append, List.map_cons, List.map_nil, firstOf_one]
    generalize firstOf (T.silent :: List.map (·.silent) bs.reverse) = x
    cases x <;> simp
  output := by
    show (if T'.output = none then r.output else T'.output) = _
    rw [ho, h.output, List.reverse_cons, List.map_append, ← List.cons_append, firstOf_append, List.map_cons, List.map_nil, firstOf_one]
    generalize firstOf (T.output :: List.map (·.output) bs.reverse) = x
    cases x <;> simp
  dir := by
    show (if T'.dir = [] then r.dir else T'.dir) = _
    rw [hd, h.dir, List.reverse_cons, List.map_append, ← List.cons_append, firstOf_append, List.map_cons, List.map_nil, firstOf_one]
    have hne : ∀ l : List Str, firstOf (l.map nonEmpty) ≠ some [] := by
      intro l
      induction l with
      | nil => simp [firstOf]
      | cons x l ih =>
        by_cases hx : x = []
        · simp [nonEmpty, hx, firstOf, ih]
        · simp [nonEmpty, hx, firstOf]
    have hx : firstOf (nonEmpty T.dir :: List.map (fun b => nonEmpty b.dir) bs.reverse) ≠ some [] := by
      have := hne (T.dir :: bs.reverse.map (·.dir))
      rw [List.map_cons, List.map_map] at this
      exact this
    generalize firstOf (nonEmpty T.dir :: List.map (fun b => nonEmpty b.dir) bs.reverse) = x at hx
    cases x with
    | none =>
      simp only [Option.getD_none, if_true, Option.none_or, nonEmpty]
      split
      · simp_all
      · rfl
    | some d =>
      have : d ≠ [] := fun h => hx (h ▸ rfl)
      simp [this]
  cond := h.cond
  deps := by
    show T'.deps.map (nsName ns) = _
    rw [h.deps, List.map_map]; rfl
  run := by
    show prefixTaskRuns ns T'.run = _
    rw [prefixTaskRuns_eq, h.run, bares_rename, renames_rename, if_neg (List.cons_ne_nil ns nss)]
    split
    · rfl
    · rw [bares_bare]; rfl

/-! ### Loops -/

theorem set_new {m : TaskMap} {k : Str} {v : Task} (h : k ∉ GoMap.keys m) : GoMap.set m k v = m ++ [(k, v)] := by
  induction m with
  | nil => rfl
  | cons q m ih =>
    obtain ⟨a, b⟩ := q
    simp only [GoMap.keys, List.map_cons, List.mem_cons, not_or] at h
    rw [GoMap.set, if_neg (Ne.symm h.1), ih h.2, List.cons_append]

/-- the entries that an include adds -/
def entries (ns : Str) (r : ParseResult) (l : TaskMap) : TaskMap := l.map fun q => (nsName ns q.1, includedTask ns r q.1 q.2)

theorem keys_entries (ns : Str) (r : ParseResult) (l : TaskMap) : GoMap.keys (entries ns r l) = l.keys.map (nsName ns) := by
  unfold GoMap.keys entries
  rw [List.map_map, List.map_map]; rfl

theorem includeTasks_ok {ns ip : Str} {r : ParseResult} {l tasks t : TaskMap} (h : includeTasks ns ip r l tasks = .ok t) :
    t = tasks ++ entries ns r l ∧ (tasks.WF → GoMap.WF t) := by
  induction l generalizing tasks with
  | nil => cases h; exact ⟨by simp [entries], fun h => h⟩
  | cons q l ih =>
    obtain ⟨n, T⟩ := q
    rw [includeTasks] at h
    by_cases hh : tasks.has (nsName ns n) = true
    · rw [if_pos hh] at h; cases h
    · rw [if_neg hh] at h
      obtain ⟨h1, h2⟩ := ih h
      have hnew : nsName ns n ∉ tasks.keys := fun hm => hh (GoMap.has_iff.mpr (GoMap.mem_keys_iff.mp hm))
      rw [set_new hnew] at h1
      refine ⟨by rw [h1]; simp [entries], fun hw => h2 (GoMap.WF_set hw _ _)⟩

theorem includeTasks_error {ns ip : Str} {r : ParseResult} {l tasks : TaskMap} {e : PErr} (hl : l.WF)
    (h : includeTasks ns ip r l tasks = .error e) :
    ∃ n T, (n, T) ∈ l ∧ nsName ns n ∈ tasks.keys ∧ e = .collision ip (nsName ns n) := by
  induction l generalizing tasks with
  | nil => cases h
  | cons q l ih =>
    obtain ⟨n, T⟩ := q
    rw [includeTasks] at h
    have hl' := List.nodup_cons.mp hl
    by_cases hh : tasks.has (nsName ns n) = true
    · rw [if_pos hh] at h
      cases h
      exact ⟨n, T, List.mem_cons_self, GoMap.mem_keys_iff.mpr (GoMap.has_iff.mp hh), rfl⟩
    · rw [if_neg hh] at h
      obtain ⟨m, U, h1, h2, h3⟩ := ih hl'.2 h
      rw [GoMap.mem_keys_set] at h2
      rcases h2 with h2 | h2
      · have := nsName_inj h2
        subst this
        exact absurd (List.mem_map.mpr ⟨_, h1, rfl⟩) hl'.1
      · exact ⟨m, U, List.mem_cons_of_mem _ h1, h2, h3⟩

section
variable {o : Orders} {loc : List Str} {path : Str} {load : List Str → Str → Except PErr ParseResult}

/-- what an include adds, if it is loaded -/
def added (o : Orders) (loc : List Str) (path : Str) (load : List Str → Str → Except PErr ParseResult) (q : Str × Str) : TaskMap :=
  match load (loc ++ [q.1]) (includePath (dirPath path) q.2) with
  | .ok r => entries q.1 r (o.tasks (loc ++ [q.1]) r.tasks)
  | .error _ => []

theorem includeLoop_ok {incs : GoMap Str} {tasks t : TaskMap} (h : includeLoop o loc path load incs tasks = .ok t) :
    (∀ q ∈ incs, ∃ r, load (loc ++ [q.1]) (includePath (dirPath path) q.2) = .ok r) ∧
    t = tasks ++ incs.flatMap (added o loc path load) ∧ (tasks.WF → GoMap.WF t) := by
  induction incs generalizing tasks with
  | nil => cases h; exact ⟨fun q hq => (by cases hq), by simp, fun h => h⟩
  | cons q incs ih =>
    obtain ⟨ns, inc⟩ := q
    rw [includeLoop] at h
    cases hr : load (loc ++ [ns]) (includePath (dirPath path) inc) with
    | error e => rw [hr] at h; cases h
    | ok r =>
      rw [hr] at h
      dsimp only at h
      cases hi : includeTasks ns (includePath (dirPath path) inc) r (o.tasks (loc ++ [ns]) r.tasks) tasks with
      | error e => rw [hi] at h; cases h
      | ok t1 =>
        rw [hi] at h
        obtain ⟨a1, a2⟩ := includeTasks_ok hi
        obtain ⟨b1, b2, b3⟩ := ih h
        refine ⟨?_, ?_, fun hw => b3 (a2 hw)⟩
        · intro q hq
          rcases List.mem_cons.mp hq with rfl | hq
          · exact ⟨r, hr⟩
          · exact b1 q hq
        · rw [b2, a1, List.flatMap_cons, List.append_assoc]
          congr 2
          unfold added
          dsimp only
          rw [hr]

/-- errors of the loop: of a file included, or a name which is already taken -/
theorem includeLoop_error {incs : GoMap Str} {tasks : TaskMap} {e : PErr} (ho : OrdersOK o)
    (hload : ∀ loc q r, load loc q = .ok r → r.tasks.WF) (h : includeLoop o loc path load incs tasks = .error e) :
    ∃ done ns inc rest e', incs = done ++ (ns, inc) :: rest ∧ e = .inInclude path ns e' ∧
      (load (loc ++ [ns]) (includePath (dirPath path) inc) = .error e' ∨
       ∃ r n T, load (loc ++ [ns]) (includePath (dirPath path) inc) = .ok r ∧ r.tasks.get? n = some T ∧
        e' = .collision (includePath (dirPath path) inc) (nsName ns n) ∧
        (nsName ns n ∈ tasks.keys ∨ ∃ q ∈ done, nsName ns n ∈ GoMap.keys (added o loc path load q))) := by
  induction incs generalizing tasks with
  | nil => cases h
  | cons q incs ih =>
    obtain ⟨ns, inc⟩ := q
    rw [includeLoop] at h
    cases hr : load (loc ++ [ns]) (includePath (dirPath path) inc) with
    | error e' =>
      rw [hr] at h; cases h
      exact ⟨[], ns, inc, incs, e', rfl, rfl, Or.inl hr⟩
    | ok r =>
      rw [hr] at h
      dsimp only at h
      cases hi : includeTasks ns (includePath (dirPath path) inc) r (o.tasks (loc ++ [ns]) r.tasks) tasks with
      | error e' =>
        rw [hi] at h; cases h
        have hp := (ho (loc ++ [ns])).2.1 r.tasks
        have hwf := hload _ _ _ hr
        obtain ⟨n, T, h1, h2, h3⟩ := includeTasks_error (GoMap.WF_perm hwf hp.symm) hi
        exact ⟨[], ns, inc, incs, e', rfl, rfl, Or.inr ⟨r, n, T, hr, GoMap.get?_of_mem hwf (hp.subset h1), h3, Or.inl h2⟩⟩
      | ok t1 =>
        rw [hi] at h
        obtain ⟨a1, a2⟩ := includeTasks_ok hi
        obtain ⟨done, ns', inc', rest, e', b1, b2, b3⟩ := ih h
        refine ⟨(ns, inc) :: done, ns', inc', rest, e', by rw [b1]; rfl, b2, ?_⟩
        rcases b3 with b3 | ⟨r', n, T, c1, c2, c3, c4⟩
        · exact Or.inl b3
        · refine Or.inr ⟨r', n, T, c1, c2, c3, ?_⟩
          rcases c4 with c4 | ⟨q, hq, c4⟩
          · rw [a1] at c4
            unfold GoMap.keys at c4
            rw [List.map_append, List.mem_append] at c4
            rcases c4 with c4 | c4
            · exact Or.inl c4
            · refine Or.inr ⟨(ns, inc), List.mem_cons_self, ?_⟩
              unfold added
              dsimp only
              rw [hr]
              exact c4
          · exact Or.inr ⟨q, List.mem_cons_of_mem _ hq, c4⟩

end

/-! ### What loading gives -/

/-- the tasks of a file are those it provides -/
structure TasksOf (files : Files) (p : Str) (t : TaskMap) : Prop where
  wf : t.WF
  sound : ∀ full T', t.get? full = some T' → ∃ nss bs n f T, Provides files p nss bs n f T ∧ full = fullName nss n ∧
    AsIncluded nss bs n f T T'
  complete : ∀ nss bs n f T, Provides files p nss bs n f T → ∃ T', t.get? (fullName nss n) = some T' ∧ AsIncluded nss bs n f T T'
  maps : ∀ full T', t.get? full = some T' → GoMap.WF (T'.vars.getD []) ∧ T'.env.WF

/-- the settings of a file -/
structure SettingsOf (b : Schema) (r : ParseResult) : Prop where
  vars : r.vars = b.vars
  env : r.env = b.env
  silent : r.silent = b.silent
  output : r.output = b.output
  dir : r.dir = b.dir

theorem pairwise_disjoint {α β : Type} {f : α → List β} {l : List α} (h : l.Pairwise (Function.onFun List.Disjoint f)) {a b : α}
    (ha : a ∈ l) (hb : b ∈ l) (hne : a ≠ b) : List.Disjoint (f a) (f b) := by
  induction l with
  | nil => cases ha
  | cons x l ih =>
    obtain ⟨h1, h2⟩ := List.pairwise_cons.mp h
    rcases List.mem_cons.mp ha with rfl | ha'
    · rcases List.mem_cons.mp hb with rfl | hb'
      · exact absurd rfl hne
      · exact h1 b hb'
    · rcases List.mem_cons.mp hb with rfl | hb'
      · exact fun x hx hx' => h1 a ha' hx' hx
      · exact ih h2 ha' hb'

theorem parseFile_ok {files : Files} (hw : FilesWF files) {o : Orders} (ho : OrdersOK o) (fuel : Nat) {visited loc : List Str} {p : Str}
    {r : ParseResult} (h : parseFile files o fuel visited loc p = .ok r) :
    Loads files p ∧ TasksOf files p r.tasks ∧ ∃ b, files.get? p = some (some b) ∧ SettingsOf b r := by
  induction fuel generalizing visited loc p r with
  | zero => cases h
  | succ fuel ih =>
    rw [parseFile] at h
    by_cases hv : p ∈ visited
    · rw [if_pos hv] at h; cases h
    · rw [if_neg hv] at h
      cases hf : files.get? p with
      | none => rw [hf] at h; cases h
      | some ob =>
        cases ob with
        | none => rw [hf] at h; cases h
        | some bf =>
          rw [hf] at h
          dsimp only at h
          generalize hown : (bf.tasks.map fun q => (q.1, ({ q.2 with name := q.1, sourcePath := p } : Task))) = own at h
          cases hl : includeLoop o loc p (parseFile files o fuel (p :: visited)) (o.incs loc bf.includes) own with
          | error e => rw [hl] at h; cases h
          | ok t =>
            rw [hl] at h
            cases h
            obtain ⟨w1, w2, w3, w4, w5⟩ := hw p bf hf
            obtain ⟨l1, l2, l3⟩ := includeLoop_ok hl
            have hperm := (ho loc).1 bf.includes
            have hownwf : GoMap.WF own := by
              rw [← hown]
              unfold GoMap.WF GoMap.keys at w1 ⊢
              rw [List.map_map]
              exact w1
            have hgetown : ∀ n T', (n, T') ∈ own ↔ ∃ T, bf.tasks.get? n = some T ∧ T' = { T with name := n, sourcePath := p } := by
              intro n T'
              rw [← hown]
              simp only [List.mem_map, Prod.exists, Prod.mk.injEq]
              constructor
              · rintro ⟨a, T, hm, rfl, rfl⟩
                exact ⟨T, GoMap.get?_of_mem w1 hm, rfl⟩
              · rintro ⟨T, hT, rfl⟩
                exact ⟨n, T, GoMap.mem_of_get? hT, rfl, rfl⟩
            have htwf := l3 hownwf
            -- included files
            have hinc : ∀ ns q, Includes files p ns q → ∃ inc r, (ns, inc) ∈ o.incs loc bf.includes ∧
                q = includePath (dirPath p) inc ∧ parseFile files o fuel (p :: visited) (loc ++ [ns]) q = .ok r := by
              rintro ns q ⟨bf', inc, hf', hg, rfl⟩
              rw [hf] at hf'; cases hf'
              have hm := hperm.symm.subset (GoMap.mem_of_get? hg)
              obtain ⟨r, hr⟩ := l1 _ hm
              exact ⟨inc, r, hm, rfl, hr⟩
            have hincs : ∀ ns inc, (ns, inc) ∈ o.incs loc bf.includes → Includes files p ns (includePath (dirPath p) inc) :=
              fun ns inc hm => ⟨bf, inc, hf, GoMap.get?_of_mem w2 (hperm.subset hm), rfl⟩
            have hmemt : ∀ full T', t.get? full = some T' ↔ (full, T') ∈ own ∨ ∃ ns inc r name T,
                (ns, inc) ∈ o.incs loc bf.includes ∧
                parseFile files o fuel (p :: visited) (loc ++ [ns]) (includePath (dirPath p) inc) = .ok r ∧
                r.tasks.get? name = some T ∧ full = nsName ns name ∧ T' = includedTask ns r name T := by
              intro full T'
              rw [GoMap.get?_iff_mem htwf, l2, List.mem_append, List.mem_flatMap]
              refine or_congr_right ⟨?_, ?_⟩
              · rintro ⟨⟨ns, inc⟩, hm, hq⟩
                obtain ⟨r, hr⟩ := l1 _ hm
                unfold added at hq
                dsimp only at hq hr
                rw [hr] at hq
                unfold entries at hq
                simp only [List.mem_map, Prod.exists, Prod.mk.injEq] at hq
                obtain ⟨name, T, hT, rfl, rfl⟩ := hq
                have hpt := (ho (loc ++ [ns])).2.1 r.tasks
                exact ⟨ns, inc, r, name, T, hm, hr, GoMap.get?_of_mem (ih hr).2.1.wf (hpt.subset hT), rfl, rfl⟩
              · rintro ⟨ns, inc, r, name, T, hm, hr, hT, rfl, rfl⟩
                refine ⟨(ns, inc), hm, ?_⟩
                unfold added
                dsimp only
                rw [hr]
                unfold entries
                have hpt := (ho (loc ++ [ns])).2.1 r.tasks
                exact List.mem_map.mpr ⟨(name, T), hpt.symm.subset (GoMap.mem_of_get? hT), rfl⟩
            have hsound : ∀ full T', t.get? full = some T' → ∃ nss bs n f T, Provides files p nss bs n f T ∧ full = fullName nss n ∧
                AsIncluded nss bs n f T T' := by
              intro full T' hT'
              rcases (hmemt full T').mp hT' with hm | ⟨ns, inc, r, name, T, hm, hr, hT, rfl, rfl⟩
              · obtain ⟨T, hT, rfl⟩ := (hgetown _ _).mp hm
                exact ⟨[], [], full, p, T, .own hf hT, rfl, asIncluded_own _ _ _⟩
              · obtain ⟨-, hto, b, hb, hset⟩ := ih hr
                obtain ⟨nss, bs, n, f, U, hU, rfl, has⟩ := hto.sound _ _ hT
                obtain ⟨v1, v2⟩ := hto.maps _ _ hT
                obtain ⟨-, -, x1, x2, -⟩ := hw _ _ hb
                exact ⟨ns :: nss, b :: bs, n, f, U, .inc (hincs _ _ hm) hb hU, rfl,
                  asIncluded_inc ns has hset.vars hset.env hset.silent hset.output hset.dir x1 x2 v1 v2⟩
            have hcomplete : ∀ nss bs n f T, Provides files p nss bs n f T → ∃ T', t.get? (fullName nss n) = some T' ∧ AsIncluded nss bs n f T T' := by
              intro nss bs n f T hP
              cases hP with
              | own hf' hT =>
                rw [hf] at hf'; cases hf'
                exact ⟨_, (hmemt _ _).mpr (Or.inl ((hgetown _ _).mpr ⟨T, hT, rfl⟩)), asIncluded_own _ _ _⟩
              | @inc _ ns q b nss' bs' _ _ _ hi hb hP =>
                obtain ⟨inc, r, hm, rfl, hr⟩ := hinc _ _ hi
                obtain ⟨-, hto, b', hb', hset⟩ := ih hr
                rw [hb] at hb'; cases hb'
                obtain ⟨U, hU, has⟩ := hto.complete _ _ _ _ _ hP
                obtain ⟨v1, v2⟩ := hto.maps _ _ hU
                obtain ⟨-, -, x1, x2, -⟩ := hw _ _ hb
                exact ⟨_, (hmemt _ _).mpr (Or.inr ⟨ns, inc, r, _, U, hm, hr, hU, rfl, rfl⟩),
                  asIncluded_inc ns has hset.vars hset.env hset.silent hset.output hset.dir x1 x2 v1 v2⟩
            refine ⟨.mk hf ?_ ?_, ⟨htwf, hsound, hcomplete, ?_⟩, bf, rfl, rfl, rfl, rfl, rfl, rfl⟩
            · intro ns q hi
              obtain ⟨inc, r, hm, rfl, hr⟩ := hinc _ _ hi
              exact (ih hr).1
            · -- names are distinct
              have hkeys : (GoMap.keys own ++ (o.incs loc bf.includes).flatMap (fun q => GoMap.keys (added o loc p (parseFile files o fuel (p :: visited)) q))).Nodup := by
                have := htwf
                rw [l2] at this
                unfold GoMap.WF GoMap.keys at this
                rw [List.map_append, List.map_flatMap] at this
                exact this
              rw [List.nodup_append, List.nodup_flatMap] at hkeys
              obtain ⟨k1, ⟨k2, k3⟩, k4⟩ := hkeys
              have hkeyown : ∀ {bs n f T}, Provides files p [] bs n f T → n ∈ GoMap.keys own := by
                intro bs n f T hP
                cases hP with
                | own hf' hT =>
                  rw [hf] at hf'; cases hf'
                  exact List.mem_map.mpr ⟨_, (hgetown _ _).mpr ⟨T, hT, rfl⟩, rfl⟩
              have hkeyinc : ∀ {ns nss bs n f T}, Provides files p (ns :: nss) bs n f T → ∃ inc r, (ns, inc) ∈ o.incs loc bf.includes ∧
                  parseFile files o fuel (p :: visited) (loc ++ [ns]) (includePath (dirPath p) inc) = .ok r ∧
                  nsName ns (fullName nss n) ∈ GoMap.keys (added o loc p (parseFile files o fuel (p :: visited)) (ns, inc)) ∧
                  ∃ bs', Provides files (includePath (dirPath p) inc) nss bs' n f T := by
                intro ns nss bs n f T hP
                cases hP with
                | inc hi hb hP =>
                  obtain ⟨inc, r, hm, rfl, hr⟩ := hinc _ _ hi
                  obtain ⟨U, hU, -⟩ := (ih hr).2.1.complete _ _ _ _ _ hP
                  refine ⟨inc, r, hm, hr, ?_, _, hP⟩
                  unfold added
                  dsimp only
                  rw [hr]
                  dsimp only
                  rw [keys_entries]
                  refine List.mem_map.mpr ⟨_, ?_, rfl⟩
                  have hpt := (ho (loc ++ [ns])).2.1 r.tasks
                  exact List.mem_map.mpr ⟨_, hpt.symm.subset (GoMap.mem_of_get? hU), rfl⟩
              intro nss bs n f T nss' bs' n' f' T' hP hP' heq
              cases nss with
              | nil =>
                cases nss' with
                | nil => exact ⟨rfl, heq⟩
                | cons ns' nss' =>
                  exfalso
                  obtain ⟨inc, r, hm, -, hk, -⟩ := hkeyinc hP'
                  exact k4 _ (hkeyown hP) _ (List.mem_flatMap.mpr ⟨_, hm, hk⟩) heq
              | cons ns nss =>
                obtain ⟨inc, r, hm, hr, hk, bs1, hP1⟩ := hkeyinc hP
                cases nss' with
                | nil =>
                  exfalso
                  exact k4 _ (hkeyown hP') _ (List.mem_flatMap.mpr ⟨_, hm, hk⟩) heq.symm
                | cons ns' nss' =>
                  obtain ⟨inc', r', hm', hr', hk', bs2, hP2⟩ := hkeyinc hP'
                  by_cases hne : (ns, inc) = (ns', inc')
                  · cases hne
                    have heq' := nsName_inj heq
                    obtain ⟨hl, -⟩ := ih hr
                    cases hl with
                    | mk _ _ hd =>
                      obtain ⟨e1, e2⟩ := hd _ _ _ _ _ _ _ _ _ _ hP1 hP2 heq'
                      exact ⟨by rw [e1], e2⟩
                  · exfalso
                    have heq'' : nsName ns (fullName nss n) = nsName ns' (fullName nss' n') := heq
                    rw [← heq''] at hk'
                    have := pairwise_disjoint k3 hm hm' hne
                    exact this hk hk'
            · intro full T' hT'
              rcases (hmemt full T').mp hT' with hm | ⟨ns, inc, r, name, T, hm, hr, hT, rfl, rfl⟩
              · obtain ⟨T, hT, rfl⟩ := (hgetown _ _).mp hm
                exact w5 _ T hT
              · exact ⟨WF_mergeEnvMaps _, WF_mergeEnvMaps _⟩

/-! ### Errors -/

/-- one or more includes lead from a file back to itself -/
def OnCycle (files : Files) (q : Str) : Prop := ∃ ns nss, IncPath files q (ns :: nss) q

theorem incPath_trans {files : Files} {p q r : Str} {a b : List Str} (h1 : IncPath files p a q) (h2 : IncPath files q b r) :
    IncPath files p (a ++ b) r := by
  induction h1 with
  | refl => exact h2
  | step h _ ih => exact .step h (ih h2)

/-- an error has a reason in the files -/
def Justified (files : Files) (p : Str) : PErr → Prop
  | .notFound q => (∃ nss, IncPath files p nss q) ∧ files.get? q = none
  | .invalid q => (∃ nss, IncPath files p nss q) ∧ files.get? q = some none
  | .circular q _ => (∃ nss, IncPath files p nss q) ∧ OnCycle files q
  | .collision _ full => ∃ nss q, IncPath files p nss q ∧ ∃ as bs n f T as' bs' n' f' T', Provides files q as bs n f T ∧
      Provides files q as' bs' n' f' T' ∧ full = fullName as n ∧ full = fullName as' n' ∧ as ≠ as'
  | _ => False

theorem Justified.up {files : Files} {p q : Str} {nss : List Str} (h : IncPath files p nss q) {e : PErr} (hj : Justified files q e) :
    Justified files p e := by
  cases e with
  | notFound x => exact ⟨⟨_, incPath_trans h hj.1.choose_spec⟩, hj.2⟩
  | invalid x => exact ⟨⟨_, incPath_trans h hj.1.choose_spec⟩, hj.2⟩
  | circular x _ => exact ⟨⟨_, incPath_trans h hj.1.choose_spec⟩, hj.2⟩
  | collision x y =>
    obtain ⟨nss, q, h1, h2⟩ := hj
    exact ⟨_, q, incPath_trans h h1, h2⟩
  | pathEmpty => exact hj.elim
  | inInclude _ _ _ => exact hj.elim
  | validation _ => exact hj.elim
  | fuel => exact hj.elim

/-- a collision: the file provides two tasks with the name, one of them through this include -/
theorem collision_real {files : Files} (hw : FilesWF files) {o : Orders} (ho : OrdersOK o) {fuel : Nat} {visited loc : List Str} {p : Str}
    {bf : Schema} (hf : files.get? p = some (some bf)) {done rest : GoMap Str} {ns inc : Str} (h1 : o.incs loc bf.includes = done ++ (ns, inc) :: rest)
    {r : ParseResult} {n : Str} {T : Task} (c1 : parseFile files o fuel visited (loc ++ [ns]) (includePath (dirPath p) inc) = .ok r)
    (c2 : r.tasks.get? n = some T)
    (c4 : nsName ns n ∈ GoMap.keys (bf.tasks.map fun q => (q.1, ({ q.2 with name := q.1, sourcePath := p } : Task))) ∨
      ∃ q ∈ done, nsName ns n ∈ GoMap.keys (added o loc p (parseFile files o fuel visited) q)) :
    ∃ nss bs m f U as' bs' m' f' U', Provides files p (ns :: nss) bs m f U ∧ Provides files p as' bs' m' f' U' ∧
      nsName ns n = fullName (ns :: nss) m ∧ nsName ns n = fullName as' m' ∧ ns :: nss ≠ as' := by
  obtain ⟨w1, w2, w3, w4, w5⟩ := hw p bf hf
  have hperm := (ho loc).1 bf.includes
  have hincs : ∀ ns inc, (ns, inc) ∈ o.incs loc bf.includes → Includes files p ns (includePath (dirPath p) inc) :=
    fun ns inc hm => ⟨bf, inc, hf, GoMap.get?_of_mem w2 (hperm.subset hm), rfl⟩
  have hi := hincs ns inc (by rw [h1]; simp)
  obtain ⟨-, hto, b, hb, -⟩ := parseFile_ok hw ho _ c1
  obtain ⟨nss, bs, m, f, U, hU, rfl, -⟩ := hto.sound _ _ c2
  have hP : Provides files p (ns :: nss) (b :: bs) m f U := .inc hi hb hU
  refine ⟨nss, b :: bs, m, f, U, ?_⟩
  rcases c4 with c4 | ⟨⟨ns', inc'⟩, hq, c4⟩
  · obtain ⟨⟨a, T'⟩, ha, rfl⟩ := List.mem_map.mp c4
    obtain ⟨⟨a', T''⟩, ha', he⟩ := List.mem_map.mp ha
    cases he
    exact ⟨[], [], _, _, _, hP, .own hf (GoMap.get?_of_mem w1 ha'), rfl, rfl, by simp⟩
  · have hm' : (ns', inc') ∈ o.incs loc bf.includes := by rw [h1]; exact List.mem_append_left _ hq
    unfold added at c4
    dsimp only at c4
    cases hr' : parseFile files o fuel visited (loc ++ [ns']) (includePath (dirPath p) inc') with
    | error e2 => rw [hr'] at c4; cases c4
    | ok r' =>
      rw [hr'] at c4
      dsimp only at c4
      rw [keys_entries] at c4
      obtain ⟨x, hx, hxe⟩ := List.mem_map.mp c4
      obtain ⟨⟨x', T'⟩, hx', rfl⟩ := List.mem_map.mp hx
      obtain ⟨-, hto', b', hb', -⟩ := parseFile_ok hw ho _ hr'
      have hpt := (ho (loc ++ [ns'])).2.1 r'.tasks
      obtain ⟨nss', bs', m', f', U', hU', he', -⟩ := hto'.sound _ _ (GoMap.get?_of_mem hto'.wf (hpt.subset hx'))
      dsimp only at hxe he'
      subst he'
      refine ⟨ns' :: nss', b' :: bs', m', f', U', hP, .inc (hincs _ _ hm') hb' hU', rfl, hxe.symm, ?_⟩
      intro hns
      cases hns
      -- the same namespace twice
      have hwf : GoMap.WF (o.incs loc bf.includes) := GoMap.WF_perm w2 hperm.symm
      unfold GoMap.WF GoMap.keys at hwf
      rw [h1, List.map_append, List.map_cons, List.nodup_append] at hwf
      exact hwf.2.2 _ (List.mem_map.mpr ⟨_, hq, rfl⟩) _ List.mem_cons_self rfl

theorem parseFile_error {files : Files} (hw : FilesWF files) {o : Orders} (ho : OrdersOK o) (fuel : Nat) {visited loc : List Str} {p : Str}
    {e : PErr} (h : parseFile files o fuel visited loc p = .error e) (hnd : visited.Nodup) (hsub : ∀ v ∈ visited, v ∈ files.keys)
    (hanc : ∀ v ∈ visited, ∃ ns nss, IncPath files v (ns :: nss) p) (hfuel : files.length + 1 ≤ fuel + visited.length) :
    Justified files p (rootCause e) := by
  have hlen : visited.length ≤ files.length := by
    have := (List.subperm_of_subset hnd (fun v hv => hsub v hv)).length_le
    simpa [GoMap.keys] using this
  induction fuel generalizing visited loc p e with
  | zero => omega
  | succ fuel ih =>
    rw [parseFile] at h
    by_cases hv : p ∈ visited
    · rw [if_pos hv] at h; cases h
      exact ⟨⟨[], .refl p⟩, hanc p hv⟩
    · rw [if_neg hv] at h
      cases hf : files.get? p with
      | none =>
        rw [hf] at h; cases h
        exact ⟨⟨[], .refl p⟩, hf⟩
      | some ob =>
        cases ob with
        | none =>
          rw [hf] at h; cases h
          exact ⟨⟨[], .refl p⟩, hf⟩
        | some bf =>
          rw [hf] at h
          dsimp only at h
          generalize hown : (bf.tasks.map fun q => (q.1, ({ q.2 with name := q.1, sourcePath := p } : Task))) = own at h
          cases hl : includeLoop o loc p (parseFile files o fuel (p :: visited)) (o.incs loc bf.includes) own with
          | ok t => rw [hl] at h; cases h
          | error e' =>
            rw [hl] at h
            cases h
            obtain ⟨w1, w2, w3, w4, w5⟩ := hw p bf hf
            have hperm := (ho loc).1 bf.includes
            obtain ⟨done, ns, inc, rest, e1, h1, h2, h3⟩ := includeLoop_error ho (fun _ _ _ h => (parseFile_ok hw ho _ h).2.1.wf) hl
            have hincs : ∀ ns inc, (ns, inc) ∈ o.incs loc bf.includes → Includes files p ns (includePath (dirPath p) inc) :=
              fun ns inc hm => ⟨bf, inc, hf, GoMap.get?_of_mem w2 (hperm.subset hm), rfl⟩
            have hm : (ns, inc) ∈ o.incs loc bf.includes := by rw [h1]; simp
            have hi := hincs _ _ hm
            have hpk : p ∈ files.keys := GoMap.mem_keys_iff.mpr (by rw [hf]; simp)
            subst h2
            rw [rootCause]
            rcases h3 with h3 | ⟨r, n, T, c1, c2, rfl, c4⟩
            · have hnd' : (p :: visited).Nodup := List.nodup_cons.mpr ⟨hv, hnd⟩
              have hsub' : ∀ v ∈ p :: visited, v ∈ files.keys := by
                intro v hv
                rcases List.mem_cons.mp hv with rfl | hv
                · exact hpk
                · exact hsub v hv
              refine Justified.up (.step hi (.refl _)) (ih h3 hnd' hsub' ?_ (by simp only [List.length_cons]; omega) ?_)
              · intro v hv
                rcases List.mem_cons.mp hv with rfl | hv
                · exact ⟨ns, [], .step hi (.refl _)⟩
                · obtain ⟨a, as, ha⟩ := hanc v hv
                  exact ⟨a, as ++ [ns], incPath_trans ha (.step hi (.refl _))⟩
              · have := (List.subperm_of_subset hnd' (fun v hv => hsub' v hv)).length_le
                simpa [GoMap.keys] using this
            · -- a collision
              subst hown
              obtain ⟨nss, bs, m, f, U, hc⟩ := collision_real hw ho hf h1 c1 c2 c4
              exact ⟨[], p, .refl p, ns :: nss, bs, m, f, U, hc⟩

theorem loads_inc {files : Files} {p q : Str} {nss : List Str} (h : IncPath files p nss q) (hl : Loads files p) : Loads files q := by
  induction h with
  | refl => exact hl
  | step h _ ih =>
    cases hl with
    | mk _ hi _ => exact ih (hi _ _ h)

theorem loads_no_cycle {files : Files} {p : Str} (hl : Loads files p) : ¬ OnCycle files p := by
  induction hl with
  | mk hf hi hd ih =>
    rintro ⟨ns, nss, h⟩
    cases h with
    | step h hr =>
      refine ih _ _ h ?_
      cases hr with
      | refl => exact ⟨_, _, .step h (.refl _)⟩
      | step h' hr' =>
        have := incPath_trans (IncPath.step h' hr') (.step h (.refl _))
        exact ⟨_, _, this⟩

theorem loads_not_justified {files : Files} {p : Str} (hl : Loads files p) (e : PErr) : ¬ Justified files p e := by
  intro hj
  cases e with
  | notFound x =>
    obtain ⟨⟨nss, h⟩, hn⟩ := hj
    cases loads_inc h hl with
    | mk hf _ _ => rw [hn] at hf; cases hf
  | invalid x =>
    obtain ⟨⟨nss, h⟩, hn⟩ := hj
    cases loads_inc h hl with
    | mk hf _ _ => rw [hn] at hf; cases hf
  | circular x _ =>
    obtain ⟨⟨nss, h⟩, hn⟩ := hj
    exact loads_no_cycle (loads_inc h hl) hn
  | collision x y =>
    obtain ⟨nss, q, h, as, bs, n, f, T, as', bs', n', f', T', h1, h2, h3, h4, h5⟩ := hj
    cases loads_inc h hl with
    | mk _ _ hd => exact h5 (hd _ _ _ _ _ _ _ _ _ _ h1 h2 (h3 ▸ h4)).1
  | pathEmpty => exact hj.elim
  | inInclude _ _ _ => exact hj.elim
  | validation _ => exact hj.elim
  | fuel => exact hj.elim

end Bab
