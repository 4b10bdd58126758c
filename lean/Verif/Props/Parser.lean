import Verif.Proof.Parser
import Verif.Props.Validate
/-
Properties of loading Babfiles with includes: C32 (names and references), C33 (settings), C34 (cycles of
includes), C35 (no task is lost).
-/

namespace Bab

open Spec

/-- loading a file, as `Parse` does before validation -/
abbrev load (files : Files) (o : Orders) (p : Str) : Except PErr ParseResult := parseFile files o (files.length + 2) [] [] p

section
variable {files : Files} {o : Orders} {p : Str} {r : ParseResult}

theorem load_error (hw : FilesWF files) (ho : OrdersOK o) {e : PErr} (h : load files o p = .error e) :
    Justified files p (rootCause e) :=
  parseFile_error hw ho _ h List.nodup_nil (fun v hv => by cases hv) (fun v hv => by cases hv) (by simp)

/-- **C34, C35** Loading succeeds exactly if the file and all files included from it are Babfiles, includes do not
go round in circles, and no name belongs to two tasks; in whatever orders the maps are visited. -/
theorem C35_loads (hw : FilesWF files) (ho : OrdersOK o) : (∃ r, load files o p = .ok r) ↔ Loads files p := by
  constructor
  · rintro ⟨r, h⟩
    exact (parseFile_ok hw ho _ h).1
  · intro h
    cases hr : load files o p with
    | ok r => exact ⟨r, rfl⟩
    | error e => exact absurd (load_error hw ho hr) (loads_not_justified h _)

/-- **C34** Loading ends on every set of files: the bound on the depth which the model needs is never reached. -/
theorem C34_terminates (hw : FilesWF files) (ho : OrdersOK o) {e : PErr} (h : load files o p = .error e) : rootCause e ≠ .fuel := by
  intro hf
  have := load_error hw ho h
  rw [hf] at this
  exact this

/-- **C34** If the includes lead round in a circle, loading fails. -/
theorem C34_cycle_rejected (hw : FilesWF files) (ho : OrdersOK o) {nss : List Str} {q : Str} (hq : IncPath files p nss q)
    {ns : Str} {nss' : List Str} (hc : IncPath files q (ns :: nss') q) : ∃ e, load files o p = .error e := by
  cases hr : load files o p with
  | error e => exact ⟨e, rfl⟩
  | ok r => exact absurd ⟨ns, nss', hc⟩ (loads_no_cycle (loads_inc hq (parseFile_ok hw ho _ hr).1))

/-- **C34** If an error about a cycle of includes is reported for a file, then this file is reached and really
includes itself, directly or through others. A file included in several places without a cycle is none. -/
theorem C34_circular_is_real (hw : FilesWF files) (ho : OrdersOK o) {e : PErr} (h : load files o p = .error e) {q : Str}
    {ch : List Str} (he : rootCause e = .circular q ch) : (∃ nss, IncPath files p nss q) ∧ ∃ ns nss, IncPath files q (ns :: nss) q := by
  have := load_error hw ho h
  rw [he] at this
  exact this

/-- **C34** If all files that are reached are Babfiles, and no name belongs to two tasks, then the only possible error
is the one about a cycle. -/
theorem C34_circular_error (hw : FilesWF files) (ho : OrdersOK o) {e : PErr} (h : load files o p = .error e)
    (hok : ∀ nss q, IncPath files p nss q → ∃ b, files.get? q = some (some b))
    (hd : ∀ nss q, IncPath files p nss q → ∀ as bs n f T as' bs' n' f' T', Provides files q as bs n f T →
      Provides files q as' bs' n' f' T' → fullName as n = fullName as' n' → as = as') :
    ∃ q ch, rootCause e = .circular q ch := by
  have hj := load_error hw ho h
  cases hr : rootCause e with
  | circular q ch => exact ⟨q, ch, rfl⟩
  | notFound q =>
    rw [hr] at hj
    obtain ⟨⟨nss, h1⟩, h2⟩ := hj
    obtain ⟨b, hb⟩ := hok _ _ h1
    rw [h2] at hb; cases hb
  | invalid q =>
    rw [hr] at hj
    obtain ⟨⟨nss, h1⟩, h2⟩ := hj
    obtain ⟨b, hb⟩ := hok _ _ h1
    rw [h2] at hb; cases hb
  | collision x y =>
    rw [hr] at hj
    obtain ⟨nss, q, h1, as, bs, n, f, T, as', bs', n', f', T', h2, h3, h4, h5, h6⟩ := hj
    exact absurd (hd _ _ h1 _ _ _ _ _ _ _ _ _ _ h2 h3 (h4 ▸ h5)) h6
  | pathEmpty => rw [hr] at hj; exact hj.elim
  | inInclude _ _ _ => rw [hr] at hj; exact hj.elim
  | validation _ => rw [hr] at hj; exact hj.elim
  | fuel => rw [hr] at hj; exact hj.elim

/-- **C35** A collision is only reported if two tasks really have that name. -/
theorem C35_collision_is_real (hw : FilesWF files) (ho : OrdersOK o) {e : PErr} (h : load files o p = .error e) {x full : Str}
    (he : rootCause e = .collision x full) : ∃ nss q, IncPath files p nss q ∧ ∃ as bs n f T as' bs' n' f' T',
      Provides files q as bs n f T ∧ Provides files q as' bs' n' f' T' ∧ full = fullName as n ∧ full = fullName as' n' ∧ as ≠ as' := by
  have := load_error hw ho h
  rw [he] at this
  exact this

/-- **C35** The loaded tasks are exactly those that the file provides, each under its full name. -/
theorem C35_exactly_the_union (hw : FilesWF files) (ho : OrdersOK o) (h : load files o p = .ok r) (full : Str) :
    (∃ T', r.tasks.get? full = some T') ↔ ∃ nss bs n f T, Provides files p nss bs n f T ∧ full = fullName nss n := by
  obtain ⟨-, hto, -⟩ := parseFile_ok hw ho _ h
  constructor
  · rintro ⟨T', hT'⟩
    obtain ⟨nss, bs, n, f, T, h1, h2, -⟩ := hto.sound _ _ hT'
    exact ⟨nss, bs, n, f, T, h1, h2⟩
  · rintro ⟨nss, bs, n, f, T, h1, rfl⟩
    obtain ⟨T', hT', -⟩ := hto.complete _ _ _ _ _ h1
    exact ⟨T', hT'⟩

theorem includes_unique {ns q q' : Str} (h : Includes files p ns q) (h' : Includes files p ns q') : q = q' := by
  obtain ⟨b, i, h1, h2, rfl⟩ := h
  obtain ⟨b', i', h1', h2', rfl⟩ := h'
  rw [h1] at h1'; cases h1'
  rw [h2] at h2'; cases h2'
  rfl

theorem provides_unique {nss : List Str} {bs bs' : List Schema} {n f f' : Str} {T T' : Task} (h : Provides files p nss bs n f T)
    (h' : Provides files p nss bs' n f' T') : bs = bs' ∧ f = f' ∧ T = T' := by
  induction h generalizing bs' with
  | own hf ht =>
    cases h' with
    | own hf' ht' =>
      rw [hf] at hf'; cases hf'
      rw [ht] at ht'; cases ht'
      exact ⟨rfl, rfl, rfl⟩
  | inc hi hf _ ih =>
    cases h' with
    | inc hi' hf' hp' =>
      have := includes_unique hi hi'
      subst this
      rw [hf] at hf'; cases hf'
      obtain ⟨h1, h2, h3⟩ := ih hp'
      exact ⟨by rw [h1], h2, h3⟩

/-- **C35** Loading gives the same tasks whatever the orders in which the maps are visited. -/
theorem C35_order_independent (hw : FilesWF files) {o' : Orders} (ho : OrdersOK o) (ho' : OrdersOK o') {r' : ParseResult}
    (h : load files o p = .ok r) (h' : load files o' p = .ok r') (full : Str) :
    (r.tasks.get? full = none ∧ r'.tasks.get? full = none) ∨
    ∃ T T', r.tasks.get? full = some T ∧ r'.tasks.get? full = some T' ∧ SameTask T T' := by
  obtain ⟨hl, hto, -⟩ := parseFile_ok hw ho _ h
  obtain ⟨-, hto', -⟩ := parseFile_ok hw ho' _ h'
  cases hT : r.tasks.get? full with
  | none =>
    left
    refine ⟨rfl, ?_⟩
    cases hT' : r'.tasks.get? full with
    | none => rfl
    | some T' =>
      obtain ⟨nss, bs, n, f, T, h1, rfl, -⟩ := hto'.sound _ _ hT'
      obtain ⟨T'', h2, -⟩ := hto.complete _ _ _ _ _ h1
      rw [hT] at h2; cases h2
  | some T1 =>
    right
    obtain ⟨nss, bs, n, f, T, h1, rfl, ha⟩ := hto.sound _ _ hT
    obtain ⟨T', h2, ha'⟩ := hto'.complete _ _ _ _ _ h1
    refine ⟨T1, T', rfl, h2, ?_⟩
    refine ⟨?_, ?_, ?_, ?_, ?_, fun k => ?_, ?_, fun k => ?_, ?_, ?_, ?_, ?_, ?_, ?_, ?_, ?_⟩
    · rw [ha.name, ha'.name]
    · rw [ha.source, ha'.source]
    · rw [ha.desc, ha'.desc]
    · rw [ha.alias_, ha'.alias_]
    · rw [ha.aliases, ha'.aliases]
    · rw [ha.vars, ha'.vars]
    · rw [ha.noVars, ha'.noVars]
    · rw [ha.env, ha'.env]
    · rw [ha.silent, ha'.silent]
    · rw [ha.output, ha'.output]
    · rw [ha.dir, ha'.dir]
    · rw [ha.cond, ha'.cond]
    · rw [ha.deps, ha'.deps]
    · rw [ha.run, ha'.run]
    · rw [ha.line, ha'.line]
    · rw [ha.depsLine, ha'.depsLine]

theorem provides_up {nss as : List Str} {q : Str} (h : IncPath files p nss q) {bs : List Schema} {n f : Str} {T : Task}
    (hl : Loads files p) (hP : Provides files q as bs n f T) : ∃ bs', Provides files p (nss ++ as) bs' n f T := by
  induction h with
  | refl => exact ⟨bs, hP⟩
  | step h1 h2 ih =>
    cases hl with
    | mk hf hi hd =>
      obtain ⟨bs', hP'⟩ := ih (hi _ _ h1) hP
      cases hi _ _ h1 with
      | mk hq _ _ => exact ⟨_, .inc h1 hq hP'⟩

/-- **C32** Let file `q` be included, through files with namespaces `nss`. Then each task of `q` (own or included)
appears under its name there with the namespaces in front; it comes from the same place; and its dependencies,
aliases and the tasks its items call are those of `q` with the namespaces in front. So references point to the
same tasks as in `q`. -/
theorem C32_included_tasks (hw : FilesWF files) {o' : Orders} (ho : OrdersOK o) (ho' : OrdersOK o') (h : load files o p = .ok r)
    {nss : List Str} {q : Str} (hq : IncPath files p nss q) {r' : ParseResult} (h' : load files o' q = .ok r') {name : Str} {T : Task}
    (hT : r'.tasks.get? name = some T) :
    ∃ T', r.tasks.get? (fullName nss name) = some T' ∧ T'.sourcePath = T.sourcePath ∧ T'.deps = T.deps.map (fullName nss) ∧
      T'.alias = (if T.alias = [] then [] else fullName nss T.alias) ∧ T'.aliases = T.aliases.map (fullName nss) ∧
      bareItems T'.run = renameItems (fullName nss) (bareItems T.run) := by
  obtain ⟨hl, hto, -⟩ := parseFile_ok hw ho _ h
  obtain ⟨-, hto', -⟩ := parseFile_ok hw ho' _ h'
  obtain ⟨as, bs, n, f, U, h1, rfl, ha⟩ := hto'.sound _ _ hT
  obtain ⟨bs', h2⟩ := provides_up hq hl h1
  obtain ⟨T', h3, ha'⟩ := hto.complete _ _ _ _ _ h2
  rw [fullName_append] at h3
  refine ⟨T', h3, by rw [ha.source, ha'.source], ?_, ?_, ?_, ?_⟩
  · rw [ha'.deps, ha.deps, List.map_map]
    exact List.map_congr_left (fun x _ => fullName_append nss as x)
  · rw [ha'.alias_, ha.alias_]
    by_cases hx : U.alias = []
    · simp [hx]
    · rw [if_neg hx, if_neg hx, if_neg, fullName_append]
      cases as with
      | nil => exact hx
      | cons x as => simp [fullName]
  · rw [ha'.aliases, ha.aliases, List.map_map]
    exact List.map_congr_left (fun x _ => fullName_append nss as x)
  · have hb : ∀ (c : Prop) [Decidable c] (l : List RunItem), bareItems (if c then l else bareItems l) = bareItems l := by
      intro c _ l
      split
      · rfl
      · exact bares_bare l
    rw [ha'.run, ha.run, bares_rename, bares_rename, hb, hb, renames_rename]
    congr 1
    funext x
    exact fullName_append nss as x

/-- **C32** References of included tasks that were valid in their file are valid. -/
theorem C32_references_stay_valid (hw : FilesWF files) {o' : Orders} (ho : OrdersOK o) (ho' : OrdersOK o') (h : load files o p = .ok r)
    {nss : List Str} {q : Str} (hq : IncPath files p nss q) {r' : ParseResult} (h' : load files o' q = .ok r') {a : Str}
    (ha : ∃ T, r'.tasks.get? a = some T) (x : Str) :
    Refers r.tasks (fullName nss a) x ↔ ∃ b, x = fullName nss b ∧ Refers r'.tasks a b := by
  obtain ⟨T, hT⟩ := ha
  obtain ⟨T', hT', -, hd, -, -, hr⟩ := C32_included_tasks hw ho ho' h hq h' hT
  have hcalls : ∀ l l' : List RunItem, ∀ g, bareItems l' = renameItems g (bareItems l) → ∀ x, CallsIn x l' ↔ ∃ b, x = g b ∧ CallsIn b l := by
    have hb : ∀ x l, CallsIn x (bareItems l) ↔ CallsIn x l := fun x l => callsIn_bares x l
    intro l l' g he x
    rw [← hb, he, callsIn_renames]
    simp only [hb]
  constructor
  · rintro ⟨U, hU, hx⟩
    rw [hT'] at hU; cases hU
    rcases hx with hx | hx
    · rw [hd] at hx
      obtain ⟨b, hb, rfl⟩ := List.mem_map.mp hx
      exact ⟨b, rfl, T, hT, Or.inl hb⟩
    · obtain ⟨b, hb, hc⟩ := (hcalls _ _ _ hr x).mp hx
      exact ⟨b, hb, T, hT, Or.inr hc⟩
  · rintro ⟨b, rfl, U, hU, hb⟩
    rw [hT] at hU; cases hU
    refine ⟨T', hT', ?_⟩
    rcases hb with hb | hb
    · left; rw [hd]; exact List.mem_map.mpr ⟨b, hb, rfl⟩
    · right; exact (hcalls _ _ _ hr _).mpr ⟨b, rfl, hb⟩

/-- **C33** Settings of included tasks: what a task does not set itself comes from its own file, then from the files
between it and the main one; the rest is unchanged. Only the main file's settings are not copied, they apply to all
tasks when they are run. In its items only the names of called tasks change, except that parallel blocks lose
`silent` and `output`. -/
theorem C33_settings (hw : FilesWF files) (ho : OrdersOK o) (h : load files o p = .ok r) {nss : List Str} {bs : List Schema} {n f : Str}
    {T : Task} (hP : Provides files p nss bs n f T) : ∃ T', r.tasks.get? (fullName nss n) = some T' ∧ AsIncluded nss bs n f T T' :=
  (parseFile_ok hw ho _ h).2.1.complete _ _ _ _ _ hP

/-- **C33 (partial)** If no parallel block of the task sets `silent` or `output`, items keep all their settings.
Missing: blocks that do; there the code loses the settings. -/
theorem C33_items_partial (hw : FilesWF files) (ho : OrdersOK o) (h : load files o p = .ok r) {nss : List Str} {bs : List Schema} {n f : Str}
    {T : Task} (hP : Provides files p nss bs n f T) (hb : bareItems T.run = T.run) :
    ∃ T', r.tasks.get? (fullName nss n) = some T' ∧ T'.run = renameItems (fullName nss) T.run := by
  obtain ⟨T', h1, h2⟩ := C33_settings hw ho h hP
  refine ⟨T', h1, ?_⟩
  rw [h2.run, hb]
  split <;> rfl

end

/-- **C32** What `Parse` accepts has been loaded, has only references to existing tasks, no cycles, and
unambiguous aliases, which resolve to the tasks declaring them. -/
theorem C32_parse {files : Files} (hw : FilesWF files) {o : Orders} (ho : OrdersOK o) {grow : Nat → Nat} {v1 v2 v3 v4 : TaskMap → TaskMap}
    (h1 : ∀ m, (v1 m).Perm m) (h2 : ∀ m, (v2 m).Perm m) (h3 : ∀ m, (v3 m).Perm m) (h4 : ∀ m, (v4 m).Perm m) {cwd path : Str}
    {r : ParseResult} (h : parse files o grow v1 v2 v3 v4 cwd path = .ok r) :
    Loads files r.path ∧ (∀ a b, Refers r.tasks a b → ∃ T, r.tasks.get? b = some T) ∧ (¬ ∃ n, Reaches r.tasks n n) ∧
    Unambiguous r.tasks ∧ (∀ n T, r.tasks.get? n = some T → resolveTaskName r.aliases n = n) ∧
    ∀ n T a, r.tasks.get? n = some T → a ∈ declared T → resolveTaskName r.aliases a = n := by
  unfold parse at h
  split at h
  · cases h
  · dsimp only at h
    generalize (if isAbs (cleanPath path) = true then cleanPath path else joinPath cwd (cleanPath path)) = p at h
    cases hl : parseFile files o (files.length + 2) [] [] p with
    | error e => rw [hl] at h; cases h
    | ok r' =>
      rw [hl] at h
      dsimp only at h
      cases hv : validateAt p grow (v1 r'.tasks) (v2 r'.tasks) (v3 r'.tasks) (v4 r'.tasks) r'.tasks with
      | cons x l => rw [hv] at h; cases h
      | nil =>
        rw [hv] at h
        cases h
        replace hv := validateAt_nil.mp hv
        obtain ⟨hlo, hto, -⟩ := parseFile_ok hw ho _ hl
        have hpath : r.path = p ∧ r.aliases = buildAliasMap (o.aliases [] r.tasks) := by
          rw [parseFile] at hl
          split at hl
          · cases hl
          · split at hl
            · cases hl
            · cases hl
            · dsimp only at hl
              split at hl
              · cases hl
              · cases hl; exact ⟨rfl, rfl⟩
        have hcyc : validateRunCycles grow (v3 r.tasks) r.tasks = [] ∧ validateAliases (v4 r.tasks) r.tasks = [] := by
          unfold validateAll at hv
          simp only [List.append_eq_nil_iff] at hv
          exact ⟨hv.1.2, hv.2⟩
        have hal := C39_resolve hto.wf (h4 _) hcyc.2 ((ho []).2.2 r.tasks)
        refine ⟨by rw [hpath.1]; exact hlo, fun a b hab => C36_no_dangling hto.wf (h1 _) (h2 _) hv hab, (C37_cycles_exact (h3 _)).mp hcyc.1,
          (C39_unambiguous hto.wf (h4 _)).mp hcyc.2, fun n T hT => ?_, fun n T a hT ha => ?_⟩
        · rw [hpath.2]; exact (hal n).1 ⟨T, hT⟩
        · rw [hpath.2]; exact (hal a).2.1 n T hT ha

/-! ### Concrete cases -/

namespace Sample

/-- maps are visited as they are written -/
def asWritten : Orders := ⟨fun _ m => m, fun _ m => m, fun _ m => m⟩
/-- maps are visited backwards -/
def backwards : Orders := ⟨fun _ m => m.reverse, fun _ m => m.reverse, fun _ m => m.reverse⟩

theorem asWritten_ok : OrdersOK asWritten := fun _ => ⟨fun _ => List.Perm.refl _, fun _ => List.Perm.refl _, fun _ => List.Perm.refl _⟩
theorem backwards_ok : OrdersOK backwards :=
  fun _ => ⟨fun _ => List.reverse_perm _, fun _ => List.reverse_perm _, fun _ => List.reverse_perm _⟩

/-- a main file which includes two files, each of which includes the same third file -/
def diamond : Files :=
  [ (s "/p/B.yml", some { includes := [(s "web", s "web/B.yml"), (s "api", s "./api.yml")], tasks := [(s "all", { name := [], deps := [s "web:make"], run := [call "api:base:gen"] })] }),
    (s "/p/web/B.yml", some { vars := some [(s "v", s "web")], dir := s "w", includes := [(s "base", s "../base.yml")], tasks := [(s "make", { name := [], «alias» := s "m", deps := [s "base:gen"], run := [par [call "base:gen", cmd "x"] 3] })] }),
    (s "/p/api.yml", some { silent := some true, includes := [(s "base", s "/p/base.yml")], tasks := [] }),
    (s "/p/base.yml", some { vars := some [(s "v", s "base"), (s "w", s "base")], tasks := [(s "gen", { name := [], vars := some [(s "w", s "gen")], run := [cmd "gen"] })] }) ]

theorem diamond_wf : FilesWF diamond := by
  intro p bf h
  have hall : ∀ q ∈ diamond, ∀ b ∈ q.2, b.tasks.keys.Nodup ∧ b.includes.keys.Nodup ∧ (GoMap.keys (b.vars.getD [])).Nodup ∧ b.env.keys.Nodup ∧
      ∀ t ∈ b.tasks, (GoMap.keys (t.2.vars.getD [])).Nodup ∧ t.2.env.keys.Nodup := by decide +kernel
  obtain ⟨h1, h2, h3, h4, h5⟩ := hall _ (GoMap.mem_of_get? h) bf rfl
  exact ⟨h1, h2, h3, h4, fun n T hT => h5 _ (GoMap.mem_of_get? hT)⟩

/-- the names of the tasks loaded, and where they come from -/
def loaded (r : Except PErr ParseResult) : Option (List (Str × Str)) :=
  match r with
  | .ok r => some (r.tasks.map fun q => (q.1, q.2.sourcePath))
  | .error _ => none

/-- the diamond is accepted; the third file appears twice -/
example : loaded (parse diamond asWritten doubling id id id id (s "/p") (s "B.yml")) = some
    [(s "all", s "/p/B.yml"), (s "web:make", s "/p/web/B.yml"), (s "web:base:gen", s "/p/base.yml"), (s "api:base:gen", s "/p/base.yml")] := by
  decide +kernel

/-- hence it can be loaded in any orders -/
example (o : Orders) (ho : OrdersOK o) : ∃ r, load diamond o (s "/p/B.yml") = .ok r := by
  refine (C35_loads diamond_wf ho).mpr ((C35_loads diamond_wf asWritten_ok).mp ?_)
  have : (loaded (load diamond asWritten (s "/p/B.yml"))).isSome = true := by decide +kernel
  cases h : load diamond asWritten (s "/p/B.yml") with
  | ok r => exact ⟨r, rfl⟩
  | error e => rw [h] at this; cases this

/-- `C33_settings`: variables of the task, its file and the file between are merged, the directory comes from the
file between -/
example : (match load diamond backwards (s "/p/B.yml") with
    | .ok r => (r.tasks.get? (s "web:base:gen")).map fun T => (T.dir, (T.vars.getD []).get? (s "v"), (T.vars.getD []).get? (s "w"))
    | .error _ => none) = some (s "w", some (s "base"), some (s "gen")) := by
  decide +kernel

/-- two files that include each other -/
def circle : Files :=
  [ (s "/p/B.yml", some { includes := [(s "x", s "x/../c.yml")], tasks := [(s "t", { name := [] })] }),
    (s "/p/c.yml", some { includes := [(s "y", s "B.yml")] }) ]

/-- the circle is found -/
example : (match load circle asWritten (s "/p/B.yml") with
    | .ok _ => none
    | .error e => some (rootCause e)) = some (.circular (s "/p/B.yml") [s "B.yml", s "c.yml", s "B.yml"]) := by
  decide +kernel

/-- a task of the main file whose name is that of an included one -/
def clash : Files :=
  [ (s "/p/B.yml", some { includes := [(s "x", s "c.yml")], tasks := [(s "x:t", { name := [] })] }),
    (s "/p/c.yml", some { tasks := [(s "t", { name := [] })] }) ]

/-- loading it fails, so `Loads` does not hold -/
example : (match load clash asWritten (s "/p/B.yml") with
    | .ok _ => none
    | .error e => some (rootCause e)) = some (.collision (s "/p/c.yml") (s "x:t")) := by
  decide +kernel

/-- an included file with a parallel block that is silent -/
def quiet : Files :=
  [ (s "/p/B.yml", some { includes := [(s "x", s "c.yml")] }),
    (s "/p/c.yml", some { tasks := [(s "t", { name := [], run := [.parallel [cmd "a", call "u"] [] .grouped 0 none (some true) (some false) [] [] 0] }), (s "u", { name := [] })] }) ]

/-- the settings of the first item of a task, if it is a block -/
def blockSettings (r : Except PErr ParseResult) (n : Str) : Option (Option Bool × Option Bool) :=
  match r with
  | .ok r => match r.tasks.get? n with
    | some T => match T.run with
      | .parallel _ _ _ _ _ silent output _ _ _ :: _ => some (silent, output)
      | _ => none
    | none => none
  | .error _ => none

/-- **C33 is violated**: the block loses `silent: true` and `output: false` when its file is included (include.go
117-127). -/
theorem C33_block_settings_lost :
    blockSettings (load quiet asWritten (s "/p/c.yml")) (s "t") = some (some true, some false) ∧
    blockSettings (load quiet asWritten (s "/p/B.yml")) (s "x:t") = some (none, none) := by
  decide +kernel

end Sample

end Bab
