import Verif.Props.Cli
/-
C114: how many tasks loading gives.
-/

namespace Bab
open Spec

section
variable {files : Files} {o : Orders} {p : Str} {r : ParseResult}

/-- **C114** A file is loaded once for every way that includes lead to it: the tasks are as many as there are pairs of a way from the main file
to a file and a name of a task in that file. -/
theorem C114_count (hw : FilesWF files) (ho : OrdersOK o) (h : load files o p = .ok r) {L : List (List Str × Str)} (hL : L.Nodup)
    (hall : ∀ x, x ∈ L ↔ ∃ bs f T, Provides files p x.1 bs x.2 f T) : r.tasks.length = L.length := by
  obtain ⟨hlo, hto, -⟩ := parseFile_ok hw ho _ h
  obtain ⟨-, -, hd⟩ := hlo
  have hperm : r.tasks.keys.Perm (L.map fun x => fullName x.1 x.2) := by
    refine (List.perm_ext_iff_of_nodup hto.wf ?_).mpr fun full => ?_
    · refine List.Nodup.map_on ?_ hL
      intro x hx y hy e
      obtain ⟨bs, f, T, h1⟩ := (hall x).mp hx
      obtain ⟨bs', f', T', h2⟩ := (hall y).mp hy
      obtain ⟨e1, e2⟩ := hd _ _ _ _ _ _ _ _ _ _ h1 h2 e
      exact Prod.ext e1 e2
    · rw [List.mem_map]
      have := C35_exactly_the_union hw ho h full
      constructor
      · intro hm
        obtain ⟨T', hT'⟩ := Option.ne_none_iff_exists'.mp (GoMap.mem_keys_iff.mp hm)
        obtain ⟨nss, bs, n, f, T, h1, h2⟩ := this.mp ⟨T', hT'⟩
        exact ⟨(nss, n), (hall _).mpr ⟨bs, f, T, h1⟩, h2.symm⟩
      · rintro ⟨x, hx, rfl⟩
        obtain ⟨bs, f, T, h1⟩ := (hall x).mp hx
        obtain ⟨T', hT'⟩ := this.mpr ⟨_, _, _, _, _, h1, rfl⟩
        exact GoMap.mem_keys_iff.mpr (by rw [hT']; simp)
  have := hperm.length_eq
  simpa [GoMap.keys] using this

/-- what is provided stands in a file to which includes lead -/
theorem provides_at {nss : List Str} {bs : List Schema} {n f : Str} {T : Task} (h : Provides files p nss bs n f T) :
    IncPath files p nss f ∧ ∃ bf, files.get? f = some (some bf) ∧ bf.tasks.get? n = some T := by
  induction h with
  | own hf ht => exact ⟨.refl _, _, hf, ht⟩
  | inc hi _ _ ih => exact ⟨.step hi ih.1, ih.2⟩

/-- the number of tasks that stand in a file -/
def tasksIn : Option Schema → Nat
  | some bf => bf.tasks.length
  | none => 0

/-- **C114** If includes lead to every file in one way only, no task is loaded twice: there are at most as many tasks as stand in the files. -/
theorem C114_once (hw : FilesWF files) (ho : OrdersOK o) (h : load files o p = .ok r)
    (honce : ∀ nss nss' q, IncPath files p nss q → IncPath files p nss' q → nss = nss') :
    r.tasks.length ≤ (files.map fun q => tasksIn q.2).sum := by
  obtain ⟨hlo, hto, -⟩ := parseFile_ok hw ho _ h
  let pairs : List (Str × Str) := files.flatMap fun q => match q.2 with
    | some bf => bf.tasks.map fun t => (q.1, t.1)
    | none => []
  have hlen : pairs.length = (files.map fun q => tasksIn q.2).sum := by
    show (List.flatMap _ files).length = _
    rw [List.length_flatMap]
    congr 1
    refine List.map_congr_left fun q _ => ?_
    rcases q with ⟨a, _ | bf⟩ <;> simp [tasksIn]
  have ex : ∀ full ∈ r.tasks.keys, ∃ x : Str × Str, x ∈ pairs ∧ ∃ nss, IncPath files p nss x.1 ∧ full = fullName nss x.2 := by
    intro full hm
    obtain ⟨T', hT'⟩ := Option.ne_none_iff_exists'.mp (GoMap.mem_keys_iff.mp hm)
    obtain ⟨nss, bs, n, f, T, h1, h2⟩ := (C35_exactly_the_union hw ho h full).mp ⟨T', hT'⟩
    obtain ⟨k1, bf, k2, k3⟩ := provides_at h1
    refine ⟨(f, n), List.mem_flatMap.mpr ⟨(f, some bf), GoMap.mem_of_get? k2, ?_⟩, nss, k1, h2⟩
    exact List.mem_map.mpr ⟨(n, T), GoMap.mem_of_get? k3, rfl⟩
  choose! g hg using ex
  have hnd : (r.tasks.keys.map g).Nodup := by
    refine List.Nodup.map_on ?_ hto.wf
    intro x hx y hy e
    obtain ⟨-, nss, k1, k2⟩ := hg x hx
    obtain ⟨-, nss', k1', k2'⟩ := hg y hy
    rw [e] at k1 k2
    rw [honce _ _ _ k1 k1'] at k2
    exact k2.trans k2'.symm
  have hsub : r.tasks.keys.map g ⊆ pairs := by
    intro x hx
    obtain ⟨k, hk, rfl⟩ := List.mem_map.mp hx
    exact (hg k hk).1
  have := (hnd.subperm hsub).length_le
  rw [hlen] at this
  simpa [GoMap.keys] using this

end

namespace Sample

/-- the name of the file on level `k` -/
def levelFile (k : Nat) : Str := '/' :: List.replicate (k + 1) 'x'

/-- the file on level `k`: the lowest has a task, every other one includes the next lower one twice -/
def levelSchema : Nat → Schema
  | 0 => { tasks := [(s "t", { name := [], run := [cmd "make"] })] }
  | k + 1 => { includes := [(s "a", levelFile k), (s "b", levelFile k)] }

/-- the files up to level `k` -/
def levels : Nat → Files
  | 0 => [(levelFile 0, some (levelSchema 0))]
  | k + 1 => (levelFile (k + 1), some (levelSchema (k + 1))) :: levels k

/-- the words of length `k` over two letters -/
def words : Nat → List (List Str)
  | 0 => [[]]
  | k + 1 => (words k).map (s "a" :: ·) ++ (words k).map (s "b" :: ·)

theorem words_length (k : Nat) : (words k).length = 2 ^ k := by
  induction k with
  | zero => rfl
  | succ k ih => simp [words, ih]; omega

theorem levelFile_inj {j k : Nat} (h : levelFile j = levelFile k) : j = k := by
  have := congrArg List.length h
  simpa [levelFile] using this

theorem split_xs (cur : Str) (m : Nat) : splitSlash cur (List.replicate m 'x') = [cur.reverse ++ List.replicate m 'x'] := by
  induction m generalizing cur with
  | zero => simp [splitSlash]
  | succ m ih =>
    rw [List.replicate_succ, splitSlash, if_neg (by decide), ih]
    simp

theorem clean_level (k : Nat) : cleanPath (levelFile k) = levelFile k := by
  have h1 : isAbs (levelFile k) = true := by simp [isAbs, levelFile]
  have h2 : splitSlash [] (levelFile k) = [[], List.replicate (k + 1) 'x'] := by
    unfold levelFile
    rw [splitSlash, if_pos rfl, split_xs]
    rfl
  have h3 : cleanElems true [] [[], List.replicate (k + 1) 'x'] = [List.replicate (k + 1) 'x'] := by
    rw [cleanElems, if_pos (.inl rfl), cleanElems, if_neg, if_neg, cleanElems]
    · rfl
    · rw [List.replicate_succ]; intro h; cases h
    · rw [List.replicate_succ]
      rintro (h | h) <;> cases h
  unfold cleanPath
  rw [h1, h2, h3]
  rfl

theorem level_path (k : Nat) (dir : Str) : includePath dir (levelFile k) = levelFile k := by
  have h1 : isAbs (levelFile k) = true := by simp [isAbs, levelFile]
  unfold includePath
  rw [h1, if_pos rfl, clean_level]

theorem levels_get {n k : Nat} (h : k ≤ n) : (levels n).get? (levelFile k) = some (some (levelSchema k)) := by
  induction n with
  | zero => obtain rfl : k = 0 := by omega
            simp [levels, GoMap.get?]
  | succ n ih =>
    by_cases e : k = n + 1
    · subst e; simp [levels, GoMap.get?]
    · have : levelFile (n + 1) ≠ levelFile k := fun h => e (levelFile_inj h).symm
      simp only [levels, GoMap.get?]
      rw [if_neg (by first | exact this | exact Ne.symm this)]
      exact ih (by omega)

theorem level_includes {n k : Nat} (h : k ≤ n) {ns q : Str} :
    Includes (levels n) (levelFile k) ns q ↔ ∃ j, k = j + 1 ∧ (ns = s "a" ∨ ns = s "b") ∧ q = levelFile j := by
  constructor
  · rintro ⟨bf, inc, h1, h2, rfl⟩
    rw [levels_get h] at h1; cases h1
    cases k with
    | zero => simp [levelSchema, GoMap.get?] at h2
    | succ j =>
      have := GoMap.mem_of_get? h2
      simp only [levelSchema, List.mem_cons, Prod.mk.injEq, List.not_mem_nil, or_false] at this
      rcases this with ⟨rfl, rfl⟩ | ⟨rfl, rfl⟩
      · exact ⟨j, rfl, .inl rfl, level_path _ _⟩
      · exact ⟨j, rfl, .inr rfl, level_path _ _⟩
  · rintro ⟨j, rfl, h1, rfl⟩
    refine ⟨_, levelFile j, levels_get h, ?_, (level_path _ _).symm⟩
    rcases h1 with rfl | rfl
    · simp [levelSchema, GoMap.get?]
    · simp only [levelSchema, GoMap.get?]
      rw [if_neg (by decide)]
      simp

theorem words_mem {k : Nat} {w : List Str} : w ∈ words k ↔ w.length = k ∧ ∀ c ∈ w, c = s "a" ∨ c = s "b" := by
  induction k generalizing w with
  | zero => simp [words]; intro h; simp [h]
  | succ k ih =>
    simp only [words, List.mem_append, List.mem_map]
    constructor
    · rintro (⟨v, hv, rfl⟩ | ⟨v, hv, rfl⟩)
      · have := ih.mp hv
        simp [this.1]
        exact this.2
      · have := ih.mp hv
        simp [this.1]
        exact this.2
    · rintro ⟨h1, h2⟩
      cases w with
      | nil => simp at h1
      | cons c w =>
        have hw : w ∈ words k := ih.mpr ⟨by simpa using h1, fun c hc => h2 c (by simp [hc])⟩
        rcases h2 c (by simp) with rfl | rfl
        · exact .inl ⟨w, hw, rfl⟩
        · exact .inr ⟨w, hw, rfl⟩

theorem words_nodup (k : Nat) : (words k).Nodup := by
  induction k with
  | zero => simp [words]
  | succ k ih =>
    refine List.nodup_append'.mpr ⟨ih.map (fun a b h => (List.cons.inj h).2), ih.map (fun a b h => (List.cons.inj h).2), ?_⟩
    intro x h1 h2
    obtain ⟨u, -, rfl⟩ := List.mem_map.mp h1
    obtain ⟨v, -, h⟩ := List.mem_map.mp h2
    exact absurd (List.cons.inj h).1 (by decide)

theorem level_provides {n k : Nat} (h : k ≤ n) {w : List Str} {m : Str} :
    (∃ bs f T, Provides (levels n) (levelFile k) w bs m f T) ↔ w ∈ words k ∧ m = s "t" := by
  induction k generalizing w with
  | zero =>
    constructor
    · rintro ⟨bs, f, T, hp⟩
      cases hp with
      | own hf ht =>
        rw [levels_get h] at hf; cases hf
        have := GoMap.mem_of_get? ht
        simp only [levelSchema, List.mem_cons, Prod.mk.injEq, List.not_mem_nil, or_false] at this
        exact ⟨by simp [words], this.1⟩
      | inc hi => obtain ⟨j, hj, -⟩ := (level_includes h).mp hi; cases hj
    · rintro ⟨hw, rfl⟩
      simp only [words, List.mem_singleton] at hw
      subst hw
      exact ⟨_, _, _, .own (levels_get h) (T := { name := [], run := [cmd "make"] }) (by simp [levelSchema, GoMap.get?])⟩
  | succ k ih =>
    constructor
    · rintro ⟨bs, f, T, hp⟩
      cases hp with
      | own hf ht =>
        rw [levels_get h] at hf; cases hf
        simp [levelSchema, GoMap.get?] at ht
      | inc hi hf hp =>
        obtain ⟨j, hj, hns, rfl⟩ := (level_includes h).mp hi
        cases hj
        obtain ⟨hw, rfl⟩ := (ih (by omega)).mp ⟨_, _, _, hp⟩
        rw [words_mem] at hw ⊢
        refine ⟨⟨by simp [hw.1], fun c hc => ?_⟩, rfl⟩
        rcases List.mem_cons.mp hc with rfl | hc
        · exact hns
        · exact hw.2 c hc
    · rintro ⟨hw, rfl⟩
      rw [words_mem] at hw
      cases w with
      | nil => simp at hw
      | cons c w =>
        obtain ⟨bs, f, T, hp⟩ := (ih (by omega)).mpr ⟨words_mem.mpr ⟨by simpa using hw.1, fun c hc => hw.2 c (by simp [hc])⟩, rfl⟩
        exact ⟨_, _, _, .inc ((level_includes h).mpr ⟨k, rfl, hw.2 c (by simp), rfl⟩) (levels_get (by omega)) hp⟩

/-- different words give different names -/
theorem fullName_words {k : Nat} {v w : List Str} (hv : v ∈ words k) (hw : w ∈ words k) (h : fullName v (s "t") = fullName w (s "t")) : v = w := by
  rw [words_mem] at hv hw
  induction k generalizing v w with
  | zero =>
    rw [List.length_eq_zero_iff.mp hv.1, List.length_eq_zero_iff.mp hw.1]
  | succ k ih =>
    cases v with
    | nil => simp at hv
    | cons a v =>
      cases w with
      | nil => simp at hw
      | cons b w =>
        have hv' := fun h => ih (v := v) (w := w) ⟨by simpa using hv.1, fun c hc => hv.2 c (by simp [hc])⟩ ⟨by simpa using hw.1, fun c hc => hw.2 c (by simp [hc])⟩ h
        rcases hv.2 a (by simp) with rfl | rfl <;> rcases hw.2 b (by simp) with rfl | rfl
        · rw [hv' (by simpa [fullName, s] using h)]
        · simp [fullName, s] at h
        · simp [fullName, s] at h
        · rw [hv' (by simpa [fullName, s] using h)]

theorem level_loads {n k : Nat} (h : k ≤ n) : Loads (levels n) (levelFile k) := by
  induction k with
  | zero =>
    refine .mk (levels_get h) (fun ns q hi => ?_) (fun nss bs m f T nss' bs' m' f' T' h1 h2 e => ?_)
    · obtain ⟨j, hj, -⟩ := (level_includes h).mp hi; cases hj
    · obtain ⟨k1, rfl⟩ := (level_provides h).mp ⟨_, _, _, h1⟩
      obtain ⟨k2, rfl⟩ := (level_provides h).mp ⟨_, _, _, h2⟩
      exact ⟨fullName_words k1 k2 e, rfl⟩
  | succ k ih =>
    refine .mk (levels_get h) (fun ns q hi => ?_) (fun nss bs m f T nss' bs' m' f' T' h1 h2 e => ?_)
    · obtain ⟨j, hj, -, rfl⟩ := (level_includes h).mp hi
      cases hj
      exact ih (by omega)
    · obtain ⟨k1, rfl⟩ := (level_provides h).mp ⟨_, _, _, h1⟩
      obtain ⟨k2, rfl⟩ := (level_provides h).mp ⟨_, _, _, h2⟩
      exact ⟨fullName_words k1 k2 e, rfl⟩

/-- the one task there is -/
theorem level_task {n k : Nat} (h : k ≤ n) {w : List Str} {bs : List Schema} {m f : Str} {T : Task}
    (hp : Provides (levels n) (levelFile k) w bs m f T) : T = { name := [], run := [cmd "make"] } := by
  induction k generalizing w bs with
  | zero =>
    cases hp with
    | own hf ht =>
      rw [levels_get h] at hf; cases hf
      have := GoMap.mem_of_get? ht
      simp only [levelSchema, List.mem_cons, Prod.mk.injEq, List.not_mem_nil, or_false] at this
      exact this.2
    | inc hi => obtain ⟨j, hj, -⟩ := (level_includes h).mp hi; cases hj
  | succ k ih =>
    cases hp with
    | own hf ht =>
      rw [levels_get h] at hf; cases hf
      simp [levelSchema, GoMap.get?] at ht
    | inc hi hf hp =>
      obtain ⟨j, hj, -, rfl⟩ := (level_includes h).mp hi
      cases hj
      exact ih (by omega) hp

theorem levels_mem {n : Nat} {q : Str × Option Schema} (h : q ∈ levels n) : ∃ k, q = (levelFile k, some (levelSchema k)) := by
  induction n with
  | zero => simp [levels] at h; exact ⟨0, h⟩
  | succ n ih =>
    rcases List.mem_cons.mp h with rfl | h
    · exact ⟨n + 1, rfl⟩
    · exact ih h

theorem levels_wf (n : Nat) : FilesWF (levels n) := by
  refine files_wf fun q hq b hb => ?_
  obtain ⟨k, rfl⟩ := levels_mem hq
  cases hb
  cases k with
  | zero => decide +kernel
  | succ k =>
    refine ⟨by simp [levelSchema, GoMap.keys], ?_, by simp [levelSchema, GoMap.keys], by simp [levelSchema, GoMap.keys], by simp [levelSchema]⟩
    simp [levelSchema, GoMap.keys, s]

/-- it refers to nothing -/
theorem level_refers {n : Nat} {a b : Str} : ¬ FileRefers (levels n) (levelFile n) a b := by
  rintro ⟨nss, bs, m, f, T, x, hp, -, hx, -⟩
  rw [level_task le_rfl hp] at hx
  rcases hx with hx | hx
  · cases hx
  · rcases hx with _ | _ | hx
    cases hx

theorem level_accepted (n : Nat) : Accepted (levels n) (levelFile n) where
  loads := level_loads le_rfl
  refs := fun a b h => (level_refers h).elim
  acyclic := by
    rintro ⟨a, ha⟩
    obtain ⟨b, hb, -⟩ := Relation.TransGen.head'_iff.mp ha
    exact level_refers hb
  notName := by
    rintro x a ⟨nss, bs, m, f, T, hp, -, hx⟩
    rw [level_task le_rfl hp] at hx
    simp [otherNames] at hx
  oneTask := by
    rintro x a b ⟨nss, bs, m, f, T, hp, -, hx⟩
    rw [level_task le_rfl hp] at hx
    simp [otherNames] at hx
  once := by
    intro nss bs m f T hp
    rw [level_task le_rfl hp]
    simp [otherNames]

/-- **C114 finding** Loading can be exponential: there are, for every `n`, `n + 1` files with `2 n` includes and one command between them, which
bab accepts whichever order it visits them in, and for which it makes `2 ^ n` tasks. -/
theorem C114_exponential (n : Nat) {v : Cli.Visit} (hv : VisitOK v) (cwd : Str) :
    ∃ r, parse (levels n) v.orders v.grow v.v1 v.v2 v.v3 v.v4 cwd (levelFile n) = .ok r ∧ r.tasks.length = 2 ^ n := by
  have habs : absolute cwd (levelFile n) = levelFile n := by
    have h1 : isAbs (levelFile n) = true := by simp [isAbs, levelFile]
    unfold absolute
    rw [clean_level, h1, if_pos rfl]
  obtain ⟨r, hr⟩ := (C35_loads (levels_wf n) hv.orders).mpr (level_loads (n := n) le_rfl)
  refine ⟨r, (parse_ok (levels_wf n) hv).mpr ⟨trimSpace_ne rfl, habs.symm ▸ hr, habs.symm ▸ level_accepted n⟩, ?_⟩
  rw [C114_count (levels_wf n) hv.orders hr (L := (words n).map fun w => (w, s "t")) ((words_nodup n).map fun a b h => (Prod.ext_iff.mp h).1) ?_,
    List.length_map, words_length]
  intro x
  rw [level_provides le_rfl, List.mem_map]
  constructor
  · rintro ⟨w, hw, rfl⟩; exact ⟨hw, rfl⟩
  · rintro ⟨hw, h⟩; exact ⟨x.1, hw, Prod.ext rfl h.symm⟩

/-- three files and four tasks; the includes lead to each in one way -/
def oneWay : Files :=
  [(s "/bab.yml", some { includes := [(s "a", s "x.yml"), (s "b", s "y.yml")], tasks := [(s "t", { name := [], run := [cmd "make"] })] }),
    (s "/x.yml", some { tasks := [(s "t", { name := [], run := [cmd "make"] }), (s "u", { name := [], run := [cmd "make"] })] }),
    (s "/y.yml", some { tasks := [(s "t", { name := [], run := [cmd "make"] })] })]

theorem oneWay_includes {p ns q : Str} (h : Includes oneWay p ns q) :
    p = s "/bab.yml" ∧ (ns = s "a" ∧ q = s "/x.yml" ∨ ns = s "b" ∧ q = s "/y.yml") := by
  obtain ⟨bf, inc, h1, h2, rfl⟩ := h
  have h1 := GoMap.mem_of_get? h1
  simp only [oneWay, List.mem_cons, Prod.mk.injEq, Option.some.injEq, List.not_mem_nil, or_false] at h1
  rcases h1 with ⟨rfl, rfl⟩ | ⟨rfl, rfl⟩ | ⟨rfl, rfl⟩
  · have h2 := GoMap.mem_of_get? h2
    simp only [List.mem_cons, Prod.mk.injEq, List.not_mem_nil, or_false] at h2
    refine ⟨rfl, ?_⟩
    rcases h2 with ⟨rfl, rfl⟩ | ⟨rfl, rfl⟩
    · exact .inl ⟨rfl, by decide +kernel⟩
    · exact .inr ⟨rfl, by decide +kernel⟩
  · simp [GoMap.get?] at h2
  · simp [GoMap.get?] at h2

theorem oneWay_path {nss : List Str} {q : Str} (h : IncPath oneWay (s "/bab.yml") nss q) :
    nss = [] ∧ q = s "/bab.yml" ∨ nss = [s "a"] ∧ q = s "/x.yml" ∨ nss = [s "b"] ∧ q = s "/y.yml" := by
  cases h with
  | refl => exact .inl ⟨rfl, rfl⟩
  | step hi hp =>
    rcases (oneWay_includes hi).2 with ⟨rfl, rfl⟩ | ⟨rfl, rfl⟩
    · cases hp with
      | refl => exact .inr (.inl ⟨rfl, rfl⟩)
      | step hi hp => exact absurd (oneWay_includes hi).1 (by decide)
    · cases hp with
      | refl => exact .inr (.inr ⟨rfl, rfl⟩)
      | step hi hp => exact absurd (oneWay_includes hi).1 (by decide)

/-- the case of `C114_once`: all files are loaded, and there are as many tasks as they hold -/
example : FilesWF oneWay ∧ (∃ r, load oneWay backwards (s "/bab.yml") = .ok r ∧ r.tasks.length = 4) ∧ (oneWay.map fun q => tasksIn q.2).sum = 4 ∧
    ∀ nss nss' q, IncPath oneWay (s "/bab.yml") nss q → IncPath oneWay (s "/bab.yml") nss' q → nss = nss' := by
  refine ⟨files_wf (by decide +kernel), ?_, by decide +kernel, fun nss nss' q h h' => ?_⟩
  · have : (match load oneWay backwards (s "/bab.yml") with | .ok r => r.tasks.length | .error _ => 0) = 4 := by decide +kernel
    cases h : load oneWay backwards (s "/bab.yml") with
    | ok r => rw [h] at this; exact ⟨r, rfl, this⟩
    | error e => rw [h] at this; cases this
  · rcases oneWay_path h with ⟨rfl, rfl⟩ | ⟨rfl, rfl⟩ | ⟨rfl, rfl⟩ <;>
      rcases oneWay_path h' with ⟨rfl, h2⟩ | ⟨rfl, h2⟩ | ⟨rfl, h2⟩ <;> first | rfl | exact absurd h2 (by decide)

/-- for three levels of files -/
example : (match load (levels 3) backwards (levelFile 3) with | .ok r => r.tasks.length | .error _ => 0) = 8 := by decide +kernel

end Sample
end Bab
