import Verif.Proof.Flat
import Verif.Props.Split
/-
C113: a parallel block can be replaced by its items, one after the other.
-/

namespace Bab
open Spec

namespace Flat
section
variable {c : Cfg} {tasks : TaskMap} {g : GoMap Str} {main n : Str} {T : Task} {pre items post : List RunItem} {labels : List Str}
  {mode : ParallelMode} {lim ln : Nat} {color bs bo : Option Bool}

local notation "new" => inSequence tasks n T pre items post
local notation "old" => blockPlace n pre.length items.length

variable (hT : tasks.get? n = some T) (hrun : T.run = pre ++ RunItem.parallel items labels mode lim color bs bo [] [] ln :: post)
  (hpl : ∀ it ∈ items, Plain c it)
  (hahead : ∀ t U, .task t ∈ items → tasks.get? t.task = some U → U.deps = [] ∨ CondTrue c U.cond g)

theorem old_name (l : Loc) : (old l).task = l.task := by
  unfold blockPlace
  split
  · rfl
  · rename_i h
    push Not at h
    split
    · exact h.1.symm
    · exact h.1.symm

include hT hpl in
theorem item_works {l : Loc} {it : RunItem} {m : GoMap Str} (h : Spec.Due c (new) g main (.item l it m)) :
    ItemWorks c (new) l m it ↔ ItemWorks c tasks (old l) m it := by
  have place : (∀ it' ∈ items, it ≠ it') → (old l).sub = l.sub := by
    intro hi
    by_cases out : Outside n pre.length items.length l
    · exact (old_outside (k := l.task) (i := l.item) l.sub l.sub out).2
    · unfold Outside at out
      push Not at out
      exact absurd rfl (hi it (List.mem_of_getElem? (at_block hpl h out.1 out.2.1 out.2.2).2))
  cases it with
  | command v =>
    constructor
    · rintro ⟨U, tenv, text, h1, h2, h3⟩
      obtain ⟨U0, k1, k2⟩ := new_task hT h1
      have ha : Split.Alike U0 U := by rw [k2]; exact ⟨rfl, rfl, rfl, rfl⟩
      exact ⟨U0, tenv, text, by rw [old_name]; exact k1, ha.2.1 ▸ h2, (Split.alike_ready ha).mp h3⟩
    · rintro ⟨U0, tenv, text, h1, h2, h3⟩
      rw [old_name] at h1
      obtain ⟨r, k1⟩ := old_task (pre := pre) (items := items) (post := post) hT h1
      have ha : Split.Alike U0 { U0 with run := r } := ⟨rfl, rfl, rfl, rfl⟩
      exact ⟨_, tenv, text, k1, h2, (Split.alike_ready ha).mpr h3⟩
  | log l => exact Iff.rfl
  | task t => exact Iff.rfl
  | prompt p =>
    show _ = _ ↔ _ = _
    rw [place]
    rintro it' hi rfl
    exact (hpl _ hi).1
  | parallel =>
    show _ = _ ↔ _ = _
    rw [place]
    rintro it' hi rfl
    exact (hpl _ hi).1

include hT hrun hpl hahead in
/-- all that is due works afterwards exactly if it did before -/
theorem works_iff (hne : items ≠ []) :
    (∀ y, Spec.Due c (new) g main y → Works c (new) g y) ↔ ∀ y, Spec.Due c tasks g main y → Works c tasks g y := by
  obtain ⟨it0, hit0⟩ := List.exists_mem_of_ne_nil _ hne
  constructor
  · intro hall y hy
    cases y with
    | task k =>
      obtain ⟨U, hU, hw⟩ := hall _ (due_new hT hrun hpl hahead hy)
      by_cases e : k = n
      · rw [e, new_n] at hU; cases hU
        refine ⟨T, e ▸ hT, hw.cond, fun hc _ => ?_⟩
        obtain ⟨m, tenv, h1, h2, -, h4⟩ := hw.body hc (by
          intro h
          have h : pre ++ items ++ post = [] := h
          simp at h
          exact hne h.2.1)
        refine ⟨m, tenv, h1, h2, ⟨RunItem.parallel items labels mode lim color bs bo [] [] ln, by rw [hrun]; simp, block_on⟩, fun it hit hp => ?_⟩
        rw [hrun] at hit
        simp only [List.mem_append, List.mem_cons] at hit
        have h4 : ∀ it ∈ pre ++ items ++ post, _ := h4
        rcases hit with hit | rfl | hit
        · exact h4 it (by simp [hit]) hp
        · exact Split.not_wrong m
        · exact h4 it (by simp [hit]) hp
      · rw [new_other e] at hU
        exact ⟨U, hU, hw⟩
    | item l it m =>
      rcases due_new hT hrun hpl hahead hy with ⟨rfl, rfl, -⟩ | ⟨l', rfl, h⟩
      · exact (rfl : (none : Option Nat) = none)
      · exact (item_works hT hpl h).mp (hall _ h)
  · intro hall y hy
    cases y with
    | task k =>
      obtain ⟨U, hU, hw⟩ := hall _ (due_old hT hrun hpl hy)
      by_cases e : k = n
      · rw [e, hT] at hU; cases hU
        refine ⟨{ T with run := pre ++ items ++ post }, by rw [e]; exact new_n, hw.cond, fun hc _ => ?_⟩
        obtain ⟨m, tenv, h1, h2, -, h4⟩ := hw.body hc (by rw [hrun]; simp)
        refine ⟨m, tenv, h1, h2, ⟨it0, by simp [hit0], (hpl it0 hit0).2.1⟩, fun it hit hp => ?_⟩
        have hit : it ∈ pre ++ items ++ post := hit
        simp only [List.mem_append] at hit
        rcases hit with (hit | hit) | hit
        · exact h4 it (by rw [hrun]; simp [hit]) hp
        · rw [(hpl it hit).2.2]; exact Split.not_wrong m
        · exact h4 it (by rw [hrun]; simp [hit]) hp
      · exact ⟨U, (new_other e).trans hU, hw⟩
    | item l it m => exact (item_works hT hpl hy).mpr (hall _ (due_old hT hrun hpl hy))

theorem calls_block {k : Str} {rest : List RunItem} :
    CallsIn k (RunItem.parallel items labels mode lim color bs bo [] [] ln :: rest) ↔ CallsIn k items ∨ CallsIn k rest := by
  constructor
  · intro h
    cases h with
    | block h => exact .inl h
    | later h => exact .inr h
  · rintro (h | h)
    · exact .block h
    · exact .later h

include hT hrun in
/-- the references are the same -/
theorem refers_iff {a b : Str} : Refers (new) a b ↔ Refers tasks a b := by
  have calls : CallsIn b (pre ++ items ++ post) ↔ CallsIn b T.run := by
    rw [hrun, Split.callsIn_append, Split.callsIn_append, Split.callsIn_append, calls_block, or_assoc]
  by_cases e : a = n
  · subst e
    constructor
    · rintro ⟨U, hU, h⟩
      rw [new_n] at hU; cases hU
      exact ⟨T, hT, h.imp id calls.mp⟩
    · rintro ⟨U, hU, h⟩
      rw [hT] at hU; cases hU
      exact ⟨_, new_n, h.imp id calls.mpr⟩
  · constructor
    · rintro ⟨U, hU, h⟩
      exact ⟨U, (new_other e).symm.trans hU, h⟩
    · rintro ⟨U, hU, h⟩
      exact ⟨U, (new_other e).trans hU, h⟩

include hT in
theorem prior_iff {its : List RunItem} {d : Str} : Prior (new) its d ↔ Prior tasks its d := by
  constructor
  · rintro ⟨t, U, ht, hU, hd⟩
    obtain ⟨U0, k1, k2⟩ := new_task hT hU
    rw [k2] at hd
    exact ⟨t, U0, ht, k1, hd⟩
  · rintro ⟨t, U, ht, hU, hd⟩
    obtain ⟨r, k1⟩ := old_task (pre := pre) (items := items) (post := post) hT hU
    exact ⟨t, _, ht, k1, hd⟩

include hT hrun hpl in
/-- the blocks are other blocks of before -/
theorem block_new {a : Str} {U : Task} (hU : (new).get? a = some U) {its : List RunItem} {la : List Str} {mo : ParallelMode} {li l : Nat}
    {co s o : Option Bool} {pl : List Str} {w : Str} (h : .parallel its la mo li co s o pl w l ∈ U.run) :
    ∃ U0, tasks.get? a = some U0 ∧ .parallel its la mo li co s o pl w l ∈ U0.run := by
  by_cases e : a = n
  · rw [e, new_n] at hU; cases hU
    have h : _ ∈ pre ++ items ++ post := h
    simp only [List.mem_append] at h
    refine ⟨T, e ▸ hT, ?_⟩
    rw [hrun]
    rcases h with (h | h) | h
    · simp [h]
    · exact (plain_not_block hpl h).elim
    · simp [h]
  · exact ⟨U, (new_other e).symm.trans hU, h⟩

include hT hrun hpl in
/-- items of the other parallel blocks still keep out of each other's way -/
theorem separate_new (hsep : Separate tasks) : Separate (new) := by
  intro a U its la mo li co s o pl w l hU hb i j t u hij hi hj y h1 h2
  obtain ⟨U0, hU0, hb0⟩ := block_new hT hrun hpl hU hb
  have hp : Prior (new) its = Prior tasks its := funext fun d => propext (prior_iff hT)
  rw [hp] at h1 h2
  rw [hp]
  have may : ∀ {b d}, MayRun (new) b d → MayRun tasks b d := by
    rintro b d (h | ⟨V, its, la, mo, li, co, s', o', pl', w', ln', hV, hbl, hpr⟩)
    · exact .inl ((refers_iff hT hrun).mp h)
    · obtain ⟨V0, hV0, hbl0⟩ := block_new hT hrun hpl hV hbl
      exact .inr ⟨V0, its, la, mo, li, co, s', o', pl', w', ln', hV0, hbl0, (prior_iff hT).mp hpr⟩
  have leads : ∀ {x y}, Leads (new) (Prior tasks its) x y → Leads tasks (Prior tasks its) x y := by
    intro x y h
    induction h with
    | self => exact .self
    | step _ hb hm ih => exact .step ih hb (may hm)
  exact hsep a U0 its la mo li co s o pl w l hU0 hb0 i j t u hij hi hj y (leads h1) (leads h2)

include hT hrun hpl in
theorem unasked (hask : Unasked c tasks g main) : Unasked c (new) g main := by
  intro k U p hd hU hp
  have hd' := due_old hT hrun hpl hd
  by_cases e : k = n
  · rw [e, new_n] at hU; cases hU
    have hp : _ ∈ pre ++ items ++ post := hp
    simp only [List.mem_append] at hp
    rcases hp with (hp | hp) | hp
    · exact hask k T p hd' (e ▸ hT) (by rw [hrun]; simp [hp])
    · exact (hpl _ hp).1
    · exact hask k T p hd' (e ▸ hT) (by rw [hrun]; simp [hp])
  · exact hask k U p hd' ((new_other e).symm.trans hU) hp

end
end Flat

section
variable {c : Cfg} {tasks : TaskMap} {gvars : GoMap Str} {main n : Str} {T : Task} {pre items post : List RunItem} {labels : List Str}
  {mode : ParallelMode} {lim ln : Nat} {color bs bo : Option Bool} {s s' : State}

local notation "new" => inSequence tasks n T pre items post
local notation "old" => blockPlace n pre.length items.length

variable (hT : tasks.get? n = some T) (hrun : T.run = pre ++ RunItem.parallel items labels mode lim color bs bo [] [] ln :: post)
  (hpl : ∀ it ∈ items, Plain c it)
  (hahead : ∀ t U, .task t ∈ items → tasks.get? t.task = some U → U.deps = [] ∨ CondTrue c U.cond gvars)

include hT hrun hpl hahead in
/-- **C113** A parallel block, of items that mean the same outside, is replaced by its items. Then two runs that end with success and are
not interrupted, one before and one after, start the same commands and print the same messages, each once; only the places differ. The
last condition is needed because the dependencies of a task that a block calls are run even if the task itself is skipped. -/
theorem C113_same (hd : c.dry = false) (hask : Unasked c tasks gvars main) (hr : Reach (start c tasks gvars main) s) (hp : s.prog = .ret none)
    (hc : ∀ id, .cancel id ∉ s.sh.trace) (hr' : Reach (start c (new) gvars main) s') (hp' : s'.prog = .ret none)
    (hc' : ∀ id, .cancel id ∉ s'.sh.trace) :
    ((Spec.entries s'.sh.trace).map (blockEntry n pre.length items.length)).Perm (Spec.entries s.sh.trace) := by
  have hask' := Flat.unasked hT hrun hpl hask
  have due' : ∀ e ∈ Spec.entries s'.sh.trace, DueEntry c (new) gvars main e := fun e he => C78_only hd hask' hr' he
  refine (List.perm_ext_iff_of_nodup ?_ (Due.entries_nodup fun loc => acts_once hr loc)).mpr fun e => ?_
  · refine List.Nodup.map_on ?_ (Due.entries_nodup fun loc => acts_once hr' loc)
    intro a ha b hb e
    cases due' a ha with
    | cmd h1 h2 =>
      cases due' b hb with
      | cmd k1 k2 =>
        simp only [blockEntry, PlanEntry.cmd.injEq] at e
        rw [Flat.old_inj hpl h1 k1 e.1, e.2]
      | log k1 k2 => simp [blockEntry] at e
    | log h1 h2 =>
      cases due' b hb with
      | cmd k1 k2 => simp [blockEntry] at e
      | log k1 k2 =>
        simp only [blockEntry, PlanEntry.log.injEq] at e
        rw [Flat.old_inj hpl h1 k1 e.1, e.2.1, e.2.2]
  · rw [List.mem_map]
    constructor
    · rintro ⟨a, ha, rfl⟩
      exact C78_all hd hask hr hp hc ((Flat.entry_iff hT hrun hpl hahead).mp ⟨a, rfl, due' a ha⟩)
    · intro he
      obtain ⟨a, rfl, ha⟩ := (Flat.entry_iff hT hrun hpl hahead).mpr (C78_only hd hask hr he)
      exact ⟨a, C78_all hd hask' hr' hp' hc' ha, rfl⟩

include hT hrun hpl in
/-- **C113** And the process that is started for a command is the same: the shell, the text, the directory, and the environment apart from
the names that control colours. -/
theorem C113_process (hd : c.dry = false) (hask : Unasked c tasks gvars main) (hr : Reach (start c tasks gvars main) s)
    (hr' : Reach (start c (new) gvars main) s') {loc : Loc} {spec spec' : ProcSpec} (h : .procStart (old loc) spec ∈ s.sh.trace)
    (h' : .procStart loc spec' ∈ s'.sh.trace) :
    spec.shell = spec'.shell ∧ spec.arg = spec'.arg ∧ spec.cmd = spec'.cmd ∧ spec.dir = spec'.dir ∧
    ∀ k, k ∉ colourNames → procEnv c spec k = procEnv c spec' k := by
  have hask' := Flat.unasked hT hrun hpl hask
  obtain ⟨T1, v, m, tenv, text, env, dir, fr, hT1, hdue, he, hpr, rfl⟩ := Due.events hd hask hr _ h
  obtain ⟨T2, v', m', tenv', text', env', dir', fr', hT2, hdue', he', hpr', rfl⟩ := Due.events hd hask' hr' _ h'
  have hdue' := Flat.due_old hT hrun hpl hdue'
  obtain ⟨h1, rfl⟩ := Due.item_unique hdue hdue'
  cases h1
  obtain ⟨U, hU, k2⟩ := Flat.new_task hT hT2
  rw [Flat.old_name] at hT1
  rw [hT1] at hU; cases hU
  have ha : Split.Alike T1 T2 := by rw [k2]; exact ⟨rfl, rfl, rfl, rfl⟩
  rw [ha.2.1, he] at he'; cases he'
  rw [Split.alike_prepare ha, hpr] at hpr'; cases hpr'
  refine ⟨rfl, rfl, rfl, rfl, fun k hk => ?_⟩
  have we : env.WF := interpolateEnv_WF (prepare_inv hpr).2.1 (WF_mergeEnvMaps _)
  rw [procEnv_eq we, procEnv_eq we, colourEnv_other hk, colourEnv_other hk]

include hT hrun hpl hahead in
/-- **C113** Nor does it decide about success: if references make no circle and items of parallel blocks keep out of each other's way, then a
run after the replacement, in which nothing goes wrong outside, succeeds exactly if such a run before it does. -/
theorem C113_success (hd : c.dry = false) (hask : Unasked c tasks gvars main) {rank : Str → Nat} (hrk : ∀ a b, Refers tasks a b → rank b < rank a)
    (hsep : Separate tasks) (hne : items ≠ []) (hr : Reach (start c tasks gvars main) s)
    (hcalm : ∀ e ∈ s.sh.trace, Calm e) {r r' : Option Err} (hp : s.prog = .ret r) (hr' : Reach (start c (new) gvars main) s')
    (hcalm' : ∀ e ∈ s'.sh.trace, Calm e) (hp' : s'.prog = .ret r') : r' = none ↔ r = none := by
  rw [C79_exact hd hask hrk hsep hr hcalm hp,
    C79_exact hd (Flat.unasked hT hrun hpl hask) (fun a b h => hrk a b ((Flat.refers_iff hT hrun).mp h)) (Flat.separate_new hT hrun hpl hsep) hr' hcalm' hp',
    Flat.works_iff hT hrun hpl hahead hne]

include hT hrun in
/-- **C113** Validation finds something afterwards exactly if it did before, in whatever order it looks at the tasks. -/
theorem C113_accepted {grow grow' : Nat → Nat} {o1 o2 o3 o4 p1 p2 p3 p4 : TaskMap} (hwf : tasks.WF) (h1 : o1.Perm tasks) (h2 : o2.Perm tasks)
    (h3 : o3.Perm tasks) (h4 : o4.Perm tasks) (k1 : p1.Perm (new)) (k2 : p2.Perm (new)) (k3 : p3.Perm (new)) (k4 : p4.Perm (new)) :
    validateAll grow' p1 p2 p3 p4 (new) = [] ↔ validateAll grow o1 o2 o3 o4 tasks = [] := by
  have hwf' : (new).WF := GoMap.WF_set hwf _ _
  rw [validateAll_nil grow' hwf' k1 k2 k3 k4, validateAll_nil grow hwf h1 h2 h3 h4]
  have refers : ∀ a b, Refers (new) a b ↔ Refers tasks a b := fun a b => Flat.refers_iff hT hrun
  have reaches : ∀ a b, Reaches (new) a b ↔ Reaches tasks a b := by
    intro a b
    constructor
    · intro h
      induction h with
      | one h => exact .one ((refers _ _).mp h)
      | more h _ ih => exact .more ((refers _ _).mp h) ih
    · intro h
      induction h with
      | one h => exact .one ((refers _ _).mpr h)
      | more h _ ih => exact .more ((refers _ _).mpr h) ih
  have has : ∀ b, (∃ U, (new).get? b = some U) ↔ ∃ U, tasks.get? b = some U := by
    intro b
    constructor
    · rintro ⟨U, h⟩
      obtain ⟨U0, h, -⟩ := Flat.new_task hT h
      exact ⟨U0, h⟩
    · rintro ⟨U, h⟩
      obtain ⟨r, h⟩ := Flat.old_task (pre := pre) (items := items) (post := post) hT h
      exact ⟨_, h⟩
  have none' : ∀ b, (new).get? b = none ↔ tasks.get? b = none := by
    intro b
    rw [← not_iff_not, ← ne_eq, ← ne_eq, Option.ne_none_iff_exists', Option.ne_none_iff_exists']
    exact has b
  have unamb : Unambiguous (new) ↔ Unambiguous tasks := by
    constructor
    · intro hu
      refine ⟨fun k U a hU ha => ?_, fun k k' U U' a hU hU' ha ha' => ?_, fun k U hU => ?_⟩
      · obtain ⟨r, h⟩ := Flat.old_task (pre := pre) (items := items) (post := post) hT hU
        exact (none' a).mp (hu.notName k _ a h ha)
      · obtain ⟨r, h⟩ := Flat.old_task (pre := pre) (items := items) (post := post) hT hU
        obtain ⟨r', h'⟩ := Flat.old_task (pre := pre) (items := items) (post := post) hT hU'
        exact hu.oneTask k k' _ _ a h h' ha ha'
      · obtain ⟨r, h⟩ := Flat.old_task (pre := pre) (items := items) (post := post) hT hU
        exact show (declared { U with run := r }).Nodup from hu.once k _ h
    · intro hu
      refine ⟨fun k U a hU ha => ?_, fun k k' U U' a hU hU' ha ha' => ?_, fun k U hU => ?_⟩
      · obtain ⟨U0, h, e⟩ := Flat.new_task hT hU
        rw [e] at ha
        exact (none' a).mpr (hu.notName k U0 a h ha)
      · obtain ⟨U0, h, e⟩ := Flat.new_task hT hU
        obtain ⟨U1, h', e'⟩ := Flat.new_task hT hU'
        rw [e] at ha
        rw [e'] at ha'
        exact hu.oneTask k k' U0 U1 a h h' ha ha'
      · obtain ⟨U0, h, e⟩ := Flat.new_task hT hU
        rw [e]
        exact hu.once k U0 h
  rw [unamb]
  simp only [refers, reaches, has]

end

namespace Sample
open Exec

/-- the task `all` of `build`, with the items of its parallel block one after the other -/
def flatBuild : TaskMap :=
  inSequence build (s "all") { name := s "all", deps := [s "lib"], run := [cmd "gcc", par [call "x", cmd "y", call "lib"] 2, call "lib", .log { log := s "ok" }] }
    [cmd "gcc"] [call "x", cmd "y", call "lib"] [call "lib", .log { log := s "ok" }]

/-- a run of it -/
def goodFlat : State := Exec.drive [.auto 600] (start {} flatBuild [] (s "all"))

theorem calm_of {l : List Ev} (h : ∀ e ∈ l, (match e with | .cancel _ => false | _ => true) = true) : ∀ id, .cancel id ∉ l := by
  intro id hid
  exact absurd (h _ hid) (by simp)

/-- the conditions are met, and the commands are the same; here the dependency of `x` was run before anyway -/
example : ((Spec.entries goodFlat.sh.trace).map (blockEntry (s "all") 1 3)).Perm (Spec.entries good.sh.trace) ∧
    (Spec.entries goodFlat.sh.trace).length = 5 ∧ .cmd ⟨s "all", 2, none⟩ (s "y") ∈ Spec.entries goodFlat.sh.trace ∧
    .cmd ⟨s "all", 1, some 1⟩ (s "y") ∈ Spec.entries good.sh.trace := by
  refine ⟨C113_same (T := { name := s "all", deps := [s "lib"], run := [cmd "gcc", par [call "x", cmd "y", call "lib"] 2, call "lib", .log { log := s "ok" }] })
    (labels := []) (mode := .interleaved) (lim := 2) (ln := 0) (color := none) (bs := none) (bo := none)
    (pre := [cmd "gcc"]) (items := [call "x", cmd "y", call "lib"]) (post := [call "lib", .log { log := s "ok" }])
    rfl rfl ?_ ?_ rfl build_unasked good_reach (ret_of_result (by decide +kernel)) (calm_of (by decide +kernel)) (s' := goodFlat)
    (Exec.reach _ _) (ret_of_result (by decide +kernel)) (calm_of (by decide +kernel)), by decide +kernel, by decide +kernel, by decide +kernel⟩
  · intro it hit
    simp only [List.mem_cons, List.not_mem_nil, or_false] at hit
    rcases hit with rfl | rfl | rfl <;> exact ⟨trivial, by decide +kernel, rfl⟩
  · intro t U _ hU
    have := GoMap.mem_of_get? hU
    simp only [build, List.mem_cons, Prod.mk.injEq, List.not_mem_nil, or_false] at this
    rcases this with ⟨-, rfl⟩ | ⟨-, rfl⟩ | ⟨-, rfl⟩ <;> exact .inr rfl

/-- a task that is skipped, with a dependency, is called in a block -/
def early : TaskMap :=
  [(s "all", { name := s "all", run := [par [call "x"]] }),
   (s "lib", { name := s "lib", run := [cmd "ar"] }),
   (s "x", { name := s "x", deps := [s "lib"], cond := s "false", run := [cmd "cc x"] })]

/-- without the block -/
def earlyFlat : TaskMap := inSequence early (s "all") { name := s "all", run := [par [call "x"]] } [] [call "x"] []

end Sample

open Sample in
/-- **C113** Limits of the property: the dependencies of a task that a block calls are run even if the condition of that task does not hold;
without the block they are not. Both runs end with success. -/
theorem C113_ahead :
    Exec.result (Exec.drive [.auto 200] (start {} early [] (s "all"))) = some none ∧
    Exec.result (Exec.drive [.auto 200] (start {} earlyFlat [] (s "all"))) = some none ∧
    Spec.entries (Exec.drive [.auto 200] (start {} early [] (s "all"))).sh.trace = [.cmd ⟨s "lib", 0, none⟩ (s "ar")] ∧
    Spec.entries (Exec.drive [.auto 200] (start {} earlyFlat [] (s "all"))).sh.trace = [] := by
  decide +kernel

end Bab
