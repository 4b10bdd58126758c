import Verif.Spec.Never
import Verif.Props.Home
/-
C123: items that are never executed can be left out.
-/

namespace Bab
open Spec

namespace Never
open Home (filter_at at_filter filter_inj calls_filter)

section
variable {c : Cfg} {tasks : TaskMap} {g : GoMap Str} {main : Str} {keep : RunItem → Bool}

theorem get_kept (k : Str) : (keptTasks keep tasks).get? k = (tasks.get? k).map (keptTask keep) := by
  induction tasks with
  | nil => rfl
  | cons q l ih =>
    obtain ⟨a, T⟩ := q
    have e : keptTasks keep ((a, T) :: l) = (a, keptTask keep T) :: keptTasks keep l := rfl
    rw [e]
    by_cases h : a = k
    · simp [GoMap.get?, h]
    · simp only [GoMap.get?, if_neg h]
      exact ih

theorem kept_some {k : Str} {U : Task} (h : tasks.get? k = some U) : (keptTasks keep tasks).get? k = some (keptTask keep U) := by rw [get_kept, h]; rfl

theorem kept_inv {k : Str} {V : Task} (h : (keptTasks keep tasks).get? k = some V) : ∃ U, tasks.get? k = some U ∧ V = keptTask keep U := by
  rw [get_kept] at h
  obtain ⟨U, h1, h2⟩ := Option.map_eq_some_iff.mp h
  exact ⟨U, h1, h2.symm⟩

theorem place_some {k : Str} {i : Nat} {u : Option Nat} {U : Task} (h : tasks.get? k = some U) :
    keptPlace keep tasks ⟨k, i, u⟩ = ⟨k, ((U.run.take i).filter keep).length, u⟩ := by
  unfold keptPlace; rw [h]

theorem place_name (l : Loc) : (keptPlace keep tasks l).task = l.task := by
  unfold keptPlace; split <;> rfl

theorem place_sub (l : Loc) : (keptPlace keep tasks l).sub = l.sub := by
  unfold keptPlace; split <;> rfl

/-- the place of an item of a block follows the place of the block -/
theorem place_in (k : Str) (i : Nat) (u v : Option Nat) :
    keptPlace keep tasks ⟨k, i, v⟩ = ⟨k, (keptPlace keep tasks ⟨k, i, u⟩).item, v⟩ := by
  unfold keptPlace; dsimp only; split <;> rfl

theorem kept (hk : ∀ it, keep it = false → Never c it) {it : RunItem} {m : GoMap Str} (h1 : it.onPlatform c.platform = true) (h2 : CondTrue c it.cond m) :
    keep it = true := by
  cases h : keep it with
  | true => rfl
  | false =>
    rcases hk it h with h | h
    · rw [h1] at h; cases h
    · have := h m
      unfold CondFalse at this
      unfold CondTrue at h2
      rw [h2] at this
      cases this

/-- an item that is due belongs to a task and is, or is in, an item that is kept -/
theorem at_place (hk : ∀ it, keep it = false → Never c it) {l : Loc} {it : RunItem} {m : GoMap Str} (h : Spec.Due c tasks g main (.item l it m)) :
    ∃ U x, tasks.get? l.task = some U ∧ U.run[l.item]? = some x ∧ keep x = true := by
  generalize hth : Thing.item l it m = th at h
  induction h generalizing l it m with
  | item _ h2 _ _ h5 h6 h7 => cases hth; exact ⟨_, _, h2, h5, kept hk h6 h7⟩
  | sub _ _ ih => cases hth; exact ih (l := ⟨_, _, none⟩) rfl
  | _ => cases hth

theorem due_new (hk : ∀ it, keep it = false → Never c it) {th : Thing} (h : Spec.Due c tasks g main th) :
    match th with
    | .task k => Spec.Due c (keptTasks keep tasks) g main (.task k)
    | .item l it m => Spec.Due c (keptTasks keep tasks) g main (.item (keptPlace keep tasks l) it m) := by
  induction h with
  | main => exact .main
  | dep _ h2 h3 h4 ih => exact .dep ih (kept_some h2) h3 h4
  | item _ h2 h3 h4 h5 h6 h7 ih =>
    dsimp only at ih ⊢
    rw [place_some h2]
    exact .item ih (kept_some h2) h3 h4 (filter_at h5 (kept hk h6 h7)) h6 h7
  | sub _ h2 ih =>
    dsimp only at ih ⊢
    rw [place_in _ _ none none] at ih
    rw [place_in _ _ none]
    exact .sub ih h2
  | call _ ih => exact .call ih
  | @ahead k i j t m U d h1 h2 h3 ih =>
    dsimp only at ih ⊢
    rw [place_in _ _ none] at ih
    exact .ahead ih (kept_some h2) h3

theorem due_old {th : Thing} (h : Spec.Due c (keptTasks keep tasks) g main th) :
    match th with
    | .task k => Spec.Due c tasks g main (.task k)
    | .item l it m => ∃ l', keptPlace keep tasks l' = l ∧ Spec.Due c tasks g main (.item l' it m) := by
  induction h with
  | main => exact .main
  | dep _ h2 h3 h4 ih =>
    obtain ⟨U, k1, rfl⟩ := kept_inv h2
    exact .dep ih k1 h3 h4
  | @item k V m i it _ h2 h3 h4 h5 h6 h7 ih =>
    obtain ⟨U, k1, rfl⟩ := kept_inv h2
    obtain ⟨i', e1, e2, e3⟩ := at_filter h5
    exact ⟨⟨k, i', none⟩, by rw [place_some k1, e3], .item ih k1 h3 h4 e1 h6 h7⟩
  | @sub k i its la mo li co s o pl w l m j it _ h2 ih =>
    obtain ⟨⟨k', i', u⟩, e, hd⟩ := ih
    have hu : u = none := by have := place_sub (keep := keep) (tasks := tasks) ⟨k', i', u⟩; rw [e] at this; exact this.symm
    subst hu
    refine ⟨⟨k', i', some j⟩, ?_, .sub hd h2⟩
    have hk : k = k' := by have := place_name (keep := keep) (tasks := tasks) ⟨k', i', none⟩; rw [e] at this; exact this
    rw [place_in _ _ none, e, hk]
  | call _ ih =>
    obtain ⟨l', -, hd⟩ := ih
    exact .call hd
  | @ahead k i j t m U d h1 h2 h3 ih =>
    obtain ⟨⟨k', i', u⟩, e, hd⟩ := ih
    have hu : u = some j := by have := place_sub (keep := keep) (tasks := tasks) ⟨k', i', u⟩; rw [e] at this; exact this.symm
    subst hu
    obtain ⟨U, k1, rfl⟩ := kept_inv h2
    exact .ahead hd k1 h3

theorem entry_iff (hk : ∀ it, keep it = false → Never c it) {e : PlanEntry} :
    DueEntry c (keptTasks keep tasks) g main e ↔ ∃ e', keptEntry keep tasks e' = e ∧ DueEntry c tasks g main e' := by
  constructor
  · intro h
    cases h with
    | cmd h1 h2 =>
      obtain ⟨l', rfl, h⟩ := due_old h1
      exact ⟨_, rfl, .cmd h h2⟩
    | log h1 h2 =>
      obtain ⟨l', rfl, h⟩ := due_old h1
      exact ⟨.log l' _ _, rfl, .log h h2⟩
  · rintro ⟨e', rfl, h⟩
    cases h with
    | cmd h1 h2 => exact .cmd (due_new hk h1) h2
    | log h1 h2 => exact .log (due_new hk h1) h2

theorem place_inj (hk : ∀ it, keep it = false → Never c it) {l l' : Loc} {it it' : RunItem} {m m' : GoMap Str} (h : Spec.Due c tasks g main (.item l it m))
    (h' : Spec.Due c tasks g main (.item l' it' m')) (e : keptPlace keep tasks l = keptPlace keep tasks l') : l = l' := by
  obtain ⟨U, x, h1, h2, h3⟩ := at_place hk h
  obtain ⟨U', x', k1, k2, k3⟩ := at_place hk h'
  obtain ⟨k, i, u⟩ := l
  obtain ⟨k', i', u'⟩ := l'
  rw [place_some h1, place_some k1] at e
  have e1 := congrArg Loc.task e
  have e2 := congrArg Loc.item e
  have e3 := congrArg Loc.sub e
  dsimp only at e1 e2 e3 h1 h2 k1 k2
  subst e1 e3
  rw [h1] at k1; cases k1
  rw [filter_inj h2 k2 h3 k3 e2]

theorem unasked (hask : Unasked c tasks g main) : Unasked c (keptTasks keep tasks) g main := by
  intro k V p hd hV hp
  obtain ⟨U, k1, rfl⟩ := kept_inv hV
  exact hask k U p (due_old hd) k1 (List.mem_of_mem_filter hp)

theorem refers {a b : Str} (h : Refers (keptTasks keep tasks) a b) : Refers tasks a b := by
  obtain ⟨V, hV, h⟩ := h
  obtain ⟨U, k1, rfl⟩ := kept_inv hV
  exact ⟨U, k1, h.imp id calls_filter⟩

theorem prior_iff {its : List RunItem} {d : Str} : Prior (keptTasks keep tasks) its d ↔ Prior tasks its d := by
  constructor
  · rintro ⟨t, V, ht, hV, hd⟩
    obtain ⟨U, k1, rfl⟩ := kept_inv hV
    exact ⟨t, U, ht, k1, hd⟩
  · rintro ⟨t, U, ht, hU, hd⟩
    exact ⟨t, _, ht, kept_some hU, hd⟩

theorem separate (hsep : Separate tasks) : Separate (keptTasks keep tasks) := by
  intro a V its la mo li co s o pl w l hV hb i j t u hij hi hj y h1 h2
  obtain ⟨U, k1, rfl⟩ := kept_inv hV
  have hp : Prior (keptTasks keep tasks) its = Prior tasks its := funext fun d => propext prior_iff
  rw [hp] at h1 h2 ⊢
  have may : ∀ {b d}, MayRun (keptTasks keep tasks) b d → MayRun tasks b d := by
    rintro b d (h | ⟨V, its, la, mo, li, co, s', o', pl', w', ln', hV, hbl, hpr⟩)
    · exact .inl (refers h)
    · obtain ⟨U, k1, rfl⟩ := kept_inv hV
      exact .inr ⟨U, its, la, mo, li, co, s', o', pl', w', ln', k1, List.mem_of_mem_filter hbl, prior_iff.mp hpr⟩
  have leads : ∀ {x y}, Leads (keptTasks keep tasks) (Prior tasks its) x y → Leads tasks (Prior tasks its) x y := by
    intro x y h
    induction h with
    | self => exact .self
    | step _ hb hm ih => exact .step ih hb (may hm)
  exact hsep a U its la mo li co s o pl w l k1 (List.mem_of_mem_filter hb) i j t u hij hi hj y (leads h1) (leads h2)

theorem item_works {l : Loc} {it : RunItem} {m : GoMap Str} :
    ItemWorks c (keptTasks keep tasks) (keptPlace keep tasks l) m it ↔ ItemWorks c tasks l m it := by
  cases it with
  | command v =>
    constructor
    · rintro ⟨V, tenv, text, h1, h2, h3⟩
      rw [place_name] at h1
      obtain ⟨U, k1, rfl⟩ := kept_inv h1
      exact ⟨U, tenv, text, k1, h2, (Split.alike_ready (U' := keptTask keep U) ⟨rfl, rfl, rfl, rfl⟩).mp h3⟩
    · rintro ⟨U, tenv, text, h1, h2, h3⟩
      exact ⟨keptTask keep U, tenv, text, by rw [place_name]; exact kept_some h1, h2, (Split.alike_ready (U' := keptTask keep U) ⟨rfl, rfl, rfl, rfl⟩).mpr h3⟩
  | log l => exact Iff.rfl
  | task t => exact Iff.rfl
  | prompt p => show _ = _ ↔ _ = _; rw [place_sub]
  | parallel => show _ = _ ↔ _ = _; rw [place_sub]

/-- there is an item for this platform that is kept -/
theorem works_iff (hk : ∀ it, keep it = false → Never c it)
    (hsome : ∀ k U, Spec.Due c tasks g main (.task k) → tasks.get? k = some U → U.run ≠ [] → ∃ it ∈ U.run, keep it = true ∧ it.onPlatform c.platform = true) :
    (∀ y, Spec.Due c (keptTasks keep tasks) g main y → Works c (keptTasks keep tasks) g y) ↔ ∀ y, Spec.Due c tasks g main y → Works c tasks g y := by
  constructor
  · intro hall y hy
    cases y with
    | task k =>
      obtain ⟨V, hV, hw⟩ := hall _ (due_new hk hy)
      obtain ⟨U, k1, rfl⟩ := kept_inv hV
      refine ⟨U, k1, hw.cond, fun hc hne => ?_⟩
      obtain ⟨x, hx, hxk, hxp⟩ := hsome k U hy k1 hne
      obtain ⟨m, tenv, h1, h2, -, h4⟩ := hw.body hc (by
        intro h
        have : x ∈ (keptTask keep U).run := List.mem_filter.mpr ⟨hx, hxk⟩
        rw [h] at this
        cases this)
      refine ⟨m, tenv, h1, h2, ⟨x, hx, hxp⟩, fun it hit hp => ?_⟩
      by_cases hkeep : keep it = true
      · exact h4 it (List.mem_filter.mpr ⟨hit, hkeep⟩) hp
      · rcases hk it (by simpa using hkeep) with h | h
        · rw [hp] at h; cases h
        · rintro ⟨e, he⟩
          have := h m
          unfold CondFalse at this
          rw [he] at this
          cases this
    | item l it m => exact item_works.mp (hall _ (due_new hk hy))
  · intro hall y hy
    cases y with
    | task k =>
      have hk' := due_old hy
      obtain ⟨U, k1, hw⟩ := hall _ hk'
      refine ⟨_, kept_some k1, hw.cond, fun hc hne => ?_⟩
      have hne' : U.run ≠ [] := by
        intro h
        exact hne (show U.run.filter _ = [] by rw [h]; rfl)
      obtain ⟨x, hx, hxk, hxp⟩ := hsome k U hk' k1 hne'
      obtain ⟨m, tenv, h1, h2, -, h4⟩ := hw.body hc hne'
      exact ⟨m, tenv, h1, h2, ⟨x, List.mem_filter.mpr ⟨hx, hxk⟩, hxp⟩, fun it hit hp => h4 it (List.mem_of_mem_filter hit) hp⟩
    | item l it m =>
      obtain ⟨l', rfl, h⟩ := due_old hy
      exact item_works.mpr (hall _ h)

end
end Never

section
variable {c : Cfg} {tasks : TaskMap} {gvars : GoMap Str} {main : Str} {s s' : State} {keep : RunItem → Bool}

/-- **C123** Without items that are never executed the same is done: two runs that end with success and are not interrupted, one with and one
without them, start the same commands and print the same messages, each once; only the numbers of the items differ. -/
theorem C123_same (hd : c.dry = false) (hk : ∀ it, keep it = false → Never c it) (hask : Unasked c tasks gvars main) (hr : Reach (start c tasks gvars main) s) (hp : s.prog = .ret none)
    (hc : ∀ id, .cancel id ∉ s.sh.trace) (hr' : Reach (start c (keptTasks keep tasks) gvars main) s') (hp' : s'.prog = .ret none)
    (hc' : ∀ id, .cancel id ∉ s'.sh.trace) : ((Spec.entries s.sh.trace).map (keptEntry keep tasks)).Perm (Spec.entries s'.sh.trace) := by
  have hask' := Never.unasked (keep := keep) hask
  have due : ∀ e ∈ Spec.entries s.sh.trace, DueEntry c tasks gvars main e := fun e he => C78_only hd hask hr he
  refine (List.perm_ext_iff_of_nodup ?_ (Due.entries_nodup fun loc => acts_once hr' loc)).mpr fun e => ?_
  · refine List.Nodup.map_on ?_ (Due.entries_nodup fun loc => acts_once hr loc)
    intro a ha b hb e
    cases due a ha with
    | cmd h1 h2 =>
      cases due b hb with
      | cmd k1 k2 =>
        simp only [keptEntry, PlanEntry.cmd.injEq] at e
        rw [Never.place_inj hk h1 k1 e.1, e.2]
      | log k1 k2 => simp [keptEntry] at e
    | log h1 h2 =>
      cases due b hb with
      | cmd k1 k2 => simp [keptEntry] at e
      | log k1 k2 =>
        simp only [keptEntry, PlanEntry.log.injEq] at e
        rw [Never.place_inj hk h1 k1 e.1, e.2.1, e.2.2]
  · rw [List.mem_map]
    constructor
    · rintro ⟨a, ha, rfl⟩
      exact C78_all hd hask' hr' hp' hc' ((Never.entry_iff hk).mpr ⟨a, rfl, due a ha⟩)
    · intro he
      obtain ⟨a, rfl, ha⟩ := (Never.entry_iff hk).mp (C78_only hd hask' hr' he)
      exact ⟨a, C78_all hd hask hr hp hc ha, rfl⟩

/-- **C123** And the process that is started for a command is the same: the shell, the text, the directory, and the environment apart from
the names that control colours. -/
theorem C123_process (hd : c.dry = false) (hk : ∀ it, keep it = false → Never c it) (hask : Unasked c tasks gvars main) (hr : Reach (start c tasks gvars main) s)
    (hr' : Reach (start c (keptTasks keep tasks) gvars main) s') {loc : Loc} {spec spec' : ProcSpec} (h : .procStart loc spec ∈ s.sh.trace)
    (h' : .procStart (keptPlace keep tasks loc) spec' ∈ s'.sh.trace) :
    spec.shell = spec'.shell ∧ spec.arg = spec'.arg ∧ spec.cmd = spec'.cmd ∧ spec.dir = spec'.dir ∧
    ∀ k, k ∉ colourNames → procEnv c spec k = procEnv c spec' k := by
  obtain ⟨T1, v, m, tenv, text, env, dir, fr, hT1, hdue, he, hpr, rfl⟩ := Due.events hd hask hr _ h
  obtain ⟨T2, v', m', tenv', text', env', dir', fr', hT2, hdue', he', hpr', rfl⟩ := Due.events hd (Never.unasked hask) hr' _ h'
  obtain ⟨h1, rfl⟩ := Due.item_unique (Never.due_new hk hdue) hdue'
  cases h1
  rw [Never.place_name, Never.kept_some hT1] at hT2; cases hT2
  have ha : Split.Alike T1 (keptTask keep T1) := ⟨rfl, rfl, rfl, rfl⟩
  rw [ha.2.1, he] at he'; cases he'
  rw [Split.alike_prepare ha, hpr] at hpr'; cases hpr'
  refine ⟨rfl, rfl, rfl, rfl, fun k hkn => ?_⟩
  have we : env.WF := interpolateEnv_WF (prepare_inv hpr).2.1 (WF_mergeEnvMaps _)
  rw [procEnv_eq we, procEnv_eq we, colourEnv_other hkn, colourEnv_other hkn]

/-- **C123** Nor do they decide about success, unless nothing is left of a task: if references make no circle, items of parallel blocks keep
out of each other's way, and each task that is run and has items keeps one for this platform, then a run without the others in
which nothing goes wrong outside succeeds exactly if such a run with them does. -/
theorem C123_success (hd : c.dry = false) (hk : ∀ it, keep it = false → Never c it) (hask : Unasked c tasks gvars main) {rank : Str → Nat} (hrk : ∀ a b, Refers tasks a b → rank b < rank a)
    (hsep : Separate tasks)
    (hsome : ∀ k U, Spec.Due c tasks gvars main (.task k) → tasks.get? k = some U → U.run ≠ [] → ∃ it ∈ U.run, keep it = true ∧ it.onPlatform c.platform = true)
    (hr : Reach (start c tasks gvars main) s) (hcalm : ∀ e ∈ s.sh.trace, Calm e) {r r' : Option Err} (hp : s.prog = .ret r)
    (hr' : Reach (start c (keptTasks keep tasks) gvars main) s') (hcalm' : ∀ e ∈ s'.sh.trace, Calm e) (hp' : s'.prog = .ret r') :
    r' = none ↔ r = none := by
  rw [C79_exact hd hask hrk hsep hr hcalm hp,
    C79_exact hd (Never.unasked hask) (fun a b h => hrk a b (Never.refers h)) (Never.separate hsep) hr' hcalm' hp', Never.works_iff hk hsome]

/-- **C123** What is left out cannot make a Babfile wrong: if validation finds nothing then it finds nothing without some of the items,
in whatever order it looks at the tasks. (It may find something in the items that are left out, so the converse does not hold.) -/
theorem C123_accepted {grow grow' : Nat → Nat} {o1 o2 o3 o4 p1 p2 p3 p4 : TaskMap} (hwf : tasks.WF) (h1 : o1.Perm tasks) (h2 : o2.Perm tasks)
    (h3 : o3.Perm tasks) (h4 : o4.Perm tasks) (k1 : p1.Perm (keptTasks keep tasks)) (k2 : p2.Perm (keptTasks keep tasks)) (k3 : p3.Perm (keptTasks keep tasks))
    (k4 : p4.Perm (keptTasks keep tasks)) (h : validateAll grow o1 o2 o3 o4 tasks = []) : validateAll grow' p1 p2 p3 p4 (keptTasks keep tasks) = [] := by
  have hwf' : (keptTasks keep tasks).WF := by
    have e : (keptTasks keep tasks).keys = tasks.keys := by unfold keptTasks GoMap.keys; rw [List.map_map]; rfl
    unfold GoMap.WF at hwf ⊢
    rw [e]; exact hwf
  rw [validateAll_nil grow' hwf' k1 k2 k3 k4]
  obtain ⟨a1, a2, a3⟩ := (validateAll_nil grow hwf h1 h2 h3 h4).mp h
  have reaches : ∀ {a b}, Reaches (keptTasks keep tasks) a b → Reaches tasks a b := by
    intro a b h
    induction h with
    | one h => exact .one (Never.refers h)
    | more h _ ih => exact .more (Never.refers h) ih
  refine ⟨fun a b hab => ?_, fun ⟨n, hn⟩ => a2 ⟨n, reaches hn⟩, ⟨fun k V a hV ha => ?_, fun k k' V V' a hV hV' ha ha' => ?_, fun k V hV => ?_⟩⟩
  · obtain ⟨T, hT⟩ := a1 a b (Never.refers hab)
    exact ⟨_, Never.kept_some hT⟩
  · obtain ⟨U, e, rfl⟩ := Never.kept_inv hV
    rw [Never.get_kept, a3.notName k U a e ha]; rfl
  · obtain ⟨U, e, rfl⟩ := Never.kept_inv hV
    obtain ⟨U', e', rfl⟩ := Never.kept_inv hV'
    exact a3.oneTask k k' U U' a e e' ha ha'
  · obtain ⟨U, e, rfl⟩ := Never.kept_inv hV
    exact a3.once k U e

end

namespace Sample
open Exec

/-- items that are switched off: by hand, by a comparison, by the environment, by the platform -/
def switched : TaskMap :=
  [(s "all", { name := s "all", vars := [(s "v", s "1")], run := [.command { cmd := s "a", cond := s "false" }, .command { cmd := s "b", cond := s "${{ v }} == '1'" },
     .task { task := s "old", cond := s "${{ env.CI }}" }, .command { cmd := s "c", platforms := [s "windows"] }, .log { log := s "done" }] }),
   (s "old", { name := s "old", run := [cmd "d"] })]

/-- `CI` is set to `false` -/
def onCI : Cfg := { platform := s "linux", env := fun n => if n = s "CI" then some (s "false") else none }

/-- the items that are not switched off -/
def switchedOn (it : RunItem) : Bool := it.onPlatform (s "linux") && it.cond != s "false" && it.cond != s "${{ env.CI }}"

theorem switched_never (it : RunItem) (h : switchedOn it = false) : Never onCI it := by
  unfold switchedOn at h
  rw [Bool.and_eq_false_iff, Bool.and_eq_false_iff] at h
  rcases h with (h | h) | h
  · exact .inl h
  · have e : it.cond = s "false" := by simpa using h
    exact .inr fun m => by unfold CondFalse; rw [e]; rfl
  · have e : it.cond = s "${{ env.CI }}" := by simpa using h
    exact .inr fun m => by unfold CondFalse; rw [e]; rfl

def switchedRun : State := drive [.auto 200] (start onCI switched [] (s "all"))
def switchedOnRun : State := drive [.auto 200] (start onCI (keptTasks switchedOn switched) [] (s "all"))

theorem switched_unasked : Unasked onCI switched [] (s "all") := by
  intro n T p _ hT hp
  have := GoMap.mem_of_get? hT
  simp only [switched, List.mem_cons, Prod.mk.injEq, List.not_mem_nil, or_false] at this
  rcases this with ⟨-, rfl⟩ | ⟨-, rfl⟩ <;> simp [cmd] at hp

/-- the conditions are met; two of five items are left -/
example : ((Spec.entries switchedRun.sh.trace).map (keptEntry switchedOn switched)).Perm (Spec.entries switchedOnRun.sh.trace) ∧
    Spec.entries switchedRun.sh.trace = [.cmd ⟨s "all", 1, none⟩ (s "b"), .log ⟨s "all", 4, none⟩ (s "done") []] ∧
    Spec.entries switchedOnRun.sh.trace = [.cmd ⟨s "all", 0, none⟩ (s "b"), .log ⟨s "all", 1, none⟩ (s "done") []] :=
  ⟨C123_same rfl switched_never switched_unasked (reach _ _) (ret_of_result (by decide +kernel)) (calm_of (by decide +kernel))
    (reach _ _) (ret_of_result (by decide +kernel)) (calm_of (by decide +kernel)), by decide +kernel, by decide +kernel⟩

/-- the conditions of `C123_process` are met -/
example : (∃ spec, .procStart ⟨s "all", 1, none⟩ spec ∈ switchedRun.sh.trace ∧ spec.cmd = s "b") ∧
    ∃ spec, .procStart (keptPlace switchedOn switched ⟨s "all", 1, none⟩) spec ∈ switchedOnRun.sh.trace ∧ spec.cmd = s "b" :=
  ⟨⟨{ shell := s "sh", arg := s "-c", cmd := s "b", env := none, dir := s ".", out := .terminal, stdin := true }, by decide +kernel, rfl⟩,
   ⟨{ shell := s "sh", arg := s "-c", cmd := s "b", env := none, dir := s ".", out := .terminal, stdin := true }, by decide +kernel, rfl⟩⟩

/-- the conditions of `C123_success` and `C123_accepted` are met -/
example : ((none : Option Err) = none ↔ (none : Option Err) = none) ∧
    validateAll (fun _ => 0) (keptTasks switchedOn switched) (keptTasks switchedOn switched) (keptTasks switchedOn switched) (keptTasks switchedOn switched)
      (keptTasks switchedOn switched) = [] := by
  refine ⟨C123_success (s := switchedRun) (s' := switchedOnRun) rfl switched_never switched_unasked (rank := fun x => if x = s "all" then 1 else 0)
      ?_ (no_blocks (by decide +kernel)) ?_ (reach _ _) (quiet_of (by decide +kernel)) (ret_of_result (by decide +kernel)) (reach _ _)
      (quiet_of (by decide +kernel)) (ret_of_result (by decide +kernel)),
    C123_accepted (grow := fun _ => 0) (by unfold GoMap.WF; decide +kernel) (.refl _) (.refl _) (.refl _) (.refl _) (.refl _) (.refl _) (.refl _) (.refl _)
      (by decide +kernel : validateAll (fun _ => 0) switched switched switched switched switched = [])⟩
  · rintro a b ⟨U, hU, h⟩
    have := GoMap.mem_of_get? hU
    simp only [switched, List.mem_cons, Prod.mk.injEq, List.not_mem_nil, or_false] at this
    rcases this with ⟨rfl, rfl⟩ | ⟨rfl, rfl⟩ <;> rcases h with h | h
    · cases h
    · rcases h with _ | _ | h
      rcases h with _ | _ | h
      rcases h with h | _ | h
      · subst h; decide
      · rcases h with _ | _ | h
        rcases h with _ | _ | h
        cases h
    · cases h
    · rcases h with _ | _ | h
      cases h
  · intro k U _ hU _
    have := GoMap.mem_of_get? hU
    simp only [switched, List.mem_cons, Prod.mk.injEq, List.not_mem_nil, or_false] at this
    rcases this with ⟨-, rfl⟩ | ⟨-, rfl⟩
    · exact ⟨.log { log := s "done" }, by simp, by decide +kernel, by decide +kernel⟩
    · exact ⟨cmd "d", by simp, by decide +kernel, by decide +kernel⟩

/-- a task all of whose items are switched off, with a variable that cannot be worked out -/
def allOff : TaskMap := [(s "t", { name := s "t", vars := [(s "v", s "${{ nothing }}")], run := [.command { cmd := s "a", cond := s "false" }] })]

end Sample

open Sample in
/-- **C123** Limits of the property: a task that has items but none that is executed still works out its variables; without items it does not. -/
theorem C123_nothing_left : (Exec.result (Exec.drive [.auto 100] (start onCI allOff [] (s "t")))).map Option.isSome = some true ∧
    Exec.result (Exec.drive [.auto 100] (start onCI (keptTasks switchedOn allOff) [] (s "t"))) = some none := by
  decide +kernel

end Bab
