import Verif.Spec.Calls
import Verif.Props.Deps
import Verif.Props.Home
/-
C122: a dependency is a call at the beginning.
-/

namespace Bab
open Spec

namespace Calls

variable {c : Cfg} {tasks : TaskMap} {g : GoMap Str} {main : Str}

theorem get_call (k : Str) : (callTasks tasks).get? k = (tasks.get? k).map callTask := by
  induction tasks with
  | nil => rfl
  | cons q l ih =>
    obtain ⟨a, T⟩ := q
    have e : callTasks ((a, T) :: l) = (a, callTask T) :: callTasks l := rfl
    rw [e]
    by_cases h : a = k
    · simp [GoMap.get?, h]
    · simp only [GoMap.get?, if_neg h]
      exact ih

theorem call_some {k : Str} {U : Task} (h : tasks.get? k = some U) : (callTasks tasks).get? k = some (callTask U) := by rw [get_call, h]; rfl

theorem call_inv {k : Str} {V : Task} (h : (callTasks tasks).get? k = some V) : ∃ U, tasks.get? k = some U ∧ V = callTask U := by
  rw [get_call] at h
  obtain ⟨U, h1, h2⟩ := Option.map_eq_some_iff.mp h
  exact ⟨U, h1, h2.symm⟩

theorem place_some {k : Str} {i : Nat} {u : Option Nat} {U : Task} (h : tasks.get? k = some U) :
    callPlace tasks ⟨k, i, u⟩ = ⟨k, U.deps.length + i, u⟩ := by
  unfold callPlace; rw [h]

theorem place_name (l : Loc) : (callPlace tasks l).task = l.task := by
  unfold callPlace; split <;> rfl

theorem place_sub (l : Loc) : (callPlace tasks l).sub = l.sub := by
  unfold callPlace; split <;> rfl

/-- the place of an item of a block follows the place of the block -/
theorem place_in (k : Str) (i : Nat) (u v : Option Nat) :
    callPlace tasks ⟨k, i, v⟩ = ⟨k, (callPlace tasks ⟨k, i, u⟩).item, v⟩ := by
  unfold callPlace; dsimp only; split <;> rfl

theorem place_inj {l l' : Loc} (e : callPlace tasks l = callPlace tasks l') : l = l' := by
  have e1 := congrArg Loc.task e
  have e3 := congrArg Loc.sub e
  rw [place_name, place_name] at e1
  rw [place_sub, place_sub] at e3
  have e2 := congrArg Loc.item e
  obtain ⟨k, i, u⟩ := l
  obtain ⟨k', i', u'⟩ := l'
  dsimp only at e1 e3
  subst e1 e3
  unfold callPlace at e2
  dsimp only at e2
  cases h : tasks.get? k with
  | none => rw [h] at e2; dsimp only at e2; rw [e2]
  | some T => rw [h] at e2; dsimp only at e2; rw [Nat.add_left_cancel e2]

/-- an own item is at its new place -/
theorem own_at {U : Task} {i : Nat} {it : RunItem} (h : U.run[i]? = some it) : (callTask U).run[U.deps.length + i]? = some it := by
  unfold callTask
  dsimp only
  rw [List.getElem?_append_right (by simp), List.length_map, Nat.add_sub_cancel_left]
  exact h

/-- an item is a call of a dependency, or was there before -/
theorem at_own {U : Task} {i : Nat} {it : RunItem} (h : (callTask U).run[i]? = some it) :
    (∃ d ∈ U.deps, it = .task { task := d }) ∨ ∃ i', i = U.deps.length + i' ∧ U.run[i']? = some it := by
  unfold callTask at h
  dsimp only at h
  by_cases hi : i < U.deps.length
  · rw [List.getElem?_append_left (by simpa using hi), List.getElem?_map] at h
    obtain ⟨d, h1, h2⟩ := Option.map_eq_some_iff.mp h
    exact .inl ⟨d, List.mem_of_getElem? h1, h2.symm⟩
  · rw [List.getElem?_append_right (by simpa using hi), List.length_map] at h
    exact .inr ⟨i - U.deps.length, by omega, h⟩

/-- a dependency of a task that is due with the calls is due with the calls -/
theorem dep_new {k d : Str} {U : Task} {m : GoMap Str} (h : Spec.Due c (callTasks tasks) g main (.task k)) (hU : tasks.get? k = some U)
    (hc : CondTrue c U.cond g) (hm : resolveVars U.vars g c.env = .ok m) (hd : d ∈ U.deps) : Spec.Due c (callTasks tasks) g main (.task d) := by
  obtain ⟨i, hi⟩ := List.mem_iff_getElem?.mp hd
  have hat : (callTask U).run[i]? = some (.task { task := d }) := by
    unfold callTask
    dsimp only
    have hl : i < U.deps.length := (List.getElem?_eq_some_iff.mp hi).1
    rw [List.getElem?_append_left (by simpa using hl), List.getElem?_map, hi]
    rfl
  exact .call (t := { task := d }) (.item h (call_some hU) hc hm hat rfl rfl)

theorem due_new (hm : Callable c tasks g main) {th : Thing} (h : Spec.Due c tasks g main th) :
    match th with
    | .task k => Spec.Due c (callTasks tasks) g main (.task k)
    | .item l it m => Spec.Due c (callTasks tasks) g main (.item (callPlace tasks l) it m) := by
  induction h with
  | main => exact .main
  | dep h1 h2 h3 h4 ih =>
    obtain ⟨m, -, e, -⟩ := hm.body _ _ h1 h2 (List.ne_nil_of_mem h4) h3
    exact dep_new ih h2 h3 e h4
  | item _ h2 h3 h4 h5 h6 h7 ih =>
    dsimp only at ih ⊢
    rw [place_some h2]
    exact .item ih (call_some h2) h3 h4 (own_at h5) h6 h7
  | sub _ h2 ih =>
    dsimp only at ih ⊢
    rw [place_in _ _ none none] at ih
    rw [place_in _ _ none]
    exact .sub ih h2
  | call _ ih => exact .call ih
  | @ahead k i j t m U d h1 h2 h3 ih =>
    have hne := List.ne_nil_of_mem h3
    have hc := hm.ahead _ _ _ _ _ _ h1 h2 hne
    obtain ⟨m', -, e, -⟩ := hm.body _ _ (.call h1) h2 hne hc
    exact dep_new (.call ih) h2 hc e h3

theorem due_old {th : Thing} (h : Spec.Due c (callTasks tasks) g main th) :
    match th with
    | .task k => Spec.Due c tasks g main (.task k)
    | .item l it m => (∃ l', callPlace tasks l' = l ∧ Spec.Due c tasks g main (.item l' it m)) ∨
        ∃ d, it = .task { task := d } ∧ l.sub = none ∧ Spec.Due c tasks g main (.task d) := by
  induction h with
  | main => exact .main
  | dep _ h2 h3 h4 ih =>
    obtain ⟨U, k1, rfl⟩ := call_inv h2
    cases h4
  | @item k V m i it _ h2 h3 h4 h5 h6 h7 ih =>
    obtain ⟨U, k1, rfl⟩ := call_inv h2
    rcases at_own h5 with ⟨d, e1, e2⟩ | ⟨i', rfl, e⟩
    · exact .inr ⟨d, e2, rfl, .dep ih k1 h3 e1⟩
    · exact .inl ⟨⟨k, i', none⟩, by rw [place_some k1], .item ih k1 h3 h4 e h6 h7⟩
  | @sub k i its la mo li co s o pl w l m j it _ h2 ih =>
    rcases ih with ⟨⟨k', i', u⟩, e, hd⟩ | ⟨d, e, -⟩
    · have hu : u = none := by have := place_sub (tasks := tasks) ⟨k', i', u⟩; rw [e] at this; exact this.symm
      subst hu
      refine .inl ⟨⟨k', i', some j⟩, ?_, .sub hd h2⟩
      have hk : k = k' := by have := place_name (tasks := tasks) ⟨k', i', none⟩; rw [e] at this; exact this
      rw [place_in _ _ none, e, hk]
    · cases e
  | call _ ih =>
    rcases ih with ⟨l', -, hd⟩ | ⟨d, e, -, hd⟩
    · exact .call hd
    · cases e; exact hd
  | @ahead k i j t m U d h1 h2 h3 ih =>
    obtain ⟨U, k1, rfl⟩ := call_inv h2
    cases h3

theorem entry_iff (hm : Callable c tasks g main) {e : PlanEntry} :
    DueEntry c (callTasks tasks) g main e ↔ ∃ e', callEntry tasks e' = e ∧ DueEntry c tasks g main e' := by
  constructor
  · intro h
    cases h with
    | cmd h1 h2 =>
      rcases due_old h1 with ⟨l', rfl, h⟩ | ⟨d, e, -⟩
      · exact ⟨_, rfl, .cmd h h2⟩
      · cases e
    | log h1 h2 =>
      rcases due_old h1 with ⟨l', rfl, h⟩ | ⟨d, e, -⟩
      · exact ⟨.log l' _ _, rfl, .log h h2⟩
      · cases e
  · rintro ⟨e', rfl, h⟩
    cases h with
    | cmd h1 h2 => exact .cmd (due_new hm h1) h2
    | log h1 h2 => exact .log (due_new hm h1) h2

theorem unasked (hask : Unasked c tasks g main) : Unasked c (callTasks tasks) g main := by
  intro k V p hd hV hp
  obtain ⟨U, k1, rfl⟩ := call_inv hV
  rcases List.mem_append.mp hp with h | h
  · simp at h
  · exact hask k U p (due_old hd) k1 h

theorem calls_append {k : Str} {l l' : List RunItem} : CallsIn k (l ++ l') ↔ CallsIn k l ∨ CallsIn k l' := by
  induction l with
  | nil => exact ⟨.inr, fun h => h.elim (fun h => nomatch h) id⟩
  | cons a l ih =>
    constructor
    · intro h
      cases h with
      | here h => exact .inl (.here h)
      | block h => exact .inl (.block h)
      | later h => exact (ih.mp h).imp .later id
    · rintro (h | h)
      · cases h with
        | here h => exact .here h
        | block h => exact .block h
        | later h => exact .later (ih.mpr (.inl h))
      · exact .later (ih.mpr (.inr h))

theorem calls_deps {k : Str} {ds : List Str} : CallsIn k (ds.map fun d => .task { task := d }) ↔ k ∈ ds := by
  induction ds with
  | nil => exact ⟨(fun h => nomatch h), (fun h => nomatch h)⟩
  | cons d ds ih =>
    constructor
    · intro h
      cases h with
      | here h => exact List.mem_cons.mpr (.inl h.symm)
      | later h => exact List.mem_cons_of_mem _ (ih.mp h)
    · intro h
      rcases List.mem_cons.mp h with h | h
      · exact .here h.symm
      · exact .later (ih.mpr h)

/-- the references are the same -/
theorem refers {a b : Str} : Refers (callTasks tasks) a b ↔ Refers tasks a b := by
  constructor
  · rintro ⟨V, hV, h⟩
    obtain ⟨U, k1, rfl⟩ := call_inv hV
    refine ⟨U, k1, ?_⟩
    rcases h with h | h
    · cases h
    · exact (calls_append.mp h).imp calls_deps.mp id
  · rintro ⟨U, hU, h⟩
    exact ⟨_, call_some hU, .inr (calls_append.mpr (h.imp calls_deps.mpr id))⟩

theorem no_prior {its : List RunItem} {d : Str} : ¬ Prior (callTasks tasks) its d := by
  rintro ⟨t, V, -, hV, hd⟩
  obtain ⟨U, k1, rfl⟩ := call_inv hV
  cases hd

theorem calls_in {t : TaskRun} : ∀ {its : List RunItem}, .task t ∈ its → CallsIn t.task its
  | x :: its, h => by
    rcases List.mem_cons.mp h with rfl | h
    · exact .here rfl
    · exact .later (calls_in h)

theorem calls_block {k : Str} {its labels mode lim color s o pl w ln} (hk : CallsIn k its) : ∀ {l : List RunItem},
    .parallel its labels mode lim color s o pl w ln ∈ l → CallsIn k l
  | x :: l, h => by
    rcases List.mem_cons.mp h with rfl | h
    · exact .block hk
    · exact .later (calls_block hk h)

/-- if the items keep out of each other's way with calls then so they do with dependencies -/
theorem separate (hsep : Separate (callTasks tasks)) : Separate tasks := by
  intro a U its la mo li co s o pl w l hU hb i j t u hij hi hj y h1 h2
  have leads : ∀ {x y}, Leads tasks (Prior tasks its) x y → Leads (callTasks tasks) (Prior (callTasks tasks) its) x y := by
    intro x y h
    induction h with
    | self => exact .self
    | step _ hb hm ih =>
      rcases hm with h | ⟨V, its', la', mo', li', co', s', o', pl', w', ln', hV, hbl, t', W, ht, hW, hd⟩
      · exact .step ih no_prior (.inl (refers.mpr h))
      · refine .step (.step ih no_prior (.inl (refers.mpr ⟨V, hV, .inr (calls_block (calls_in ht) hbl)⟩))) no_prior (.inl (refers.mpr ⟨W, hW, .inl hd⟩))
  exact absurd (hsep a _ its la mo li co s o pl w l (call_some hU) (List.mem_append_right _ hb) i j t u hij hi hj y (leads h1) (leads h2)) no_prior

theorem item_works {l : Loc} {it : RunItem} {m : GoMap Str} :
    ItemWorks c (callTasks tasks) (callPlace tasks l) m it ↔ ItemWorks c tasks l m it := by
  cases it with
  | command v =>
    constructor
    · rintro ⟨V, tenv, text, h1, h2, h3⟩
      rw [place_name] at h1
      obtain ⟨U, k1, rfl⟩ := call_inv h1
      exact ⟨U, tenv, text, k1, h2, (Split.alike_ready (U' := callTask U) ⟨rfl, rfl, rfl, rfl⟩).mp h3⟩
    · rintro ⟨U, tenv, text, h1, h2, h3⟩
      exact ⟨callTask U, tenv, text, by rw [place_name]; exact call_some h1, h2, (Split.alike_ready (U' := callTask U) ⟨rfl, rfl, rfl, rfl⟩).mpr h3⟩
  | log l => exact Iff.rfl
  | task t => exact Iff.rfl
  | prompt p => show _ = _ ↔ _ = _; rw [place_sub]
  | parallel => show _ = _ ↔ _ = _; rw [place_sub]

theorem works_iff (hm : Callable c tasks g main)
    (hsome : ∀ k U, Spec.Due c tasks g main (.task k) → tasks.get? k = some U → U.deps ≠ [] → U.run ≠ [] → ∃ it ∈ U.run, it.onPlatform c.platform = true) :
    (∀ y, Spec.Due c (callTasks tasks) g main y → Works c (callTasks tasks) g y) ↔ ∀ y, Spec.Due c tasks g main y → Works c tasks g y := by
  constructor
  · intro hall y hy
    cases y with
    | task k =>
      obtain ⟨V, hV, hw⟩ := hall _ (due_new hm hy)
      obtain ⟨U, k1, rfl⟩ := call_inv hV
      refine ⟨U, k1, hw.cond, fun hc hne => ?_⟩
      obtain ⟨m, tenv, h1, h2, ⟨x, hx, hxp⟩, h4⟩ := hw.body hc (by
        intro h
        exact hne (List.append_eq_nil_iff.mp h).2)
      refine ⟨m, tenv, h1, h2, ?_, fun it hit hp => h4 it (List.mem_append_right _ hit) hp⟩
      by_cases hd : U.deps = []
      · refine ⟨x, ?_, hxp⟩
        rcases List.mem_append.mp hx with h | h
        · rw [hd] at h; cases h
        · exact h
      · exact hsome k U hy k1 hd hne
    | item l it m => exact item_works.mp (hall _ (due_new hm hy))
  · intro hall y hy
    cases y with
    | task k =>
      have hk := due_old hy
      obtain ⟨U, k1, hw⟩ := hall _ hk
      refine ⟨_, call_some k1, hw.cond, fun hc hne => ?_⟩
      have isCall : ∀ it ∈ (U.deps.map fun d => RunItem.task { task := d }), ∃ d, it = .task { task := d } := by
        intro it hit
        obtain ⟨d, -, rfl⟩ := List.mem_map.mp hit
        exact ⟨d, rfl⟩
      by_cases hr : U.run = []
      · have hd : U.deps ≠ [] := by
          intro h
          apply hne
          unfold callTask
          simp [h, hr]
        obtain ⟨m, tenv, h1, h2⟩ := hm.body k U hk k1 hd hc
        obtain ⟨d, ds, hds⟩ := List.exists_cons_of_ne_nil hd
        refine ⟨m, tenv, h1, h2, ⟨.task { task := d }, ?_, rfl⟩, fun it hit _ => ?_⟩
        · unfold callTask
          simp [hds]
        · unfold callTask at hit
          dsimp only at hit
          rw [hr, List.append_nil] at hit
          obtain ⟨d, rfl⟩ := isCall it hit
          rintro ⟨e, he⟩
          cases he
      · obtain ⟨m, tenv, h1, h2, ⟨x, hx, hxp⟩, h4⟩ := hw.body hc hr
        refine ⟨m, tenv, h1, h2, ⟨x, List.mem_append_right _ hx, hxp⟩, fun it hit hp => ?_⟩
        rcases List.mem_append.mp hit with h | h
        · obtain ⟨d, rfl⟩ := isCall it h
          rintro ⟨e, he⟩
          cases he
        · exact h4 it h hp
    | item l it m =>
      rcases due_old hy with ⟨l', rfl, h⟩ | ⟨d, rfl, -⟩
      · exact item_works.mpr (hall _ h)
      · trivial

end Calls

section
variable {c : Cfg} {tasks : TaskMap} {gvars : GoMap Str} {main : Str} {s s' : State}

/-- **C122** Written as calls at the beginning, dependencies mean the same: two runs that end with success and are not interrupted, one with
dependencies and one with calls, start the same commands and print the same messages, each once; only the numbers of the items differ. -/
theorem C122_same (hd : c.dry = false) (hm : Callable c tasks gvars main) (hask : Unasked c tasks gvars main) (hr : Reach (start c tasks gvars main) s) (hp : s.prog = .ret none)
    (hc : ∀ id, .cancel id ∉ s.sh.trace) (hr' : Reach (start c (callTasks tasks) gvars main) s') (hp' : s'.prog = .ret none)
    (hc' : ∀ id, .cancel id ∉ s'.sh.trace) : ((Spec.entries s.sh.trace).map (callEntry tasks)).Perm (Spec.entries s'.sh.trace) := by
  have hask' := Calls.unasked hask
  have due : ∀ e ∈ Spec.entries s.sh.trace, DueEntry c tasks gvars main e := fun e he => C78_only hd hask hr he
  refine (List.perm_ext_iff_of_nodup ?_ (Due.entries_nodup fun loc => acts_once hr' loc)).mpr fun e => ?_
  · refine List.Nodup.map_on ?_ (Due.entries_nodup fun loc => acts_once hr loc)
    intro a ha b hb e
    cases due a ha with
    | cmd h1 h2 =>
      cases due b hb with
      | cmd k1 k2 =>
        simp only [callEntry, PlanEntry.cmd.injEq] at e
        rw [Calls.place_inj e.1, e.2]
      | log k1 k2 => simp [callEntry] at e
    | log h1 h2 =>
      cases due b hb with
      | cmd k1 k2 => simp [callEntry] at e
      | log k1 k2 =>
        simp only [callEntry, PlanEntry.log.injEq] at e
        rw [Calls.place_inj e.1, e.2.1, e.2.2]
  · rw [List.mem_map]
    constructor
    · rintro ⟨a, ha, rfl⟩
      exact C78_all hd hask' hr' hp' hc' ((Calls.entry_iff hm).mpr ⟨a, rfl, due a ha⟩)
    · intro he
      obtain ⟨a, rfl, ha⟩ := (Calls.entry_iff hm).mp (C78_only hd hask' hr' he)
      exact ⟨a, C78_all hd hask hr hp hc ha, rfl⟩

/-- **C122** And the process that is started for a command is the same: the shell, the text, the directory, and the environment apart from
the names that control colours. -/
theorem C122_process (hd : c.dry = false) (hm : Callable c tasks gvars main) (hask : Unasked c tasks gvars main) (hr : Reach (start c tasks gvars main) s)
    (hr' : Reach (start c (callTasks tasks) gvars main) s') {loc : Loc} {spec spec' : ProcSpec} (h : .procStart loc spec ∈ s.sh.trace)
    (h' : .procStart (callPlace tasks loc) spec' ∈ s'.sh.trace) :
    spec.shell = spec'.shell ∧ spec.arg = spec'.arg ∧ spec.cmd = spec'.cmd ∧ spec.dir = spec'.dir ∧
    ∀ k, k ∉ colourNames → procEnv c spec k = procEnv c spec' k := by
  obtain ⟨T1, v, m, tenv, text, env, dir, fr, hT1, hdue, he, hpr, rfl⟩ := Due.events hd hask hr _ h
  obtain ⟨T2, v', m', tenv', text', env', dir', fr', hT2, hdue', he', hpr', rfl⟩ := Due.events hd (Calls.unasked hask) hr' _ h'
  obtain ⟨h1, rfl⟩ := Due.item_unique (Calls.due_new hm hdue) hdue'
  cases h1
  rw [Calls.place_name, Calls.call_some hT1] at hT2; cases hT2
  have ha : Split.Alike T1 (callTask T1) := ⟨rfl, rfl, rfl, rfl⟩
  rw [ha.2.1, he] at he'; cases he'
  rw [Split.alike_prepare ha, hpr] at hpr'; cases hpr'
  refine ⟨rfl, rfl, rfl, rfl, fun k hk => ?_⟩
  have we : env.WF := interpolateEnv_WF (prepare_inv hpr).2.1 (WF_mergeEnvMaps _)
  rw [procEnv_eq we, procEnv_eq we, colourEnv_other hk, colourEnv_other hk]

/-- **C122** Nor do they differ in success: if references make no circle, items of parallel blocks keep out of each other's way also with calls,
and each task that is run and has dependencies and items has an item for this platform, then a run with calls in which nothing goes wrong
outside succeeds exactly if such a run with dependencies does. -/
theorem C122_success (hd : c.dry = false) (hm : Callable c tasks gvars main) (hask : Unasked c tasks gvars main) {rank : Str → Nat}
    (hrk : ∀ a b, Refers tasks a b → rank b < rank a) (hsep : Separate (callTasks tasks))
    (hsome : ∀ k U, Spec.Due c tasks gvars main (.task k) → tasks.get? k = some U → U.deps ≠ [] → U.run ≠ [] → ∃ it ∈ U.run, it.onPlatform c.platform = true)
    (hr : Reach (start c tasks gvars main) s) (hcalm : ∀ e ∈ s.sh.trace, Calm e) {r r' : Option Err} (hp : s.prog = .ret r)
    (hr' : Reach (start c (callTasks tasks) gvars main) s') (hcalm' : ∀ e ∈ s'.sh.trace, Calm e) (hp' : s'.prog = .ret r') :
    r' = none ↔ r = none := by
  rw [C79_exact hd hask hrk (Calls.separate hsep) hr hcalm hp,
    C79_exact hd (Calls.unasked hask) (fun a b h => hrk a b (Calls.refers.mp h)) hsep hr' hcalm' hp', Calls.works_iff hm hsome]

/-- **C122** Validation finds something with dependencies exactly if it does with calls, in whatever order it looks at the tasks. -/
theorem C122_accepted {grow grow' : Nat → Nat} {o1 o2 o3 o4 p1 p2 p3 p4 : TaskMap} (hwf : tasks.WF) (h1 : o1.Perm tasks) (h2 : o2.Perm tasks)
    (h3 : o3.Perm tasks) (h4 : o4.Perm tasks) (k1 : p1.Perm (callTasks tasks)) (k2 : p2.Perm (callTasks tasks)) (k3 : p3.Perm (callTasks tasks))
    (k4 : p4.Perm (callTasks tasks)) : validateAll grow' p1 p2 p3 p4 (callTasks tasks) = [] ↔ validateAll grow o1 o2 o3 o4 tasks = [] := by
  have hwf' : (callTasks tasks).WF := by
    have e : (callTasks tasks).keys = tasks.keys := by unfold callTasks GoMap.keys; rw [List.map_map]; rfl
    unfold GoMap.WF at hwf ⊢
    rw [e]; exact hwf
  rw [validateAll_nil grow' hwf' k1 k2 k3 k4, validateAll_nil grow hwf h1 h2 h3 h4]
  have reaches : ∀ {a b}, Reaches (callTasks tasks) a b ↔ Reaches tasks a b := by
    intro a b
    constructor
    · intro h
      induction h with
      | one h => exact .one (Calls.refers.mp h)
      | more h _ ih => exact .more (Calls.refers.mp h) ih
    · intro h
      induction h with
      | one h => exact .one (Calls.refers.mpr h)
      | more h _ ih => exact .more (Calls.refers.mpr h) ih
  constructor
  · rintro ⟨a1, a2, a3⟩
    refine ⟨fun a b hab => ?_, fun ⟨n, hn⟩ => a2 ⟨n, reaches.mpr hn⟩, ⟨fun k U a hU ha => ?_, fun k k' U U' a hU hU' ha ha' => ?_, fun k U hU => ?_⟩⟩
    · obtain ⟨T, hT⟩ := a1 a b (Calls.refers.mpr hab)
      obtain ⟨U, hU, -⟩ := Calls.call_inv hT
      exact ⟨U, hU⟩
    · have := a3.notName k _ a (Calls.call_some hU) ha
      rw [Calls.get_call] at this
      exact Option.map_eq_none_iff.mp this
    · exact a3.oneTask k k' _ _ a (Calls.call_some hU) (Calls.call_some hU') ha ha'
    · exact a3.once k (callTask U) (Calls.call_some hU)
  · rintro ⟨a1, a2, a3⟩
    refine ⟨fun a b hab => ?_, fun ⟨n, hn⟩ => a2 ⟨n, reaches.mp hn⟩, ⟨fun k V a hV ha => ?_, fun k k' V V' a hV hV' ha ha' => ?_, fun k V hV => ?_⟩⟩
    · obtain ⟨T, hT⟩ := a1 a b (Calls.refers.mp hab)
      exact ⟨_, Calls.call_some hT⟩
    · obtain ⟨U, e, rfl⟩ := Calls.call_inv hV
      rw [Calls.get_call, a3.notName k U a e ha]; rfl
    · obtain ⟨U, e, rfl⟩ := Calls.call_inv hV
      obtain ⟨U', e', rfl⟩ := Calls.call_inv hV'
      exact a3.oneTask k k' U U' a e e' ha ha'
    · obtain ⟨U, e, rfl⟩ := Calls.call_inv hV
      exact a3.once k U e

end

namespace Sample
open Exec

theorem listed_callable : Callable {} listed [] (s "all") := by
  constructor
  · intro k U _ hU _ _
    have := GoMap.mem_of_get? hU
    simp only [listed, List.mem_cons, Prod.mk.injEq, List.not_mem_nil, or_false] at this
    rcases this with ⟨-, rfl⟩ | ⟨-, rfl⟩ | ⟨-, rfl⟩ | ⟨-, rfl⟩ <;> exact ⟨[], [], rfl, rfl⟩
  · intro n i j t m U _ hU _
    have := GoMap.mem_of_get? hU
    simp only [listed, List.mem_cons, Prod.mk.injEq, List.not_mem_nil, or_false] at this
    rcases this with ⟨-, rfl⟩ | ⟨-, rfl⟩ | ⟨-, rfl⟩ | ⟨-, rfl⟩ <;> rfl

/-- a run with calls -/
def calledRun : State := drive [.auto 400] (start {} (callTasks listed) [] (s "all"))

/-- the conditions are met; the command of `all` is the fourth item, after three calls -/
example : ((Spec.entries listedRun.sh.trace).map (callEntry listed)).Perm (Spec.entries calledRun.sh.trace) ∧
    Spec.entries calledRun.sh.trace = [.cmd ⟨s "lib", 0, none⟩ (s "ar"), .cmd ⟨s "app", 1, none⟩ (s "cc"), .cmd ⟨s "doc", 0, none⟩ (s "tex"),
      .cmd ⟨s "all", 3, none⟩ (s "tar")] :=
  ⟨C122_same rfl listed_callable listed_unasked (reach _ _) (ret_of_result (by decide +kernel)) (calm_of (by decide +kernel))
    (reach _ _) (ret_of_result (by decide +kernel)) (calm_of (by decide +kernel)), by decide +kernel⟩

/-- the conditions of `C122_process` are met -/
example : (∃ spec, .procStart ⟨s "all", 0, none⟩ spec ∈ listedRun.sh.trace ∧ spec.cmd = s "tar") ∧
    ∃ spec, .procStart (callPlace listed ⟨s "all", 0, none⟩) spec ∈ calledRun.sh.trace ∧ spec.cmd = s "tar" :=
  ⟨⟨{ shell := s "sh", arg := s "-c", cmd := s "tar", env := none, dir := s ".", out := .terminal, stdin := true }, by decide +kernel, rfl⟩,
   ⟨{ shell := s "sh", arg := s "-c", cmd := s "tar", env := none, dir := s ".", out := .terminal, stdin := true }, by decide +kernel, rfl⟩⟩

theorem listed_refers {a b : Str} (h : Refers listed a b) :
    (if b = s "all" then 2 else if b = s "app" then 1 else 0) < (if a = s "all" then 2 else if a = s "app" then 1 else 0) := by
  obtain ⟨U, hU, h⟩ := h
  have := GoMap.mem_of_get? hU
  simp only [listed, List.mem_cons, Prod.mk.injEq, List.not_mem_nil, or_false] at this
  have none : ∀ x y, ¬ CallsIn x [cmd y] := by
    intro x y h
    cases h with
    | later h => cases h
  rcases this with ⟨rfl, rfl⟩ | ⟨rfl, rfl⟩ | ⟨rfl, rfl⟩ | ⟨rfl, rfl⟩ <;> rcases h with h | h
  · simp only [List.mem_cons, List.not_mem_nil, or_false] at h
    rcases h with rfl | rfl | rfl <;> decide
  · exact absurd h (none _ _)
  · simp only [List.mem_cons, List.not_mem_nil, or_false] at h
    subst h; decide
  · exact absurd h (none _ _)
  · cases h
  · exact absurd h (none _ _)
  · cases h
  · exact absurd h (none _ _)

/-- the conditions of `C122_success` and `C122_accepted` are met -/
example : ((none : Option Err) = none ↔ (none : Option Err) = none) ∧
    validateAll (fun _ => 0) (callTasks listed) (callTasks listed) (callTasks listed) (callTasks listed) (callTasks listed) = [] := by
  refine ⟨C122_success (s := listedRun) (s' := calledRun) rfl listed_callable listed_unasked (rank := fun x => if x = s "all" then 2 else if x = s "app" then 1 else 0)
      (fun a b h => listed_refers h) (no_blocks (by decide +kernel)) ?_ (reach _ _) (quiet_of (by decide +kernel)) (ret_of_result (by decide +kernel)) (reach _ _)
      (quiet_of (by decide +kernel)) (ret_of_result (by decide +kernel)),
    (C122_accepted (grow := fun _ => 0) (by unfold GoMap.WF; decide +kernel) (.refl _) (.refl _) (.refl _) (.refl _) (.refl _) (.refl _) (.refl _) (.refl _)).mpr
      (by decide +kernel : validateAll (fun _ => 0) listed listed listed listed listed = [])⟩
  intro k U _ hU _ _
  have := GoMap.mem_of_get? hU
  simp only [listed, List.mem_cons, Prod.mk.injEq, List.not_mem_nil, or_false] at this
  rcases this with ⟨-, rfl⟩ | ⟨-, rfl⟩ | ⟨-, rfl⟩ | ⟨-, rfl⟩ <;> exact ⟨_, List.mem_singleton.mpr rfl, by decide +kernel⟩

/-- two tasks of a block that need the same one -/
def needs : TaskMap :=
  [(s "t", { name := s "t", run := [par [call "a", call "b"]] }),
   (s "a", { name := s "a", deps := [s "lib"], run := [cmd "x"] }),
   (s "b", { name := s "b", deps := [s "lib"], run := [cmd "y"] }),
   (s "lib", { name := s "lib", run := [cmd "make"] })]

/-- a task that is skipped, in a block -/
def skipped : TaskMap :=
  [(s "t", { name := s "t", run := [par [call "a"]] }),
   (s "a", { name := s "a", cond := s "false", deps := [s "lib"], run := [cmd "x"] }),
   (s "lib", { name := s "lib", run := [cmd "make"] })]

end Sample

open Sample in
/-- **C122** Limits of the property: if two tasks of a parallel block need the same one, then it has to be a dependency, which is run before
the block starts. As a call it makes a run fail in which nothing goes wrong. -/
theorem C122_shared : Exec.result (Exec.drive [.auto 24, .rep (.sub 1 .go) 30, .auto 200] (start {} needs [] (s "t"))) = some none ∧
    Exec.result (Exec.drive [.auto 24, .rep (.sub 1 .go) 30, .auto 200] (start {} (callTasks needs) [] (s "t"))) =
      some (some (.wrap (.item (s "b")) (.circularDep [s "lib"]))) := by
  decide +kernel

open Sample in
/-- **C122** Limits of the property: the dependencies of a task that is called in a block are run even if the task is skipped (finding 7); calls
at its beginning are not. -/
theorem C122_skipped : Spec.entries (Exec.drive [.auto 200] (start {} skipped [] (s "t"))).sh.trace = [.cmd ⟨s "lib", 0, none⟩ (s "make")] ∧
    Spec.entries (Exec.drive [.auto 200] (start {} (callTasks skipped) [] (s "t"))).sh.trace = [] ∧
    Exec.result (Exec.drive [.auto 200] (start {} (callTasks skipped) [] (s "t"))) = some none := by
  decide +kernel

end Bab
