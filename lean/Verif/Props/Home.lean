import Verif.Spec.Home
import Verif.Props.Deps
/-
C117: items for other platforms can be left out.
-/

namespace Bab
open Spec

namespace Home

section
variable {α : Type} {p : α → Bool}

theorem filter_at : ∀ {l : List α} {i : Nat} {x : α}, l[i]? = some x → p x = true → (l.filter p)[((l.take i).filter p).length]? = some x
  | a :: l, 0, x, h, hp => by
    simp at h
    subst h
    simp [List.filter_cons, hp]
  | a :: l, i + 1, x, h, hp => by
    have ih := filter_at (l := l) (i := i) (by simpa using h) hp
    by_cases ha : p a = true
    · simp [ha, ih]
    · simp [ha, ih]

theorem at_filter : ∀ {l : List α} {j : Nat} {x : α}, (l.filter p)[j]? = some x →
    ∃ i, l[i]? = some x ∧ p x = true ∧ ((l.take i).filter p).length = j
  | a :: l, j, x, h => by
    by_cases ha : p a = true
    · rw [List.filter_cons_of_pos ha] at h
      cases j with
      | zero =>
        simp at h
        subst h
        exact ⟨0, rfl, ha, rfl⟩
      | succ j =>
        obtain ⟨i, h1, h2, h3⟩ := at_filter (l := l) (by simpa using h)
        exact ⟨i + 1, by simpa using h1, h2, by simp [ha, h3]⟩
    · rw [List.filter_cons_of_neg ha] at h
      obtain ⟨i, h1, h2, h3⟩ := at_filter (l := l) h
      exact ⟨i + 1, by simpa using h1, h2, by simp [ha, h3]⟩

/-- different items that stay are at different places -/
theorem filter_inj : ∀ {l : List α} {i j : Nat} {x y : α}, l[i]? = some x → l[j]? = some y → p x = true → p y = true →
    ((l.take i).filter p).length = ((l.take j).filter p).length → i = j
  | a :: l, 0, 0, _, _, _, _, _, _, _ => rfl
  | a :: l, 0, j + 1, x, y, h, _, hx, _, e => by
    simp at h
    subst h
    simp [hx] at e
  | a :: l, i + 1, 0, x, y, _, h, _, hy, e => by
    simp at h
    subst h
    simp [hy] at e
  | a :: l, i + 1, j + 1, x, y, h, h', hx, hy, e => by
    have := filter_inj (l := l) (i := i) (j := j) (by simpa using h) (by simpa using h') hx hy (by
      by_cases ha : p a = true
      · simpa [ha] using e
      · simpa [ha] using e)
    rw [this]

end

section
variable {c : Cfg} {tasks : TaskMap} {g : GoMap Str} {main : Str}

theorem get_home (k : Str) : (homeTasks c tasks).get? k = (tasks.get? k).map (homeTask c) := by
  induction tasks with
  | nil => rfl
  | cons q l ih =>
    obtain ⟨a, T⟩ := q
    have e : homeTasks c ((a, T) :: l) = (a, homeTask c T) :: homeTasks c l := rfl
    rw [e]
    by_cases h : a = k
    · simp [GoMap.get?, h]
    · simp only [GoMap.get?, if_neg h]
      exact ih

theorem home_some {k : Str} {U : Task} (h : tasks.get? k = some U) : (homeTasks c tasks).get? k = some (homeTask c U) := by rw [get_home, h]; rfl

theorem home_inv {k : Str} {V : Task} (h : (homeTasks c tasks).get? k = some V) : ∃ U, tasks.get? k = some U ∧ V = homeTask c U := by
  rw [get_home] at h
  obtain ⟨U, h1, h2⟩ := Option.map_eq_some_iff.mp h
  exact ⟨U, h1, h2.symm⟩

theorem place_some {k : Str} {i : Nat} {u : Option Nat} {U : Task} (h : tasks.get? k = some U) :
    homePlace c tasks ⟨k, i, u⟩ = ⟨k, ((U.run.take i).filter (·.onPlatform c.platform)).length, u⟩ := by
  unfold homePlace; rw [h]

theorem place_name (l : Loc) : (homePlace c tasks l).task = l.task := by
  unfold homePlace; split <;> rfl

theorem place_sub (l : Loc) : (homePlace c tasks l).sub = l.sub := by
  unfold homePlace; split <;> rfl

/-- the place of an item of a block follows the place of the block -/
theorem place_in (k : Str) (i : Nat) (u v : Option Nat) :
    homePlace c tasks ⟨k, i, v⟩ = ⟨k, (homePlace c tasks ⟨k, i, u⟩).item, v⟩ := by
  unfold homePlace; dsimp only; split <;> rfl

/-- an item that is due belongs to a task and is, or is in, an item for this platform -/
theorem at_place {l : Loc} {it : RunItem} {m : GoMap Str} (h : Spec.Due c tasks g main (.item l it m)) :
    ∃ U x, tasks.get? l.task = some U ∧ U.run[l.item]? = some x ∧ x.onPlatform c.platform = true := by
  generalize hth : Thing.item l it m = th at h
  induction h generalizing l it m with
  | item _ h2 _ _ h5 h6 _ => cases hth; exact ⟨_, _, h2, h5, h6⟩
  | sub _ _ ih => cases hth; exact ih (l := ⟨_, _, none⟩) rfl
  | _ => cases hth

theorem due_new {th : Thing} (h : Spec.Due c tasks g main th) :
    match th with
    | .task k => Spec.Due c (homeTasks c tasks) g main (.task k)
    | .item l it m => Spec.Due c (homeTasks c tasks) g main (.item (homePlace c tasks l) it m) := by
  induction h with
  | main => exact .main
  | dep _ h2 h3 h4 ih => exact .dep ih (home_some h2) h3 h4
  | item _ h2 h3 h4 h5 h6 h7 ih =>
    dsimp only at ih ⊢
    rw [place_some h2]
    exact .item ih (home_some h2) h3 h4 (filter_at h5 h6) h6 h7
  | sub _ h2 ih =>
    dsimp only at ih ⊢
    rw [place_in _ _ none none] at ih
    rw [place_in _ _ none]
    exact .sub ih h2
  | call _ ih => exact .call ih
  | @ahead k i j t m U d h1 h2 h3 ih =>
    dsimp only at ih ⊢
    rw [place_in _ _ none] at ih
    exact .ahead ih (home_some h2) h3

theorem due_old {th : Thing} (h : Spec.Due c (homeTasks c tasks) g main th) :
    match th with
    | .task k => Spec.Due c tasks g main (.task k)
    | .item l it m => ∃ l', homePlace c tasks l' = l ∧ Spec.Due c tasks g main (.item l' it m) := by
  induction h with
  | main => exact .main
  | dep _ h2 h3 h4 ih =>
    obtain ⟨U, k1, rfl⟩ := home_inv h2
    exact .dep ih k1 h3 h4
  | @item k V m i it _ h2 h3 h4 h5 h6 h7 ih =>
    obtain ⟨U, k1, rfl⟩ := home_inv h2
    obtain ⟨i', e1, e2, e3⟩ := at_filter h5
    exact ⟨⟨k, i', none⟩, by rw [place_some k1, e3], .item ih k1 h3 h4 e1 e2 h7⟩
  | @sub k i its la mo li co s o pl w l m j it _ h2 ih =>
    obtain ⟨⟨k', i', u⟩, e, hd⟩ := ih
    have hu : u = none := by have := place_sub (c := c) (tasks := tasks) ⟨k', i', u⟩; rw [e] at this; exact this.symm
    subst hu
    refine ⟨⟨k', i', some j⟩, ?_, .sub hd h2⟩
    have hk : k = k' := by have := place_name (c := c) (tasks := tasks) ⟨k', i', none⟩; rw [e] at this; exact this
    rw [place_in _ _ none, e, hk]
  | call _ ih =>
    obtain ⟨l', -, hd⟩ := ih
    exact .call hd
  | @ahead k i j t m U d h1 h2 h3 ih =>
    obtain ⟨⟨k', i', u⟩, e, hd⟩ := ih
    have hu : u = some j := by have := place_sub (c := c) (tasks := tasks) ⟨k', i', u⟩; rw [e] at this; exact this.symm
    subst hu
    obtain ⟨U, k1, rfl⟩ := home_inv h2
    exact .ahead hd k1 h3

theorem entry_iff {e : PlanEntry} :
    DueEntry c (homeTasks c tasks) g main e ↔ ∃ e', homeEntry c tasks e' = e ∧ DueEntry c tasks g main e' := by
  constructor
  · intro h
    cases h with
    | cmd h1 h2 =>
      obtain ⟨l', rfl, h⟩ := due_old h1
      exact ⟨_, rfl, .cmd h h2⟩
    | log h1 h2 =>
      obtain ⟨l', rfl, h⟩ := due_old h1
      exact ⟨.log l' _ _, rfl, .log h h2⟩
  · rintro ⟨e', rfl, h⟩
    cases h with
    | cmd h1 h2 => exact .cmd (due_new h1) h2
    | log h1 h2 => exact .log (due_new h1) h2

theorem place_inj {l l' : Loc} {it it' : RunItem} {m m' : GoMap Str} (h : Spec.Due c tasks g main (.item l it m))
    (h' : Spec.Due c tasks g main (.item l' it' m')) (e : homePlace c tasks l = homePlace c tasks l') : l = l' := by
  obtain ⟨U, x, h1, h2, h3⟩ := at_place h
  obtain ⟨U', x', k1, k2, k3⟩ := at_place h'
  obtain ⟨k, i, u⟩ := l
  obtain ⟨k', i', u'⟩ := l'
  rw [place_some h1, place_some k1] at e
  have e1 := congrArg Loc.task e
  have e2 := congrArg Loc.item e
  have e3 := congrArg Loc.sub e
  dsimp only at e1 e2 e3 h1 h2 k1 k2
  subst e1 e3
  rw [h1] at k1; cases k1
  rw [filter_inj h2 k2 h3 k3 e2]

theorem unasked (hask : Unasked c tasks g main) : Unasked c (homeTasks c tasks) g main := by
  intro k V p hd hV hp
  obtain ⟨U, k1, rfl⟩ := home_inv hV
  exact hask k U p (due_old hd) k1 (List.mem_of_mem_filter hp)

theorem calls_filter {k : Str} {p : RunItem → Bool} : ∀ {l : List RunItem}, CallsIn k (l.filter p) → CallsIn k l
  | a :: l, h => by
    by_cases ha : p a = true
    · rw [List.filter_cons_of_pos ha] at h
      cases h with
      | here h => exact .here h
      | block h => exact .block h
      | later h => exact .later (calls_filter h)
    · rw [List.filter_cons_of_neg ha] at h
      exact .later (calls_filter h)

theorem refers {a b : Str} (h : Refers (homeTasks c tasks) a b) : Refers tasks a b := by
  obtain ⟨V, hV, h⟩ := h
  obtain ⟨U, k1, rfl⟩ := home_inv hV
  exact ⟨U, k1, h.imp id calls_filter⟩

theorem prior_iff {its : List RunItem} {d : Str} : Prior (homeTasks c tasks) its d ↔ Prior tasks its d := by
  constructor
  · rintro ⟨t, V, ht, hV, hd⟩
    obtain ⟨U, k1, rfl⟩ := home_inv hV
    exact ⟨t, U, ht, k1, hd⟩
  · rintro ⟨t, U, ht, hU, hd⟩
    exact ⟨t, _, ht, home_some hU, hd⟩

theorem separate (hsep : Separate tasks) : Separate (homeTasks c tasks) := by
  intro a V its la mo li co s o pl w l hV hb i j t u hij hi hj y h1 h2
  obtain ⟨U, k1, rfl⟩ := home_inv hV
  have hp : Prior (homeTasks c tasks) its = Prior tasks its := funext fun d => propext prior_iff
  rw [hp] at h1 h2 ⊢
  have may : ∀ {b d}, MayRun (homeTasks c tasks) b d → MayRun tasks b d := by
    rintro b d (h | ⟨V, its, la, mo, li, co, s', o', pl', w', ln', hV, hbl, hpr⟩)
    · exact .inl (refers h)
    · obtain ⟨U, k1, rfl⟩ := home_inv hV
      exact .inr ⟨U, its, la, mo, li, co, s', o', pl', w', ln', k1, List.mem_of_mem_filter hbl, prior_iff.mp hpr⟩
  have leads : ∀ {x y}, Leads (homeTasks c tasks) (Prior tasks its) x y → Leads tasks (Prior tasks its) x y := by
    intro x y h
    induction h with
    | self => exact .self
    | step _ hb hm ih => exact .step ih hb (may hm)
  exact hsep a U its la mo li co s o pl w l k1 (List.mem_of_mem_filter hb) i j t u hij hi hj y (leads h1) (leads h2)

theorem item_works {l : Loc} {it : RunItem} {m : GoMap Str} :
    ItemWorks c (homeTasks c tasks) (homePlace c tasks l) m it ↔ ItemWorks c tasks l m it := by
  cases it with
  | command v =>
    constructor
    · rintro ⟨V, tenv, text, h1, h2, h3⟩
      rw [place_name] at h1
      obtain ⟨U, k1, rfl⟩ := home_inv h1
      exact ⟨U, tenv, text, k1, h2, (Split.alike_ready (U' := homeTask c U) ⟨rfl, rfl, rfl, rfl⟩).mp h3⟩
    · rintro ⟨U, tenv, text, h1, h2, h3⟩
      exact ⟨homeTask c U, tenv, text, by rw [place_name]; exact home_some h1, h2, (Split.alike_ready (U' := homeTask c U) ⟨rfl, rfl, rfl, rfl⟩).mpr h3⟩
  | log l => exact Iff.rfl
  | task t => exact Iff.rfl
  | prompt p => show _ = _ ↔ _ = _; rw [place_sub]
  | parallel => show _ = _ ↔ _ = _; rw [place_sub]

theorem works_iff (hsome : ∀ k U, Spec.Due c tasks g main (.task k) → tasks.get? k = some U → U.run ≠ [] → ∃ it ∈ U.run, it.onPlatform c.platform = true) :
    (∀ y, Spec.Due c (homeTasks c tasks) g main y → Works c (homeTasks c tasks) g y) ↔ ∀ y, Spec.Due c tasks g main y → Works c tasks g y := by
  constructor
  · intro hall y hy
    cases y with
    | task k =>
      obtain ⟨V, hV, hw⟩ := hall _ (due_new hy)
      obtain ⟨U, k1, rfl⟩ := home_inv hV
      refine ⟨U, k1, hw.cond, fun hc hne => ?_⟩
      obtain ⟨x, hx, hxp⟩ := hsome k U hy k1 hne
      obtain ⟨m, tenv, h1, h2, -, h4⟩ := hw.body hc (by
        intro h
        have : x ∈ (homeTask c U).run := List.mem_filter.mpr ⟨hx, hxp⟩
        rw [h] at this
        cases this)
      exact ⟨m, tenv, h1, h2, ⟨x, hx, hxp⟩, fun it hit hp => h4 it (List.mem_filter.mpr ⟨hit, hp⟩) hp⟩
    | item l it m => exact item_works.mp (hall _ (due_new hy))
  · intro hall y hy
    cases y with
    | task k =>
      obtain ⟨U, k1, hw⟩ := hall _ (due_old hy)
      refine ⟨_, home_some k1, hw.cond, fun hc hne => ?_⟩
      obtain ⟨m, tenv, h1, h2, ⟨x, hx, hxp⟩, h4⟩ := hw.body hc (by
        intro h
        exact hne (show U.run.filter _ = [] by rw [h]; rfl))
      exact ⟨m, tenv, h1, h2, ⟨x, List.mem_filter.mpr ⟨hx, hxp⟩, hxp⟩, fun it hit hp => h4 it (List.mem_of_mem_filter hit) hp⟩
    | item l it m =>
      obtain ⟨l', rfl, h⟩ := due_old hy
      exact item_works.mpr (hall _ h)

end
end Home

section
variable {c : Cfg} {tasks : TaskMap} {gvars : GoMap Str} {main : Str} {s s' : State}

/-- **C117** Without the items for other platforms the same is done: two runs that end with success and are not interrupted, one with and one
without them, start the same commands and print the same messages, each once; only the numbers of the items differ. -/
theorem C117_same (hd : c.dry = false) (hask : Unasked c tasks gvars main) (hr : Reach (start c tasks gvars main) s) (hp : s.prog = .ret none)
    (hc : ∀ id, .cancel id ∉ s.sh.trace) (hr' : Reach (start c (homeTasks c tasks) gvars main) s') (hp' : s'.prog = .ret none)
    (hc' : ∀ id, .cancel id ∉ s'.sh.trace) : ((Spec.entries s.sh.trace).map (homeEntry c tasks)).Perm (Spec.entries s'.sh.trace) := by
  have hask' := Home.unasked hask
  have due : ∀ e ∈ Spec.entries s.sh.trace, DueEntry c tasks gvars main e := fun e he => C78_only hd hask hr he
  refine (List.perm_ext_iff_of_nodup ?_ (Due.entries_nodup fun loc => acts_once hr' loc)).mpr fun e => ?_
  · refine List.Nodup.map_on ?_ (Due.entries_nodup fun loc => acts_once hr loc)
    intro a ha b hb e
    cases due a ha with
    | cmd h1 h2 =>
      cases due b hb with
      | cmd k1 k2 =>
        simp only [homeEntry, PlanEntry.cmd.injEq] at e
        rw [Home.place_inj h1 k1 e.1, e.2]
      | log k1 k2 => simp [homeEntry] at e
    | log h1 h2 =>
      cases due b hb with
      | cmd k1 k2 => simp [homeEntry] at e
      | log k1 k2 =>
        simp only [homeEntry, PlanEntry.log.injEq] at e
        rw [Home.place_inj h1 k1 e.1, e.2.1, e.2.2]
  · rw [List.mem_map]
    constructor
    · rintro ⟨a, ha, rfl⟩
      exact C78_all hd hask' hr' hp' hc' (Home.entry_iff.mpr ⟨a, rfl, due a ha⟩)
    · intro he
      obtain ⟨a, rfl, ha⟩ := Home.entry_iff.mp (C78_only hd hask' hr' he)
      exact ⟨a, C78_all hd hask hr hp hc ha, rfl⟩

/-- **C117** And the process that is started for a command is the same: the shell, the text, the directory, and the environment apart from
the names that control colours. -/
theorem C117_process (hd : c.dry = false) (hask : Unasked c tasks gvars main) (hr : Reach (start c tasks gvars main) s)
    (hr' : Reach (start c (homeTasks c tasks) gvars main) s') {loc : Loc} {spec spec' : ProcSpec} (h : .procStart loc spec ∈ s.sh.trace)
    (h' : .procStart (homePlace c tasks loc) spec' ∈ s'.sh.trace) :
    spec.shell = spec'.shell ∧ spec.arg = spec'.arg ∧ spec.cmd = spec'.cmd ∧ spec.dir = spec'.dir ∧
    ∀ k, k ∉ colourNames → procEnv c spec k = procEnv c spec' k := by
  obtain ⟨T1, v, m, tenv, text, env, dir, fr, hT1, hdue, he, hpr, rfl⟩ := Due.events hd hask hr _ h
  obtain ⟨T2, v', m', tenv', text', env', dir', fr', hT2, hdue', he', hpr', rfl⟩ := Due.events hd (Home.unasked hask) hr' _ h'
  obtain ⟨h1, rfl⟩ := Due.item_unique (Home.due_new hdue) hdue'
  cases h1
  rw [Home.place_name, Home.home_some hT1] at hT2; cases hT2
  have ha : Split.Alike T1 (homeTask c T1) := ⟨rfl, rfl, rfl, rfl⟩
  rw [ha.2.1, he] at he'; cases he'
  rw [Split.alike_prepare ha, hpr] at hpr'; cases hpr'
  refine ⟨rfl, rfl, rfl, rfl, fun k hk => ?_⟩
  have we : env.WF := interpolateEnv_WF (prepare_inv hpr).2.1 (WF_mergeEnvMaps _)
  rw [procEnv_eq we, procEnv_eq we, colourEnv_other hk, colourEnv_other hk]

/-- **C117** Nor do they decide about success, unless nothing is left of a task: if references make no circle, items of parallel blocks keep
out of each other's way, and each task that is run and has items has one for this platform, then a run without the items for other
platforms in which nothing goes wrong outside succeeds exactly if such a run with them does. -/
theorem C117_success (hd : c.dry = false) (hask : Unasked c tasks gvars main) {rank : Str → Nat} (hrk : ∀ a b, Refers tasks a b → rank b < rank a)
    (hsep : Separate tasks)
    (hsome : ∀ k U, Spec.Due c tasks gvars main (.task k) → tasks.get? k = some U → U.run ≠ [] → ∃ it ∈ U.run, it.onPlatform c.platform = true)
    (hr : Reach (start c tasks gvars main) s) (hcalm : ∀ e ∈ s.sh.trace, Calm e) {r r' : Option Err} (hp : s.prog = .ret r)
    (hr' : Reach (start c (homeTasks c tasks) gvars main) s') (hcalm' : ∀ e ∈ s'.sh.trace, Calm e) (hp' : s'.prog = .ret r') :
    r' = none ↔ r = none := by
  rw [C79_exact hd hask hrk hsep hr hcalm hp,
    C79_exact hd (Home.unasked hask) (fun a b h => hrk a b (Home.refers h)) (Home.separate hsep) hr' hcalm' hp', Home.works_iff hsome]

/-- **C117** What is left out cannot make a Babfile wrong: if validation finds nothing then it finds nothing without the items for other
platforms, in whatever order it looks at the tasks. (It may find something in items for other platforms, so the converse does not hold.) -/
theorem C117_accepted {grow grow' : Nat → Nat} {o1 o2 o3 o4 p1 p2 p3 p4 : TaskMap} (hwf : tasks.WF) (h1 : o1.Perm tasks) (h2 : o2.Perm tasks)
    (h3 : o3.Perm tasks) (h4 : o4.Perm tasks) (k1 : p1.Perm (homeTasks c tasks)) (k2 : p2.Perm (homeTasks c tasks)) (k3 : p3.Perm (homeTasks c tasks))
    (k4 : p4.Perm (homeTasks c tasks)) (h : validateAll grow o1 o2 o3 o4 tasks = []) : validateAll grow' p1 p2 p3 p4 (homeTasks c tasks) = [] := by
  have hwf' : (homeTasks c tasks).WF := by
    have e : (homeTasks c tasks).keys = tasks.keys := by unfold homeTasks GoMap.keys; rw [List.map_map]; rfl
    unfold GoMap.WF at hwf ⊢
    rw [e]; exact hwf
  rw [validateAll_nil grow' hwf' k1 k2 k3 k4]
  obtain ⟨a1, a2, a3⟩ := (validateAll_nil grow hwf h1 h2 h3 h4).mp h
  have reaches : ∀ {a b}, Reaches (homeTasks c tasks) a b → Reaches tasks a b := by
    intro a b h
    induction h with
    | one h => exact .one (Home.refers h)
    | more h _ ih => exact .more (Home.refers h) ih
  refine ⟨fun a b hab => ?_, fun ⟨n, hn⟩ => a2 ⟨n, reaches hn⟩, ⟨fun k V a hV ha => ?_, fun k k' V V' a hV hV' ha ha' => ?_, fun k V hV => ?_⟩⟩
  · obtain ⟨T, hT⟩ := a1 a b (Home.refers hab)
    exact ⟨_, Home.home_some hT⟩
  · obtain ⟨U, e, rfl⟩ := Home.home_inv hV
    rw [Home.get_home, a3.notName k U a e ha]; rfl
  · obtain ⟨U, e, rfl⟩ := Home.home_inv hV
    obtain ⟨U', e', rfl⟩ := Home.home_inv hV'
    exact a3.oneTask k k' U U' a e e' ha ha'
  · obtain ⟨U, e, rfl⟩ := Home.home_inv hV
    exact a3.once k U e

end

namespace Sample
open Exec

/-- a task with items for three platforms, one in a parallel block, where the platform is not looked at -/
def portable : TaskMap :=
  [(s "all", { name := s "all", run := [.command { cmd := s "dir", platforms := [s "windows"] }, .command { cmd := s "ls", platforms := [s "linux", s "darwin"] },
     .task { task := s "win", platforms := [s "windows"] }, par [cmd "a", .command { cmd := s "b", platforms := [s "windows"] }], cmd "echo"] }),
   (s "win", { name := s "win", run := [.command { cmd := s "reg", platforms := [s "windows"] }] })]

/-- a run with all items and a run with those for this platform -/
def portableRun : State := drive [.auto 400] (start { platform := s "linux" } portable [] (s "all"))
def homeRun : State := drive [.auto 400] (start { platform := s "linux" } (homeTasks { platform := s "linux" } portable) [] (s "all"))

theorem portable_unasked : Unasked { platform := s "linux" } portable [] (s "all") := by
  intro n T p _ hT hp
  have := GoMap.mem_of_get? hT
  simp only [portable, List.mem_cons, Prod.mk.injEq, List.not_mem_nil, or_false] at this
  rcases this with ⟨-, rfl⟩ | ⟨-, rfl⟩ <;> simp [cmd, par] at hp

/-- the conditions are met; the third item that is run was the fifth -/
example : ((Spec.entries portableRun.sh.trace).map (homeEntry { platform := s "linux" } portable)).Perm (Spec.entries homeRun.sh.trace) ∧
    (Spec.entries homeRun.sh.trace).length = 4 ∧ .cmd ⟨s "all", 2, none⟩ (s "echo") ∈ Spec.entries homeRun.sh.trace ∧
    .cmd ⟨s "all", 4, none⟩ (s "echo") ∈ Spec.entries portableRun.sh.trace :=
  ⟨C117_same rfl portable_unasked (reach _ _) (ret_of_result (by decide +kernel)) (calm_of (by decide +kernel))
    (reach _ _) (ret_of_result (by decide +kernel)) (calm_of (by decide +kernel)), by decide +kernel, by decide +kernel, by decide +kernel⟩

/-- the conditions of `C117_accepted` are met -/
example : validateAll (fun _ => 0) (homeTasks { platform := s "linux" } portable) (homeTasks { platform := s "linux" } portable)
    (homeTasks { platform := s "linux" } portable) (homeTasks { platform := s "linux" } portable) (homeTasks { platform := s "linux" } portable) = [] :=
  C117_accepted (grow := fun _ => 0) (by unfold GoMap.WF; decide +kernel) (.refl _) (.refl _) (.refl _) (.refl _) (.refl _) (.refl _) (.refl _) (.refl _)
    (by decide +kernel : validateAll (fun _ => 0) portable portable portable portable portable = [])

/-- one item is for another platform -/
def either : TaskMap :=
  [(s "all", { name := s "all", run := [.command { cmd := s "dir", platforms := [s "windows"] }, cmd "ls"] })]

/-- a run with all items and a run with those for this platform -/
def eitherRun : State := drive [.auto 100] (start { platform := s "linux" } either [] (s "all"))
def eitherHome : State := drive [.auto 100] (start { platform := s "linux" } (homeTasks { platform := s "linux" } either) [] (s "all"))

theorem quiet_of {l : List Ev} (h : ∀ e ∈ l, (match e with
    | .cancel _ => false | .tuiStart b => b | .procEnd _ r => r.isNone | .procFail _ => false | .answered _ _ _ => false | _ => true) = true) :
    ∀ e ∈ l, Calm e := by
  intro e he
  have := h e he
  cases e <;> simp_all [Calm, Fails]

theorem either_get {k : Str} {U : Task} (h : either.get? k = some U) :
    U = { name := s "all", run := [.command { cmd := s "dir", platforms := [s "windows"] }, cmd "ls"] } := by
  have := GoMap.mem_of_get? h
  simp only [either, List.mem_cons, Prod.mk.injEq, List.not_mem_nil, or_false] at this
  exact this.2

/-- the conditions of `C117_success` are met -/
example : (none : Option Err) = none ↔ (none : Option Err) = none := by
  refine C117_success (c := { platform := s "linux" }) (tasks := either) (gvars := []) (main := s "all") (s := eitherRun) (s' := eitherHome) rfl ?_
    (rank := fun _ => 0) ?_ (no_blocks (by decide +kernel)) ?_ (reach _ _) (quiet_of (by decide +kernel)) (ret_of_result (by decide +kernel)) (reach _ _)
    (quiet_of (by decide +kernel)) (ret_of_result (by decide +kernel))
  · intro n T p _ hT hp
    rw [either_get hT] at hp
    simp [cmd] at hp
  · rintro a b ⟨U, hU, h⟩
    rw [either_get hU] at h
    rcases h with h | h
    · cases h
    · cases h with
      | later h =>
        cases h with
        | later h => cases h
  · intro k U _ hU _
    rw [either_get hU]
    exact ⟨cmd "ls", by simp, by decide +kernel⟩

end Sample

open Sample in
/-- **C117** Limits of the property: a task that has items, but none for this platform, cannot be run; without these items nothing is left to
do and it can. -/
theorem C117_nothing_left :
    (Exec.result (Exec.drive [.auto 200] (start { platform := s "linux" } portable [] (s "win")))).map Option.isSome = some true ∧
    Exec.result (Exec.drive [.auto 200] (start { platform := s "linux" } (homeTasks { platform := s "linux" } portable) [] (s "win"))) = some none := by
  decide +kernel

open Sample in
/-- **C117** Limits of the property: a reference in an item for another platform is looked at by validation. -/
theorem C117_still_checked :
    (validateAll (fun _ => 0) [(s "all", { name := s "all", run := [cmd "ls", .task { task := s "win", platforms := [s "windows"] }] })]
      [(s "all", { name := s "all", run := [cmd "ls", .task { task := s "win", platforms := [s "windows"] }] })]
      [(s "all", { name := s "all", run := [cmd "ls", .task { task := s "win", platforms := [s "windows"] }] })]
      [(s "all", { name := s "all", run := [cmd "ls", .task { task := s "win", platforms := [s "windows"] }] })]
      [(s "all", { name := s "all", run := [cmd "ls", .task { task := s "win", platforms := [s "windows"] }] })]) ≠ [] := by
  decide +kernel

end Bab
