import Verif.Proof.SplitPlan
import Verif.Props.Plan
import Verif.Props.Work
import Verif.Proof.Cli
/-
C112: items of a task can be moved to a task of their own.
-/

namespace Bab
open Spec

namespace Split
section
variable {c : Cfg} {tasks : TaskMap} {g : GoMap Str} {main n x : Str} {T : Task} {pre mid post : List RunItem}

local notation "new" => moveItems tasks n T x pre mid post
local notation "old" => oldPlace n x pre.length mid.length

/-- nothing needs a task that nothing refers to -/
theorem not_needed (hno : ∀ a, ¬ Refers tasks a x) (hmain : main ≠ x) : ¬ Needs tasks main x := by
  rintro (h | h)
  · exact hmain h
  · clear hmain
    generalize hy : x = y at h
    induction h with
    | one h => exact hno _ (hy ▸ h)
    | more _ _ ih => exact ih hy

/-- the two tasks have the same settings -/
def Alike (U U' : Task) : Prop := U'.vars = U.vars ∧ U'.env = U.env ∧ U'.dir = U.dir ∧ U'.sourcePath = U.sourcePath

theorem alike_dir {U U' : Task} (h : Alike U U') (cmdDir : Str) (ctx : Ctx) : resolveDir c U' cmdDir ctx = resolveDir c U cmdDir ctx := by
  unfold resolveDir
  rw [h.2.2.1, h.2.2.2]

theorem alike_ready {U U' : Task} (h : Alike U U') {v : CommandRun} {tenv m : GoMap Str} {text : Str} :
    CmdReady c U' v tenv m text ↔ CmdReady c U v tenv m text := by
  unfold CmdReady
  rw [alike_dir h]

theorem alike_prepare {U U' : Task} (h : Alike U U') {v : CommandRun} {tenv m : GoMap Str} {r : Str × GoMap Str × Str} :
    prepareCommand c U' v tenv m = .ok r ↔ prepareCommand c U v tenv m = .ok r := by
  unfold prepareCommand
  rw [alike_dir h]
  cases interpolate v.cmd ⟨m, c.env⟩ with
  | error e => exact Iff.rfl
  | ok text =>
    cases interpolateEnv ⟨m, c.env⟩ (mergeEnvMaps [tenv, v.env]) with
    | error e => exact Iff.rfl
    | ok env =>
      cases resolveDir c U v.dir ⟨m, c.env⟩ with
      | error e => simp
      | ok d => exact Iff.rfl

/-- the settings at a place are those at the place before -/
theorem alike_at (hT : tasks.get? n = some T) (hx : tasks.get? x = none) {l : Loc} {U : Task} (h : (new).get? l.task = some U) :
    ∃ U0, tasks.get? (old l).task = some U0 ∧ Alike U0 U := by
  unfold oldPlace
  by_cases h1 : l.task = x
  · rw [if_pos h1]
    rw [h1, new_x] at h; cases h
    exact ⟨T, hT, rfl, rfl, rfl, rfl⟩
  · rw [if_neg h1]
    by_cases h2 : l.task = n
    · rw [h2, new_n hT hx] at h; cases h
      refine ⟨T, ?_, rfl, rfl, rfl, rfl⟩
      split
      · exact hT
      · rw [h2]; exact hT
    · rw [new_other h2 h1] at h
      rw [if_neg (fun e => h2 e.1)]
      exact ⟨U, h, rfl, rfl, rfl, rfl⟩

theorem item_works (hT : tasks.get? n = some T) (hx : tasks.get? x = none) {l : Loc} {it : RunItem} {m : GoMap Str} {U : Task}
    (h : (new).get? l.task = some U) : ItemWorks c (new) l m it ↔ ItemWorks c tasks (old l) m it := by
  obtain ⟨U0, h0, ha⟩ := alike_at hT hx h
  cases it with
  | command v =>
    constructor
    · rintro ⟨U1, tenv, text, h1, h2, h3⟩
      rw [h] at h1; cases h1
      exact ⟨U0, tenv, text, h0, ha.2.1 ▸ h2, (alike_ready ha).mp h3⟩
    · rintro ⟨U1, tenv, text, h1, h2, h3⟩
      rw [h0] at h1; cases h1
      exact ⟨U, tenv, text, h, ha.2.1.symm ▸ h2, (alike_ready ha).mpr h3⟩
  | log l => exact Iff.rfl
  | task t => exact Iff.rfl
  | prompt p => show _ = _ ↔ _ = _; rw [old_sub]
  | parallel => show _ = _ ↔ _ = _; rw [old_sub]

theorem not_wrong (m : GoMap Str) : ¬ CondWrong c [] m := by
  rintro ⟨e, h⟩
  simp [evaluate] at h

/-- all that is due works after the move exactly if it did before -/
theorem works_iff (hT : tasks.get? n = some T) (hrun : T.run = pre ++ mid ++ post) (hx : tasks.get? x = none) (hnx : ¬ Needs tasks main x)
    (hmid : ∃ it ∈ mid, it.onPlatform c.platform = true) :
    (∀ y, Spec.Due c (new) g main y → Works c (new) g y) ↔ ∀ y, Spec.Due c tasks g main y → Works c tasks g y := by
  obtain ⟨it0, hit0, hpl⟩ := hmid
  have ne : ∀ {k}, Spec.Due c tasks g main (.task k) → k ≠ x := fun h e => hnx (e ▸ due_needs h)
  have hne : T.run ≠ [] := by
    rw [hrun]; intro e
    have := List.append_eq_nil_iff.mp e
    rw [(List.append_eq_nil_iff.mp this.1).2] at hit0
    cases hit0
  have own : TaskWorks c g T → ∀ m, CondTrue c T.cond g → resolveVars T.vars g c.env = .ok m → TaskWorks c g (ownTask T x mid) := by
    intro hw m hc hm
    refine ⟨not_wrong g, fun _ _ => ?_⟩
    obtain ⟨m', tenv, h1, h2, -, h4⟩ := hw.body hc hne
    exact ⟨m', tenv, h1, h2, ⟨it0, hit0, hpl⟩, fun it hit => h4 it (by
      have hit : it ∈ mid := hit
      rw [hrun]; simp [hit])⟩
  constructor
  · intro hall y hy
    cases y with
    | task k =>
      have h := due_new hT hrun hx hnx hy
      obtain ⟨U, hU, hw⟩ := hall _ h
      by_cases e : k = n
      · subst e
        rw [new_n hT hx] at hU; cases hU
        refine ⟨T, hT, hw.cond, fun hc _ => ?_⟩
        obtain ⟨m, tenv, h1, h2, -, h4⟩ := hw.body hc (by simp)
        have hcall : Spec.Due c (moveItems tasks k T x pre mid post) g main (.item ⟨k, pre.length, none⟩ (.task { task := x }) m) := by
          refine .item (T := { T with run := pre ++ .task { task := x } :: post }) h (new_n hT hx) hc h1 ?_ ?_ ?_
          · simp
          · simp [RunItem.onPlatform, RunItem.platforms, matchesPlatform]
          · simp [CondTrue, RunItem.cond, evaluate]
        obtain ⟨X, hX, hwX⟩ := hall _ (.call hcall)
        have hX : X = ownTask T x mid := by
          have e := new_x (tasks := tasks) (n := k) (T := T) (x := x) (pre := pre) (mid := mid) (post := post)
          dsimp only at hX
          rw [e] at hX
          exact (Option.some.inj hX).symm
        subst hX
        obtain ⟨m', tenv', k1, k2, -, k4⟩ := hwX.body (by simp [CondTrue, ownTask, evaluate]) (by
          intro e
          have e : mid = [] := e
          rw [e] at hit0; cases hit0)
        have e : m' = m := by
          have k1 : resolveVars T.vars g c.env = .ok m' := k1
          have h1 : resolveVars T.vars g c.env = .ok m := h1
          rw [k1] at h1
          exact (Except.ok.inj h1)
        subst e
        refine ⟨m', tenv, h1, h2, ⟨it0, by rw [hrun]; simp [hit0], hpl⟩, fun it hit hp => ?_⟩
        rw [hrun] at hit
        simp only [List.mem_append] at hit
        rcases hit with (hit | hit) | hit
        · exact h4 it (by simp [hit]) hp
        · exact k4 it hit hp
        · exact h4 it (by simp [hit]) hp
      · rw [new_other e (ne hy)] at hU
        exact ⟨U, hU, hw⟩
    | item l it m =>
      obtain ⟨l', rfl, h⟩ := due_new hT hrun hx hnx hy
      obtain ⟨U, hU, -⟩ := due_place h
      exact (item_works hT hx hU).mp (hall _ h)
  · intro hall y hy
    cases y with
    | task k =>
      rcases due_old hT hrun hx hnx hy with ⟨rfl, m, hb⟩ | ⟨hk, h⟩
      · obtain ⟨U, hU, hw⟩ := hall _ hb.1
        rw [hT] at hU; cases hU
        exact ⟨_, new_x, own hw m hb.2.1 hb.2.2⟩
      · obtain ⟨U, hU, hw⟩ := hall _ h
        by_cases e : k = n
        · subst e
          rw [hT] at hU; cases hU
          refine ⟨_, new_n hT hx, hw.cond, fun hc _ => ?_⟩
          obtain ⟨m, tenv, h1, h2, -, h4⟩ := hw.body hc hne
          refine ⟨m, tenv, h1, h2, ⟨.task { task := x }, by simp, by simp [RunItem.onPlatform, RunItem.platforms, matchesPlatform]⟩, fun it hit hp => ?_⟩
          have hit : it ∈ pre ++ .task { task := x } :: post := hit
          simp only [List.mem_append, List.mem_cons] at hit
          rcases hit with hit | rfl | hit
          · exact h4 it (by rw [hrun]; simp [hit]) hp
          · exact not_wrong m
          · exact h4 it (by rw [hrun]; simp [hit]) hp
        · exact ⟨U, (new_other e hk).trans hU, hw⟩
    | item l it m =>
      rcases due_old hT hrun hx hnx hy with ⟨rfl, rfl, hb⟩ | ⟨-, h⟩
      · trivial
      · obtain ⟨U, hU, -⟩ := due_place hy
        exact (item_works hT hx hU).mpr (hall _ h)

theorem callsIn_append {k : Str} {a b : List RunItem} : CallsIn k (a ++ b) ↔ CallsIn k a ∨ CallsIn k b := by
  induction a with
  | nil =>
    constructor
    · exact .inr
    · rintro (h | h)
      · cases h
      · exact h
  | cons it a ih =>
    constructor
    · intro h
      cases h with
      | here h => exact .inl (.here h)
      | block h => exact .inl (.block h)
      | later h =>
        rcases ih.mp h with h | h
        · exact .inl (.later h)
        · exact .inr h
    · rintro (h | h)
      · cases h with
        | here h => exact .here h
        | block h => exact .block h
        | later h => exact .later (ih.mpr (.inl h))
      · exact .later (ih.mpr (.inr h))

/-- the references after the move -/
theorem refers_new (hT : tasks.get? n = some T) (hrun : T.run = pre ++ mid ++ post) (hx : tasks.get? x = none) {a b : Str}
    (h : Refers (new) a b) : (a = n ∧ b = x) ∨ (a = x ∧ Refers tasks n b) ∨ (a ≠ x ∧ Refers tasks a b) := by
  obtain ⟨U, hU, h⟩ := h
  by_cases h1 : a = x
  · subst h1
    rw [new_x] at hU; cases hU
    rcases h with h | h
    · cases h
    · refine .inr (.inl ⟨rfl, T, hT, .inr ?_⟩)
      rw [hrun, callsIn_append, callsIn_append]
      exact .inl (.inr h)
  · by_cases h2 : a = n
    · subst h2
      rw [new_n hT hx] at hU; cases hU
      rcases h with h | h
      · exact .inr (.inr ⟨h1, T, hT, .inl h⟩)
      · have h : CallsIn b (pre ++ .task { task := x } :: post) := h
        rcases callsIn_append.mp h with h | h
        · refine .inr (.inr ⟨h1, T, hT, .inr ?_⟩)
          rw [hrun, callsIn_append, callsIn_append]
          exact .inl (.inl h)
        · cases h with
          | here h => exact .inl ⟨rfl, h.symm⟩
          | later h =>
            refine .inr (.inr ⟨h1, T, hT, .inr ?_⟩)
            rw [hrun, callsIn_append]
            exact .inr h
    · rw [new_other h2 h1] at hU
      exact .inr (.inr ⟨h1, U, hU, h⟩)

/-- references still decrease a rank -/
theorem ranked_new (hT : tasks.get? n = some T) (hrun : T.run = pre ++ mid ++ post) (hx : tasks.get? x = none)
    (hno : ∀ a, ¬ Refers tasks a x) {rank : Str → Nat} (hr : ∀ a b, Refers tasks a b → rank b < rank a) :
    ∀ a b, Refers (new) a b → (if b = x then 2 * rank n + 1 else 2 * rank b + 2) < (if a = x then 2 * rank n + 1 else 2 * rank a + 2) := by
  have xn := x_ne hT hx
  intro a b h
  rcases refers_new hT hrun hx h with ⟨rfl, rfl⟩ | ⟨rfl, k⟩ | ⟨h1, k⟩
  · rw [if_pos rfl, if_neg (Ne.symm xn)]; omega
  · have := hr _ _ k
    have h2 : b ≠ a := fun e => hno n (e ▸ k)
    rw [if_pos rfl, if_neg h2]; omega
  · have := hr _ _ k
    have h2 : b ≠ x := fun e => hno a (e ▸ k)
    rw [if_neg h1, if_neg h2]; omega

/-- what an item of the block calls is not the new task -/
theorem callsIn_mem {t : TaskRun} {its : List RunItem} (h : .task t ∈ its) : CallsIn t.task its := by
  induction its with
  | nil => cases h
  | cons a its ih =>
    rcases List.mem_cons.mp h with rfl | h
    · exact .here rfl
    · exact .later (ih h)

theorem callsIn_block {k : Str} {items : List RunItem} {labels : List Str} {mode : ParallelMode} {lim : Nat} {color : Option Bool} {s o : Option Bool} {pl : List Str}
    {w : Str} {ln : Nat} {its : List RunItem} (h : .parallel items labels mode lim color s o pl w ln ∈ its) (hk : CallsIn k items) : CallsIn k its := by
  induction its with
  | nil => cases h
  | cons a its ih =>
    rcases List.mem_cons.mp h with rfl | h
    · exact .block hk
    · exact .later (ih h)

/-- the blocks after the move are those before -/
theorem block_new (hT : tasks.get? n = some T) (hrun : T.run = pre ++ mid ++ post) (hx : tasks.get? x = none) {a : Str} {U : Task}
    (hU : (new).get? a = some U) {items : List RunItem} {labels : List Str} {mode : ParallelMode} {lim : Nat} {color : Option Bool} {s o : Option Bool} {pl : List Str}
    {w : Str} {ln : Nat} (h : .parallel items labels mode lim color s o pl w ln ∈ U.run) :
    ∃ U0, tasks.get? (if a = x then n else a) = some U0 ∧ .parallel items labels mode lim color s o pl w ln ∈ U0.run := by
  by_cases h1 : a = x
  · subst h1
    rw [new_x] at hU; cases hU
    rw [if_pos rfl]
    have h : _ ∈ mid := h
    exact ⟨T, hT, by rw [hrun]; simp [h]⟩
  · rw [if_neg h1]
    by_cases h2 : a = n
    · subst h2
      rw [new_n hT hx] at hU; cases hU
      have h : _ ∈ pre ++ .task { task := x } :: post := h
      simp at h
      refine ⟨T, hT, ?_⟩
      rw [hrun]; simp
      tauto
    · rw [new_other h2 h1] at hU
      exact ⟨U, hU, h⟩

theorem prior_new (hT : tasks.get? n = some T) (hx : tasks.get? x = none) {items : List RunItem} (hno : ¬ CallsIn x items) {d : Str} :
    Prior (new) items d ↔ Prior tasks items d := by
  have key : ∀ t U, .task t ∈ items → d ∈ U.deps → (new).get? t.task = some U → ∃ U, tasks.get? t.task = some U ∧ d ∈ U.deps := by
    intro t U ht hd hU
    have h1 : t.task ≠ x := fun e => hno (e ▸ callsIn_mem ht)
    by_cases h2 : t.task = n
    · rw [h2, new_n hT hx] at hU; cases hU
      exact ⟨T, h2 ▸ hT, hd⟩
    · exact ⟨U, (new_other h2 h1).symm.trans hU, hd⟩
  constructor
  · rintro ⟨t, U, ht, hU, hd⟩
    obtain ⟨U, hU, hd⟩ := key t U ht hd hU
    exact ⟨t, U, ht, hU, hd⟩
  · rintro ⟨t, U, ht, hU, hd⟩
    have h1 : t.task ≠ x := fun e => hno (e ▸ callsIn_mem ht)
    by_cases h2 : t.task = n
    · rw [h2, hT] at hU; cases hU
      exact ⟨t, { T with run := pre ++ .task { task := x } :: post }, ht, (by rw [h2]; exact new_n hT hx), hd⟩
    · exact ⟨t, U, ht, (new_other h2 h1).trans hU, hd⟩

/-- items of parallel blocks still keep out of each other's way -/
theorem separate_new (hT : tasks.get? n = some T) (hrun : T.run = pre ++ mid ++ post) (hx : tasks.get? x = none)
    (hno : ∀ a, ¬ Refers tasks a x) (hsep : Separate tasks) : Separate (new) := by
  intro a U items labels mode lim color s o pl w ln hU hb i j t u hij hi hj y h1 h2
  obtain ⟨U0, hU0, hb0⟩ := block_new hT hrun hx hU hb
  have hcx : ¬ CallsIn x items := fun h => hno _ ⟨U0, hU0, .inr (callsIn_block hb0 h)⟩
  have hp : Prior (new) items = Prior tasks items := funext fun d => propext (prior_new hT hx hcx)
  rw [hp] at h1 h2
  rw [hp]
  have may : ∀ {b d}, MayRun (new) b d → (b = n ∧ d = x) ∨ (d ≠ x ∧ MayRun tasks (if b = x then n else b) d) := by
    rintro b d (h | ⟨V, its, la, mo, li, co, s', o', pl', w', ln', hV, hbl, hpr⟩)
    · rcases refers_new hT hrun hx h with h | ⟨hbx, k⟩ | ⟨hbx, k⟩
      · exact .inl h
      · rw [if_pos hbx]; exact .inr ⟨fun e => hno n (e ▸ k), .inl k⟩
      · rw [if_neg hbx]; exact .inr ⟨fun e => hno b (e ▸ k), .inl k⟩
    · obtain ⟨V0, hV0, hbl0⟩ := block_new hT hrun hx hV hbl
      have hc : ¬ CallsIn x its := fun h => hno _ ⟨V0, hV0, .inr (callsIn_block hbl0 h)⟩
      have hpr1 := (prior_new hT hx hc).mp hpr
      refine .inr ⟨?_, .inr ⟨V0, its, la, mo, li, co, s', o', pl', w', ln', hV0, hbl0, hpr1⟩⟩
      intro e
      obtain ⟨t', W, -, hW, hd⟩ := hpr1
      rw [e] at hd
      exact hno _ ⟨W, hW, .inl hd⟩
  have leads : ∀ {t : TaskRun}, .task t ∈ items → ∀ {y}, Leads (new) (Prior tasks items) t.task y →
      (y = x ∧ Leads tasks (Prior tasks items) t.task n ∧ ¬ Prior tasks items n) ∨ (y ≠ x ∧ Leads tasks (Prior tasks items) t.task y) := by
    intro t ht y h
    induction h with
    | self => exact .inr ⟨fun e => hcx (e ▸ callsIn_mem ht), .self⟩
    | @step b d _ hb hm ih =>
      rcases may hm with ⟨rfl, rfl⟩ | ⟨hd, hm⟩
      · rcases ih with ⟨e, ih⟩ | ⟨-, ih⟩
        · exact absurd e.symm (x_ne hT hx)
        · exact .inl ⟨rfl, ih, hb⟩
      · rcases ih with ⟨rfl, ih, hn⟩ | ⟨e, ih⟩
        · rw [if_pos rfl] at hm
          exact .inr ⟨hd, .step ih hn hm⟩
        · rw [if_neg e] at hm
          exact .inr ⟨hd, .step ih hb hm⟩
  have mi : .task t ∈ items := List.mem_of_getElem? hi
  have mj : .task u ∈ items := List.mem_of_getElem? hj
  have sep := hsep _ U0 items labels mode lim color s o pl w ln hU0 hb0 i j t u hij hi hj
  rcases leads mi h1 with ⟨rfl, h1, hn⟩ | ⟨hy, h1⟩
  · rcases leads mj h2 with ⟨-, h2, -⟩ | ⟨hy, -⟩
    · exact absurd (sep n h1 h2) hn
    · exact absurd rfl hy
  · rcases leads mj h2 with ⟨e, -, -⟩ | ⟨-, h2⟩
    · exact absurd e hy
    · exact sep y h1 h2

end
end Split

section
variable {c : Cfg} {tasks : TaskMap} {gvars : GoMap Str} {main n x : Str} {T : Task} {pre mid post : List RunItem} {s s' : State}
variable (hT : tasks.get? n = some T) (hrun : T.run = pre ++ mid ++ post) (hx : tasks.get? x = none) (hno : ∀ a, ¬ Refers tasks a x)
  (hmain : main ≠ x)

local notation "new" => moveItems tasks n T x pre mid post
local notation "old" => oldPlace n x pre.length mid.length

include hT hrun hx hno hmain in
theorem Split.unasked (hask : Unasked c tasks gvars main) : Unasked c (new) gvars main := by
  have hnx := Split.not_needed hno hmain
  intro k U p hd hU hp
  rcases Split.due_old hT hrun hx hnx hd with ⟨rfl, m, hb⟩ | ⟨hk, h⟩
  · rw [Split.new_x] at hU; cases hU
    have hp : _ ∈ mid := hp
    exact hask n T p hb.1 hT (by rw [hrun]; simp [hp])
  · by_cases e : k = n
    · subst e
      rw [Split.new_n hT hx] at hU; cases hU
      have hp : _ ∈ pre ++ .task { task := x } :: post := hp
      simp at hp
      exact hask k T p h hT (by rw [hrun]; simp; tauto)
    · rw [Split.new_other e hk] at hU
      exact hask k U p h hU hp

include hT hrun hx hno hmain in
/-- **C112** Items of a task are moved to a new task with the same settings, which is called at their place. Then two runs that end with
success and are not interrupted, one before and one after the move, start the same commands and print the same messages, each
once; only the place where they stand is another one. -/
theorem C112_same (hd : c.dry = false) (hask : Unasked c tasks gvars main) (hr : Reach (start c tasks gvars main) s) (hp : s.prog = .ret none)
    (hc : ∀ id, .cancel id ∉ s.sh.trace) (hr' : Reach (start c (new) gvars main) s') (hp' : s'.prog = .ret none)
    (hc' : ∀ id, .cancel id ∉ s'.sh.trace) :
    ((Spec.entries s'.sh.trace).map (oldEntry n x pre.length mid.length)).Perm (Spec.entries s.sh.trace) := by
  have hnx := Split.not_needed hno hmain
  have hask' := Split.unasked (c := c) (gvars := gvars) hT hrun hx hno hmain hask
  have due' : ∀ e ∈ Spec.entries s'.sh.trace, DueEntry c (new) gvars main e := fun e he => C78_only hd hask' hr' he
  have ok : ∀ {l : Loc} {it : RunItem} {m : GoMap Str}, Spec.Due c (new) gvars main (.item l it m) → (∀ t, it ≠ .task t) →
      (l.task, l.item) ≠ (n, pre.length) := by
    intro l it m h ht e
    have hrun' : ∀ {l it m}, Spec.Due c (new) gvars main (.item l it m) → (l.task, l.item) = (n, pre.length) → l.sub = none ∧ it = .task { task := x } := by
      intro l it m h
      generalize hth : Thing.item l it m = th at h
      induction h generalizing l it m with
      | @item k U m i it _ h2 _ _ h5 =>
        cases hth
        intro e
        cases e
        rw [Split.new_n hT hx] at h2; cases h2
        simp at h5
        exact ⟨rfl, h5.symm⟩
      | @sub k i items _ _ _ _ _ _ _ _ _ m j _ _ _ ih =>
        cases hth
        intro e
        have := (ih (l := ⟨k, i, none⟩) rfl e).2
        cases this
      | _ => cases hth
    exact ht _ (hrun' h e).2
  refine (List.perm_ext_iff_of_nodup ?_ (Due.entries_nodup fun loc => acts_once hr loc)).mpr fun e => ?_
  · refine List.Nodup.map_on ?_ (Due.entries_nodup fun loc => acts_once hr' loc)
    intro a ha b hb e
    cases due' a ha with
    | cmd h1 h2 =>
      cases due' b hb with
      | cmd k1 k2 =>
        simp only [oldEntry, PlanEntry.cmd.injEq] at e
        rw [Split.old_inj hT hx h1 k1 (ok h1 (fun _ h => nomatch h)) (ok k1 (fun _ h => nomatch h)) e.1, e.2]
      | log k1 k2 => simp [oldEntry] at e
    | log h1 h2 =>
      cases due' b hb with
      | cmd k1 k2 => simp [oldEntry] at e
      | log k1 k2 =>
        simp only [oldEntry, PlanEntry.log.injEq] at e
        rw [Split.old_inj hT hx h1 k1 (ok h1 (fun _ h => nomatch h)) (ok k1 (fun _ h => nomatch h)) e.1, e.2.1, e.2.2]
  · rw [List.mem_map]
    constructor
    · rintro ⟨a, ha, rfl⟩
      exact C78_all hd hask hr hp hc ((Split.entry_iff hT hrun hx hnx).mp ⟨a, rfl, due' a ha⟩)
    · intro he
      obtain ⟨a, rfl, ha⟩ := (Split.entry_iff hT hrun hx hnx).mpr (C78_only hd hask hr he)
      exact ⟨a, C78_all hd hask' hr' hp' hc' ha, rfl⟩

include hT hrun hx hno hmain in
/-- **C112** And the process that is started for a command is the same: the shell, the text, the directory, and the environment apart from
the names that control colours. -/
theorem C112_process (hd : c.dry = false) (hask : Unasked c tasks gvars main) (hr : Reach (start c tasks gvars main) s)
    (hr' : Reach (start c (new) gvars main) s') {loc : Loc} {spec spec' : ProcSpec} (h : .procStart (old loc) spec ∈ s.sh.trace)
    (h' : .procStart loc spec' ∈ s'.sh.trace) :
    spec.shell = spec'.shell ∧ spec.arg = spec'.arg ∧ spec.cmd = spec'.cmd ∧ spec.dir = spec'.dir ∧
    ∀ k, k ∉ colourNames → procEnv c spec k = procEnv c spec' k := by
  have hnx := Split.not_needed hno hmain
  have hask' := Split.unasked (c := c) (gvars := gvars) hT hrun hx hno hmain hask
  obtain ⟨T1, v, m, tenv, text, env, dir, fr, hT1, hdue, he, hpr, rfl⟩ := Due.events hd hask hr _ h
  obtain ⟨T2, v', m', tenv', text', env', dir', fr', hT2, hdue', he', hpr', rfl⟩ := Due.events hd hask' hr' _ h'
  rcases Split.due_old hT hrun hx hnx hdue' with ⟨-, h, -⟩ | ⟨-, hdue'⟩
  · cases h
  obtain ⟨h1, rfl⟩ := Due.item_unique hdue hdue'
  cases h1
  obtain ⟨U, hU, ha⟩ := Split.alike_at hT hx hT2
  rw [hT1] at hU; cases hU
  rw [ha.2.1, he] at he'; cases he'
  rw [Split.alike_prepare ha, hpr] at hpr'; cases hpr'
  refine ⟨rfl, rfl, rfl, rfl, fun k hk => ?_⟩
  have we : env.WF := interpolateEnv_WF (prepare_inv hpr).2.1 (WF_mergeEnvMaps _)
  rw [procEnv_eq we, procEnv_eq we, colourEnv_other hk, colourEnv_other hk]

include hT hrun hx hno hmain in
/-- **C112** Nor does the move decide about success: if references make no circle, items of parallel blocks keep out of each other's way and
one of the items that are moved is for this platform, then a run after the move, in which nothing goes wrong outside, succeeds
exactly if such a run before it does. -/
theorem C112_success (hd : c.dry = false) (hask : Unasked c tasks gvars main) {rank : Str → Nat} (hrk : ∀ a b, Refers tasks a b → rank b < rank a)
    (hsep : Separate tasks) (hmid : ∃ it ∈ mid, it.onPlatform c.platform = true) (hr : Reach (start c tasks gvars main) s)
    (hcalm : ∀ e ∈ s.sh.trace, Calm e) {r r' : Option Err} (hp : s.prog = .ret r) (hr' : Reach (start c (new) gvars main) s')
    (hcalm' : ∀ e ∈ s'.sh.trace, Calm e) (hp' : s'.prog = .ret r') : r' = none ↔ r = none := by
  have hnx := Split.not_needed hno hmain
  have hask' := Split.unasked (c := c) (gvars := gvars) hT hrun hx hno hmain hask
  rw [C79_exact hd hask hrk hsep hr hcalm hp,
    C79_exact hd hask' (Split.ranked_new hT hrun hx hno hrk) (Split.separate_new hT hrun hx hno hsep) hr' hcalm' hp',
    Split.works_iff hT hrun hx hnx hmid]

include hT hrun hx hno hmain in
/-- **C112** If nothing runs in parallel and nothing is asked, the order is the same too: at any time, what a run has done before the move is
the beginning of what a run after it has done, or the other way round; and when neither was disturbed by a command that failed or by an
interruption, they have done the same in the end, and succeed or fail both. -/
theorem C112_order (hd : c.dry = false) (hs : ∀ k, Needs tasks main k → Sequential tasks k) (hmid : ∃ it ∈ mid, it.onPlatform c.platform = true)
    (hr : Reach (start c tasks gvars main) s) (hr' : Reach (start c (new) gvars main) s') :
    (Spec.entries s.sh.trace <+: (Spec.entries s'.sh.trace).map (oldEntry n x pre.length mid.length) ∨
      (Spec.entries s'.sh.trace).map (oldEntry n x pre.length mid.length) <+: Spec.entries s.sh.trace) ∧
    ∀ r r', s.prog = .ret r → s'.prog = .ret r' → ¬ Disturbed s.sh.trace → ¬ Disturbed s'.sh.trace →
      (Spec.entries s'.sh.trace).map (oldEntry n x pre.length mid.length) = Spec.entries s.sh.trace ∧ (r' = none ↔ r = none) := by
  obtain ⟨es, res, h⟩ := C76_plan (c := c) (gvars := gvars) hs true
  obtain ⟨es', res', h', he, hres⟩ := Split.plan_new hT hrun hx hno hmid h hmain [] []
    ⟨fun _ _ => Iff.rfl, fun _ _ => Iff.rfl, (fun h => nomatch h), (fun h => nomatch h)⟩
  have hb : res' ≠ none ↔ res ≠ none := by cases hres <;> simp
  have h : Spec.Plan c tasks gvars (!c.dry) [] (.task main) [] es res := by rw [hd]; exact h
  have h' : Spec.Plan c (new) gvars (!c.dry) [] (.task main) [] es' res' := by rw [hd]; exact h'
  have o := C76_order h hr
  have o' := C76_order h' hr'
  have p' : (Spec.entries s'.sh.trace).map (oldEntry n x pre.length mid.length) <+: es := he ▸ o'.1.map _
  refine ⟨List.prefix_or_prefix_of_prefix o.1 p', fun r r' hp hp' hn hn' => ?_⟩
  rcases o.2 r hp with ⟨h1, h2⟩ | ⟨h1, -⟩
  · rcases o'.2 r' hp' with ⟨k1, k2⟩ | ⟨k1, -⟩
    · exact ⟨by rw [k1, he, h1], by rw [h2, k2, hb]⟩
    · exact absurd k1 hn'
  · exact absurd h1 hn

include hT hrun hx in
/-- **C112** The file is still accepted: if validation finds nothing before the move, and the name of the new task is neither that of a task nor
another name of one, then validation finds nothing afterwards, in whatever order it looks at the tasks. And nothing referred to that name. -/
theorem C112_accepted {grow grow' : Nat → Nat} {o1 o2 o3 o4 p1 p2 p3 p4 : TaskMap} (hwf : tasks.WF) (h1 : o1.Perm tasks) (h2 : o2.Perm tasks)
    (h3 : o3.Perm tasks) (h4 : o4.Perm tasks) (hv : validateAll grow o1 o2 o3 o4 tasks = [])
    (hal : ∀ k U, tasks.get? k = some U → x ∉ declared U) (k1 : p1.Perm (new)) (k2 : p2.Perm (new)) (k3 : p3.Perm (new)) (k4 : p4.Perm (new)) :
    validateAll grow' p1 p2 p3 p4 (new) = [] ∧ ∀ a, ¬ Refers tasks a x := by
  obtain ⟨hd, hc, hu⟩ := (validateAll_nil grow hwf h1 h2 h3 h4).mp hv
  have hno : ∀ a, ¬ Refers tasks a x := by
    intro a h
    obtain ⟨U, hU⟩ := hd a x h
    rw [hx] at hU; cases hU
  refine ⟨(validateAll_nil grow' (GoMap.WF_set (GoMap.WF_set hwf _ _) _ _) k1 k2 k3 k4).mpr ⟨?_, ?_, ?_⟩, hno⟩
  · have has : ∀ b, (∃ U, tasks.get? b = some U) → ∃ U, (new).get? b = some U := by
      rintro b ⟨U, hU⟩
      by_cases e : b = x
      · rw [e]; exact ⟨_, Split.new_x⟩
      · by_cases e' : b = n
        · rw [e']; exact ⟨_, Split.new_n hT hx⟩
        · exact ⟨U, (Split.new_other e' e).trans hU⟩
    intro a b h
    rcases Split.refers_new hT hrun hx h with ⟨-, rfl⟩ | ⟨-, h⟩ | ⟨-, h⟩
    · exact ⟨_, Split.new_x⟩
    · exact has b (hd _ _ h)
    · exact has b (hd _ _ h)
  · obtain ⟨rank, hr⟩ := C37_accepted_ranked hwf h1 h2 h3 hv
    have hr' := Split.ranked_new hT hrun hx hno hr
    rintro ⟨k, hk⟩
    have : ∀ {a b}, Reaches (new) a b → (if b = x then 2 * rank n + 1 else 2 * rank b + 2) < (if a = x then 2 * rank n + 1 else 2 * rank a + 2) := by
      intro a b h
      induction h with
      | one h => exact hr' _ _ h
      | more h _ ih => exact ih.trans (hr' _ _ h)
    exact absurd (this hk) (lt_irrefl _)
  · have before : ∀ k U, (new).get? k = some U → ∀ a ∈ declared U, ∃ U0, tasks.get? k = some U0 ∧ declared U0 = declared U := by
      intro k U hU a ha
      by_cases e : k = x
      · rw [e, Split.new_x] at hU; cases hU
        simp [declared, ownTask] at ha
      · by_cases e' : k = n
        · rw [e', Split.new_n hT hx] at hU; cases hU
          exact ⟨T, e' ▸ hT, rfl⟩
        · exact ⟨U, (Split.new_other e' e).symm.trans hU, rfl⟩
    refine ⟨fun k U a hU ha => ?_, fun k k' U U' a hU hU' ha ha' => ?_, fun k U hU => ?_⟩
    · obtain ⟨U0, hU0, e0⟩ := before k U hU a ha
      have hna : tasks.get? a = none := hu.notName k U0 a hU0 (e0 ▸ ha)
      have e1 : a ≠ x := fun e => hal k U0 hU0 (e ▸ e0 ▸ ha)
      have e2 : a ≠ n := fun e => by rw [e, hT] at hna; cases hna
      exact (Split.new_other e2 e1).trans hna
    · obtain ⟨U0, hU0, e0⟩ := before k U hU a ha
      obtain ⟨U0', hU0', e0'⟩ := before k' U' hU' a ha'
      exact hu.oneTask k k' U0 U0' a hU0 hU0' (e0 ▸ ha) (e0' ▸ ha')
    · rcases List.eq_nil_or_concat (declared U) with h | ⟨l, a, h⟩
      · rw [h]; exact List.nodup_nil
      · obtain ⟨U0, hU0, e0⟩ := before k U hU a (by rw [h]; simp)
        exact e0 ▸ hu.once k U0 hU0

end

namespace Sample

/-- the task `all` of `steps`, with the call and the item for another platform in a task of their own -/
def splitSteps : TaskMap :=
  moveItems steps (s "all") { name := s "all", deps := [s "lib", s "gen"], run := [cmd "gcc", call "lib", .command { cmd := s "del", platforms := [s "windows"] }, .log { log := s "ok", level := s "info" }] }
    (s "rest") [cmd "gcc"] [call "lib", .command { cmd := s "del", platforms := [s "windows"] }, .log { log := s "ok", level := s "info" }] []

theorem steps_refs (a : Str) : ¬ Refers steps a (s "rest") := fun h => by
  obtain ⟨T, hT⟩ := C36_no_dangling (grow := doubling) (o1 := steps) (o2 := steps) (o3 := steps) (o4 := steps)
    (by unfold GoMap.WF; decide +kernel) (.refl _) (.refl _) (by decide +kernel) h
  cases hT

/-- what is done after the move, with the places where it stands then -/
example : Spec.entries (Exec.drive [.auto 200] (start {} splitSteps stepVars (s "all"))).sh.trace =
    [.cmd ⟨s "gen", 0, none⟩ (s "m4"), .cmd ⟨s "lib", 0, none⟩ (s "ar x"), .cmd ⟨s "all", 0, none⟩ (s "gcc"), .log ⟨s "rest", 2, none⟩ (s "ok") (s "info")] := by
  decide +kernel

/-- every run of the one follows every run of the other -/
example {t t' : State} (hr : Reach (start {} steps stepVars (s "all")) t) (hr' : Reach (start {} splitSteps stepVars (s "all")) t') :
    (Spec.entries t.sh.trace <+: (Spec.entries t'.sh.trace).map (oldEntry (s "all") (s "rest") 1 3) ∨
      (Spec.entries t'.sh.trace).map (oldEntry (s "all") (s "rest") 1 3) <+: Spec.entries t.sh.trace) :=
  (C112_order (pre := [cmd "gcc"]) (mid := [call "lib", .command { cmd := s "del", platforms := [s "windows"] }, .log { log := s "ok", level := s "info" }]) (post := [])
    rfl rfl rfl steps_refs (by decide) rfl (fun k _ => steps_sequential k) ⟨call "lib", by simp, rfl⟩ hr hr').1

/-- the task `all` of `build`, with the parallel block and the call after it in a task of their own -/
def splitBuild : TaskMap :=
  moveItems build (s "all") { name := s "all", deps := [s "lib"], run := [cmd "gcc", par [call "x", cmd "y", call "lib"] 2, call "lib", .log { log := s "ok" }] }
    (s "block") [cmd "gcc"] [par [call "x", cmd "y", call "lib"] 2, call "lib"] [.log { log := s "ok" }]

/-- a run after the move -/
def goodSplit : State := Exec.drive [.auto 600] (start {} splitBuild [] (s "all"))

theorem build_valid : validateAll doubling build build build build build = [] := by decide +kernel

/-- the conditions are met, and the commands are the same -/
example : ((Spec.entries goodSplit.sh.trace).map (oldEntry (s "all") (s "block") 1 2)).Perm (Spec.entries good.sh.trace) ∧
    (Spec.entries goodSplit.sh.trace).length = 5 ∧ .cmd ⟨s "block", 0, some 1⟩ (s "y") ∈ Spec.entries goodSplit.sh.trace ∧
    .cmd ⟨s "all", 1, some 1⟩ (s "y") ∈ Spec.entries good.sh.trace := by
  have hno := (C112_accepted (tasks := build) (n := s "all") (x := s "block") (pre := [cmd "gcc"]) (mid := [par [call "x", cmd "y", call "lib"] 2, call "lib"])
    (post := [.log { log := s "ok" }]) (grow' := doubling) rfl rfl rfl (by unfold GoMap.WF; decide +kernel) (.refl _) (.refl _) (.refl _) (.refl _) build_valid
    (by
      intro k U hU
      have := GoMap.mem_of_get? hU
      simp only [build, List.mem_cons, Prod.mk.injEq, List.not_mem_nil, or_false] at this
      rcases this with ⟨-, rfl⟩ | ⟨-, rfl⟩ | ⟨-, rfl⟩ <;> simp [declared])
    (.refl _) (.refl _) (.refl _) (.refl _)).2
  refine ⟨C112_same rfl rfl rfl hno (by decide) rfl build_unasked good_reach (ret_of_result (by decide +kernel)) ?_ (s' := goodSplit)
    (Exec.reach _ _) (ret_of_result (by decide +kernel)) ?_, by decide +kernel, by decide +kernel, by decide +kernel⟩
  · intro id hid
    have : ∀ e ∈ good.sh.trace, (match e with | .cancel _ => false | _ => true) = true := by decide +kernel
    exact absurd (this _ hid) (by simp)
  · intro id hid
    have : ∀ e ∈ goodSplit.sh.trace, (match e with | .cancel _ => false | _ => true) = true := by decide +kernel
    exact absurd (this _ hid) (by simp)

/-- a task that has something to do here and something on Windows -/
def tidy : TaskMap := [(s "tidy", { name := s "tidy", run := [cmd "rm -r out", .command { cmd := s "rmdir out", platforms := [s "windows"] }] })]

/-- with a task for Windows -/
def splitTidy : TaskMap :=
  moveItems tidy (s "tidy") { name := s "tidy", run := [cmd "rm -r out", .command { cmd := s "rmdir out", platforms := [s "windows"] }] }
    (s "win") [cmd "rm -r out"] [.command { cmd := s "rmdir out", platforms := [s "windows"] }] []

end Sample

open Sample in
/-- **C112** Limits of the property: if none of the items that are moved is for this platform, the new task is one that has nothing to do
here, and that is an error. Before the move, the run ends with success. -/
theorem C112_platform :
    Exec.result (Exec.drive [.auto 200] (start { platform := s "linux" } tidy [] (s "tidy"))) = some none ∧
    Exec.result (Exec.drive [.auto 200] (start { platform := s "linux" } splitTidy [] (s "tidy"))) =
      some (some (.noItems (s "win"))) := by
  decide +kernel

end Bab
