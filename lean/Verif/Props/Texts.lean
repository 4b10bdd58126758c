import Verif.Spec.Texts
import Verif.Props.Values
import Verif.Props.Inline
/-
C125: a text can be replaced by any other that expands to the same.
-/

namespace Bab
open Spec Spec.Texts

namespace Texts

section
variable {c : Cfg} {M : GoMap Str → Prop} {strict : Bool}

theorem says_symm {t t' : Str} (h : Says c M t t') : Says c M t' t := fun m hm => (h m hm).symm
theorem decides_symm {t t' : Str} (h : Decides c M t t') : Decides c M t' t := fun m hm => (h m hm).symm
theorem dir_symm {t t' : Str} (h : SameDir c M t t') : SameDir c M t' t := ⟨h.1.symm, says_symm h.2⟩

theorem env_symm {l l' : GoMap Str} (h : SameEnv c M l l') : SameEnv c M l' l := by
  unfold SameEnv at *
  induction h with
  | nil => exact .nil
  | cons h _ ih => exact .cons ⟨h.1.symm, says_symm h.2⟩ ih

theorem command_symm {v v' : CommandRun} (h : SameCommand c M v v') : SameCommand c M v' v where
  rest := by
    have := h.rest
    cases v; cases v'; simp_all
  blank := h.blank.symm
  cmd := says_symm h.cmd
  dir := dir_symm h.dir
  env := env_symm h.env
  cond := decides_symm h.cond

theorem message_symm {l l' : LogRun} (h : SameMessage c M strict l l') : SameMessage c M strict l' l where
  rest := by
    have := h.rest
    cases l; cases l'; simp_all
  log := fun m hm => (h.log m hm).symm
  strict := fun hs => ⟨says_symm (h.strict hs).1, (h.strict hs).2.symm⟩
  cond := decides_symm h.cond

theorem items_symm {l l' : List RunItem} (h : SameItems c M strict l l') : SameItems c M strict l' l := by
  induction h with
  | nil => exact .nil
  | command h _ ih => exact .command (command_symm h) ih
  | @task t r r' w h _ ih => exact SameItems.task (t := { t with cond := w }) (w := t.cond) (decides_symm h) ih
  | log h _ ih => exact .log (message_symm h) ih
  | prompt _ ih => exact .prompt ih
  | parallel _ h _ ih1 ih2 => exact .parallel ih1 (decides_symm h) ih2

/-- the items at the same place -/
theorem at_same {l l' : List RunItem} (h : SameItems c M strict l l') : ∀ {i : Nat} {it : RunItem}, l[i]? = some it →
    ∃ it', l'[i]? = some it' ∧ SameItems c M strict [it] [it'] := by
  induction h with
  | nil => intro i it h; simp at h
  | command h _ ih =>
    intro i it hi
    cases i with
    | zero => cases hi; exact ⟨_, rfl, .command h .nil⟩
    | succ i => exact ih hi
  | task h _ ih =>
    intro i it hi
    cases i with
    | zero => cases hi; exact ⟨_, rfl, .task h .nil⟩
    | succ i => exact ih hi
  | log h _ ih =>
    intro i it hi
    cases i with
    | zero => cases hi; exact ⟨_, rfl, .log h .nil⟩
    | succ i => exact ih hi
  | prompt _ ih =>
    intro i it hi
    cases i with
    | zero => cases hi; exact ⟨_, rfl, .prompt .nil⟩
    | succ i => exact ih hi
  | parallel h h' _ _ ih =>
    intro i it hi
    cases i with
    | zero => cases hi; exact ⟨_, rfl, .parallel h h' .nil⟩
    | succ i => exact ih hi

theorem mem_same {l l' : List RunItem} (h : SameItems c M strict l l') {it : RunItem} (hi : it ∈ l) : ∃ it' ∈ l', SameItems c M strict [it] [it'] := by
  obtain ⟨i, hi⟩ := List.getElem?_of_mem hi
  obtain ⟨it', h1, h2⟩ := at_same h hi
  exact ⟨it', List.mem_of_getElem? h1, h2⟩

theorem one_cond {it it' : RunItem} (h : SameItems c M strict [it] [it']) : Decides c M it.cond it'.cond := by
  cases h with
  | command h _ => exact h.cond
  | task h _ => exact h
  | log h _ => exact h.cond
  | prompt _ => exact fun _ _ => rfl
  | parallel _ h _ => exact h

theorem one_platform {it it' : RunItem} (h : SameItems c M strict [it] [it']) (p : Str) : it'.onPlatform p = it.onPlatform p := by
  cases h with
  | command h _ => rw [h.rest]; rfl
  | task h _ => rfl
  | log h _ => rw [h.rest]; rfl
  | prompt _ => rfl
  | parallel _ h _ => rfl

theorem calls_same {n : Str} {l l' : List RunItem} (h : SameItems c M strict l l') (hc : CallsIn n l) : CallsIn n l' := by
  induction h with
  | nil => exact hc
  | command _ _ ih => cases hc with | later h => exact .later (ih h)
  | task _ _ ih =>
    cases hc with
    | here h => exact .here h
    | later h => exact .later (ih h)
  | log _ _ ih => cases hc with | later h => exact .later (ih h)
  | prompt _ ih => cases hc with | later h => exact .later (ih h)
  | parallel _ _ _ ih1 ih2 =>
    cases hc with
    | block h => exact .block (ih1 h)
    | later h => exact .later (ih2 h)

theorem env_refl (l : GoMap Str) : SameEnv c M l l := by
  unfold SameEnv
  induction l with
  | nil => exact .nil
  | cons q l ih => exact .cons ⟨rfl, fun _ _ => rfl⟩ ih

theorem items_refl : (l : List RunItem) → SameItems c M strict l l
  | [] => .nil
  | .command v :: r => .command ⟨rfl, Iff.rfl, fun _ _ => rfl, ⟨Iff.rfl, fun _ _ => rfl⟩, env_refl _, fun _ _ => rfl⟩ (items_refl r)
  | .task t :: r => SameItems.task (w := t.cond) (fun _ _ => rfl) (items_refl r)
  | .log _ :: r => .log ⟨rfl, fun _ _ => Iff.rfl, fun _ => ⟨fun _ _ => rfl, rfl⟩, fun _ _ => rfl⟩ (items_refl r)
  | .prompt _ :: r => .prompt (items_refl r)
  | .parallel its _ _ _ _ _ _ _ _ _ :: r => .parallel (items_refl its) (fun _ _ => rfl) (items_refl r)

theorem env_set {l l' : GoMap Str} {k x x' : Str} (h : SameEnv c M l l') (hx : Says c M x x') : SameEnv c M (l.set k x) (l'.set k x') := by
  unfold SameEnv at *
  induction h with
  | nil => exact .cons ⟨rfl, hx⟩ .nil
  | @cons p q l l' h1 h2 ih =>
    obtain ⟨a, y⟩ := p
    obtain ⟨b, z⟩ := q
    obtain ⟨h0, h1⟩ := h1
    dsimp only at h0 h1
    subst h0
    simp only [GoMap.set]
    split_ifs with e
    · exact .cons ⟨rfl, hx⟩ h2
    · exact .cons ⟨rfl, h1⟩ ih

theorem env_fold {l l' : GoMap Str} (h : SameEnv c M l l') : ∀ {a a' : GoMap Str}, SameEnv c M a a' →
    SameEnv c M (l.foldl (fun a p => a.set p.1 p.2) a) (l'.foldl (fun a p => a.set p.1 p.2) a') := by
  unfold SameEnv at h
  induction h with
  | nil => exact fun h => h
  | @cons p q l l' h1 _ ih =>
    intro a a' ha
    simp only [List.foldl_cons]
    refine ih ?_
    rw [← h1.1]
    exact env_set ha h1.2

theorem env_merge {a b b' : GoMap Str} (h : SameEnv c M b b') : SameEnv c M (mergeEnvMaps [a, b]) (mergeEnvMaps [a, b']) := by
  unfold mergeEnvMaps
  simp only [List.foldl_cons, List.foldl_nil]
  exact env_fold h (env_refl _)

theorem env_eq {l l' : GoMap Str} {m : GoMap Str} (h : SameEnv c M l l') (hm : M m) : interpolateEnv ⟨m, c.env⟩ l = interpolateEnv ⟨m, c.env⟩ l' := by
  unfold SameEnv at h
  induction h with
  | nil => rfl
  | @cons p q l l' h1 _ ih =>
    obtain ⟨a, y⟩ := p
    obtain ⟨b, z⟩ := q
    obtain ⟨h0, h1⟩ := h1
    dsimp only at h0 h1
    subst h0
    simp only [interpolateEnv]
    rw [h1 m hm, ih]

theorem dir_eq {T T' : Task} {d d' : Str} {m : GoMap Str} (hs : T'.sourcePath = T.sourcePath) (hT : SameDir c M T.dir T'.dir) (h : SameDir c M d d')
    (hm : M m) : resolveDir c T d ⟨m, c.env⟩ = resolveDir c T' d' ⟨m, c.env⟩ := by
  have two : ∀ {a a' b b' : Str}, SameDir c M a a' → SameDir c M b b' → SameDir c M (if a = [] then b else a) (if a' = [] then b' else a') := by
    intro a a' b b' h1 h2
    by_cases e : a = []
    · rw [if_pos e, if_pos (h1.1.mp e)]; exact h2
    · rw [if_neg e, if_neg fun k => e (h1.1.mpr k)]; exact h1
  have hx := two (two h hT) (⟨Iff.rfl, fun _ _ => rfl⟩ : SameDir c M c.globalDir c.globalDir)
  unfold resolveDir
  dsimp only
  rw [hs]
  generalize (if (if d = [] then T.dir else d) = [] then c.globalDir else if d = [] then T.dir else d) = x at hx ⊢
  generalize (if (if d' = [] then T'.dir else d') = [] then c.globalDir else if d' = [] then T'.dir else d') = x' at hx ⊢
  by_cases e : x = []
  · rw [if_pos e, if_pos (hx.1.mp e)]
  · rw [if_neg e, if_neg fun k => e (hx.1.mpr k), hx.2 m hm]

theorem ready_iff {T T' : Task} {v v' : CommandRun} {tenv m : GoMap Str} {text : Str} (hs : T'.sourcePath = T.sourcePath)
    (hT : SameDir c M T.dir T'.dir) (h : SameCommand c M v v') (hm : M m) : CmdReady c T v tenv m text ↔ CmdReady c T' v' tenv m text := by
  unfold CmdReady
  rw [h.cmd m hm, env_eq (env_merge h.env) hm, dir_eq hs hT h.dir hm]
  exact and_congr_left fun _ => not_congr h.blank

theorem prepare_ok {T T' : Task} {v v' : CommandRun} {tenv m : GoMap Str} {p : Str × GoMap Str × Str} (hs : T'.sourcePath = T.sourcePath)
    (hT : SameDir c M T.dir T'.dir) (h : SameCommand c M v v') (hm : M m) (hp : prepareCommand c T v tenv m = .ok p) :
    prepareCommand c T' v' tenv m = .ok p := by
  unfold prepareCommand at *
  rw [← h.cmd m hm, ← env_eq (env_merge h.env) hm, ← dir_eq hs hT h.dir hm]
  revert hp
  cases interpolate v.cmd ⟨m, c.env⟩ with
  | error e => exact nofun
  | ok text =>
    dsimp only
    cases interpolateEnv ⟨m, c.env⟩ (mergeEnvMaps [tenv, v.env]) with
    | error e => exact nofun
    | ok env =>
      dsimp only
      cases resolveDir c T v.dir ⟨m, c.env⟩ with
      | error e => exact nofun
      | ok d => exact fun h => h

end

section
variable {c : Cfg} {tasks tasks' : TaskMap} {g : GoMap Str} {main : Str} {strict : Bool}

theorem vars_eq {T T' : Task} (h : SameTask c g strict T T') : T'.vars = T.vars := by rw [h.rest]
theorem deps_eq {T T' : Task} (h : SameTask c g strict T T') : T'.deps = T.deps := by rw [h.rest]
theorem source_eq {T T' : Task} (h : SameTask c g strict T T') : T'.sourcePath = T.sourcePath := by rw [h.rest]

theorem task_symm {T T' : Task} (h : SameTask c g strict T T') : SameTask c g strict T' T := by
  have hv : Resolved c g T' = Resolved c g T := by unfold Resolved; rw [vars_eq h]
  refine ⟨?_, decides_symm h.cond, hv ▸ dir_symm h.dir, hv ▸ env_symm h.env, hv ▸ items_symm h.run⟩
  have := h.rest
  cases T; cases T'; simp_all

theorem same_symm (h : Same c g strict tasks tasks') : Same c g strict tasks' tasks := by
  refine ⟨fun k T' hT' => ?_, fun k hk => ?_⟩
  · cases hT : tasks.get? k with
    | none => rw [h.2 k hT] at hT'; cases hT'
    | some T =>
      obtain ⟨T2, h1, h2⟩ := h.1 k T hT
      rw [hT'] at h1; cases h1
      exact ⟨T, rfl, task_symm h2⟩
  · cases hT : tasks.get? k with
    | none => rfl
    | some T =>
      obtain ⟨T2, h1, -⟩ := h.1 k T hT
      rw [hk] at h1; cases h1

theorem cond_of {T T' : Task} (h : SameTask c g strict T T') (hc : CondTrue c T.cond g) : CondTrue c T'.cond g := by
  unfold CondTrue at *
  rw [← h.cond g rfl]; exact hc

theorem due_of (hs : Same c g strict tasks tasks') {th : Thing} (h : Spec.Due c tasks g main th) :
    match th with
    | .task k => Spec.Due c tasks' g main (.task k)
    | .item l it m => ∃ T it', Spec.Due c tasks' g main (.item l it' m) ∧ tasks.get? l.task = some T ∧ Resolved c g T m ∧
        SameItems c (Resolved c g T) strict [it] [it'] := by
  induction h with
  | main => exact .main
  | dep _ h2 h3 h4 ih =>
    obtain ⟨T', k1, k2⟩ := hs.1 _ _ h2
    exact .dep ih k1 (cond_of k2 h3) (by rw [deps_eq k2]; exact h4)
  | @item n T m i it _ h2 h3 h4 h5 h6 h7 ih =>
    obtain ⟨T', k1, k2⟩ := hs.1 _ _ h2
    obtain ⟨it', r1, r2⟩ := at_same k2.run h5
    refine ⟨T, it', .item ih k1 (cond_of k2 h3) (by rw [vars_eq k2]; exact h4) r1 (by rw [one_platform r2]; exact h6) ?_, h2, h4, r2⟩
    unfold CondTrue at *
    rw [← one_cond r2 m h4]; exact h7
  | sub _ h2 ih =>
    obtain ⟨T, it', r1, r2, r3, r4⟩ := ih
    cases r4 with
    | parallel q _ _ =>
      obtain ⟨x, k1, k2⟩ := at_same q h2
      exact ⟨T, x, .sub r1 k1, r2, r3, k2⟩
  | call _ ih =>
    obtain ⟨T, it', r1, r2, r3, r4⟩ := ih
    cases r4 with
    | task _ _ =>
      have := Spec.Due.call r1
      exact this
  | ahead _ h2 h3 ih =>
    obtain ⟨T, it', r1, r2, r3, r4⟩ := ih
    obtain ⟨T', k1, k2⟩ := hs.1 _ _ h2
    cases r4 with
    | task _ _ => exact Spec.Due.ahead r1 k1 (by rw [deps_eq k2]; exact h3)

theorem unasked (hs : Same c g strict tasks tasks') (hask : Unasked c tasks g main) : Unasked c tasks' g main := by
  intro k U p hd hU hp
  obtain ⟨T, h1, h2⟩ := (same_symm hs).1 _ _ hU
  obtain ⟨it, h3, h4⟩ := mem_same h2.run hp
  cases h4
  exact hask k T p (due_of (same_symm hs) hd) h1 h3

theorem cmd_of (hs : Same c g strict tasks tasks') {l : Loc} {text : Str} (h : DueEntry c tasks g main (.cmd l text)) :
    DueEntry c tasks' g main (.cmd l text) := by
  cases h with
  | cmd h1 h2 =>
    obtain ⟨T, it', r1, r2, r3, r4⟩ := due_of hs h1
    cases r4 with
    | command q _ => exact .cmd r1 (by rw [← q.cmd _ r3]; exact h2)

theorem entry_of (hs : Same c g true tasks tasks') {e : PlanEntry} (h : DueEntry c tasks g main e) : DueEntry c tasks' g main e := by
  cases h with
  | cmd h1 h2 => exact cmd_of hs (.cmd h1 h2)
  | log h1 h2 =>
    obtain ⟨T, it', r1, r2, r3, r4⟩ := due_of hs h1
    cases r4 with
    | log q _ =>
      obtain ⟨q1, q2⟩ := q.strict rfl
      rw [q2]
      exact .log r1 (by rw [← q1 _ r3]; exact h2)

theorem tenv_eq {T T' : Task} {m : GoMap Str} (h : SameTask c g strict T T') (hm : Resolved c g T m) :
    interpolateEnv ⟨m, c.env⟩ (mergeEnvMaps [c.globalEnv, T.env]) = interpolateEnv ⟨m, c.env⟩ (mergeEnvMaps [c.globalEnv, T'.env]) :=
  env_eq (env_merge h.env) hm

theorem taskWorks_of {T T' : Task} (h : SameTask c g strict T T') (hw : TaskWorks c g T) : TaskWorks c g T' where
  cond := by
    rintro ⟨e, he⟩
    exact hw.cond ⟨e, by rw [h.cond g rfl]; exact he⟩
  body := by
    intro hc hne
    have hne' : T.run ≠ [] := by
      intro e
      have := h.run
      rw [e] at this
      generalize T'.run = r at this hne
      cases this
      exact hne rfl
    obtain ⟨m, tenv, h1, h2, ⟨it, h3, h4⟩, h5⟩ := hw.body (cond_of (task_symm h) hc) hne'
    refine ⟨m, tenv, by rw [vars_eq h]; exact h1, by rw [← tenv_eq h h1]; exact h2, ?_, ?_⟩
    · obtain ⟨it', k1, k2⟩ := mem_same h.run h3
      exact ⟨it', k1, by rw [one_platform k2]; exact h4⟩
    · intro it' hit' hp
      obtain ⟨it, k1, k2⟩ := mem_same (items_symm h.run) hit'
      rintro ⟨e, he⟩
      refine h5 it k1 (by rw [one_platform k2]; exact hp) ⟨e, ?_⟩
      rw [← one_cond k2 m h1]; exact he

theorem works_of (hs : Same c g strict tasks tasks') (hall : ∀ y, Spec.Due c tasks g main y → Works c tasks g y) (y : Thing)
    (hy : Spec.Due c tasks' g main y) : Works c tasks' g y := by
  cases y with
  | task k =>
    obtain ⟨T, h1, h2⟩ := hall _ (due_of (same_symm hs) hy)
    obtain ⟨T', k1, k2⟩ := hs.1 _ _ h1
    exact ⟨T', k1, taskWorks_of k2 h2⟩
  | item l it' m =>
    obtain ⟨T', it, r1, r2, r3, r4⟩ := due_of (same_symm hs) hy
    have hw := hall _ r1
    cases r4 with
    | command q _ =>
      obtain ⟨T, tenv, text, h1, h2, h3⟩ := hw
      obtain ⟨T2, k1, k2⟩ := hs.1 _ _ h1
      rw [r2] at k1; cases k1
      have r3' : Resolved c g T m := by unfold Resolved at *; rw [← vars_eq k2]; exact r3
      refine ⟨T', tenv, text, r2, by rw [← tenv_eq k2 r3']; exact h2, ?_⟩
      exact (ready_iff (source_eq (task_symm k2)) (task_symm k2).dir q r3).mpr h3
    | log q _ =>
      exact (q.log m r3).mpr hw
    | _ => exact hw

theorem refers_of (hs : Same c g strict tasks tasks') {a b : Str} (h : Refers tasks a b) : Refers tasks' a b := by
  obtain ⟨T, hT, h⟩ := h
  obtain ⟨T', k1, k2⟩ := hs.1 _ _ hT
  exact ⟨T', k1, h.imp (fun h => by rw [deps_eq k2]; exact h) (calls_same k2.run)⟩

theorem prior_of (hs : Same c g strict tasks tasks') {M : GoMap Str → Prop} {its its' : List RunItem} (hi : SameItems c M strict its its') {d : Str}
    (h : Prior tasks its d) : Prior tasks' its' d := by
  obtain ⟨t, T, h1, h2, h3⟩ := h
  obtain ⟨T', k1, k2⟩ := hs.1 _ _ h2
  obtain ⟨it', k3, k4⟩ := mem_same hi h1
  cases k4 with
  | task _ _ => exact ⟨_, T', k3, k1, by rw [deps_eq k2]; exact h3⟩

theorem may_of (hs : Same c g strict tasks tasks') {a b : Str} (h : MayRun tasks a b) : MayRun tasks' a b := by
  rcases h with h | ⟨V, its, la, mo, li, co, s', o', pl', w', ln', hV, hbl, hpr⟩
  · exact .inl (refers_of hs h)
  · obtain ⟨T', k1, k2⟩ := hs.1 _ _ hV
    obtain ⟨it', k3, k4⟩ := mem_same k2.run hbl
    cases k4 with
    | parallel q _ _ => exact .inr ⟨T', _, _, _, _, _, _, _, _, _, _, k1, k3, prior_of hs q hpr⟩

theorem leads_of (hs : Same c g strict tasks tasks') {P P' : Str → Prop} (hP : ∀ d, P' d → P d) {x y : Str} (h : Leads tasks P x y) : Leads tasks' P' x y := by
  induction h with
  | self => exact .self
  | step _ hb hm ih => exact .step ih (fun h => hb (hP _ h)) (may_of hs hm)

theorem separate (hs : Same c g strict tasks tasks') (hsep : Separate tasks) : Separate tasks' := by
  have hs' := same_symm hs
  intro a U its la mo li co s o pl w l hU hb i j t u hij hi hj y h1 h2
  obtain ⟨T, k1, k2⟩ := hs'.1 _ _ hU
  obtain ⟨it, k3, k4⟩ := mem_same k2.run hb
  cases k4 with
  | @parallel _ its0 _ _ _ _ _ _ _ _ w0 _ _ _ q _ _ =>
    obtain ⟨x1, p1, p2⟩ := at_same q hi
    obtain ⟨x2, p3, p4⟩ := at_same q hj
    cases p2 with
    | task _ _ =>
      cases p4 with
      | task _ _ =>
        refine prior_of hs (items_symm q) (hsep a T its0 la mo li co s o pl w0 l k1 k3 i j _ _ hij p1 p3 y ?_ ?_)
        · exact leads_of hs' (fun d h => prior_of hs (items_symm q) h) h1
        · exact leads_of hs' (fun d h => prior_of hs (items_symm q) h) h2

end
end Texts

section
variable {c : Cfg} {tasks tasks' : TaskMap} {g : GoMap Str} {main : Str} {s s' : State} {strict : Bool}

/-- **C125** If texts are replaced by others that expand to the same, the same is done: two runs that end with success and are not
interrupted, one with each, start the same commands and print the same messages, each once. -/
theorem C125_same (hs : Same c g true tasks tasks') (hd : c.dry = false) (hask : Unasked c tasks g main) (hr : Reach (start c tasks g main) s)
    (hp : s.prog = .ret none) (hc : ∀ id, .cancel id ∉ s.sh.trace) (hr' : Reach (start c tasks' g main) s') (hp' : s'.prog = .ret none)
    (hc' : ∀ id, .cancel id ∉ s'.sh.trace) : (Spec.entries s'.sh.trace).Perm (Spec.entries s.sh.trace) := by
  have hask' := Texts.unasked hs hask
  refine (List.perm_ext_iff_of_nodup (Due.entries_nodup fun loc => acts_once hr' loc) (Due.entries_nodup fun loc => acts_once hr loc)).mpr fun e => ?_
  constructor
  · intro he
    exact C78_all hd hask hr hp hc (Texts.entry_of (Texts.same_symm hs) (C78_only hd hask' hr' he))
  · intro he
    exact C78_all hd hask' hr' hp' hc' (Texts.entry_of hs (C78_only hd hask hr he))

/-- **C125** What messages say does not matter for commands: if messages are replaced by any others that can be expanded, of any level, the
same commands are run, each once. -/
theorem C125_messages (hs : Same c g strict tasks tasks') (hd : c.dry = false) (hask : Unasked c tasks g main)
    (hr : Reach (start c tasks g main) s) (hp : s.prog = .ret none) (hc : ∀ id, .cancel id ∉ s.sh.trace)
    (hr' : Reach (start c tasks' g main) s') (hp' : s'.prog = .ret none) (hc' : ∀ id, .cancel id ∉ s'.sh.trace) :
    (commands (Spec.entries s'.sh.trace)).Perm (commands (Spec.entries s.sh.trace)) := by
  have hask' := Texts.unasked hs hask
  refine (List.perm_ext_iff_of_nodup ((Due.entries_nodup fun loc => acts_once hr' loc).filter _)
    ((Due.entries_nodup fun loc => acts_once hr loc).filter _)).mpr fun e => ?_
  rw [List.mem_filter, List.mem_filter]
  refine and_congr_left fun hcmd => ?_
  cases e with
  | cmd l t =>
    constructor
    · intro he
      exact C78_all hd hask hr hp hc (Texts.cmd_of (Texts.same_symm hs) (C78_only hd hask' hr' he))
    · intro he
      exact C78_all hd hask' hr' hp' hc' (Texts.cmd_of hs (C78_only hd hask hr he))
  | _ => cases hcmd

/-- **C125** And the process that is started for a command is the same: the shell, the text, the directory, and the environment apart from
the names that control colours. -/
theorem C125_process (hs : Same c g strict tasks tasks') (hd : c.dry = false) (hask : Unasked c tasks g main)
    (hr : Reach (start c tasks g main) s) (hr' : Reach (start c tasks' g main) s') {loc : Loc} {spec spec' : ProcSpec}
    (h : .procStart loc spec ∈ s.sh.trace) (h' : .procStart loc spec' ∈ s'.sh.trace) :
    spec.shell = spec'.shell ∧ spec.arg = spec'.arg ∧ spec.cmd = spec'.cmd ∧ spec.dir = spec'.dir ∧
    ∀ k, k ∉ colourNames → procEnv c spec k = procEnv c spec' k := by
  obtain ⟨T1, v, m, tenv, text, env, dir, fr, hT1, hdue, he, hpr, rfl⟩ := Due.events hd hask hr _ h
  obtain ⟨T2, v', m', tenv', text', env', dir', fr', hT2, hdue', he', hpr', rfl⟩ := Due.events hd (Texts.unasked hs hask) hr' _ h'
  obtain ⟨T, it', r1, r2, r3, r4⟩ := Texts.due_of hs hdue
  obtain ⟨h1, rfl⟩ := Due.item_unique r1 hdue'
  subst h1
  rw [hT1] at r2; cases r2
  obtain ⟨T3, k1, k2⟩ := hs.1 _ _ hT1
  rw [hT2] at k1; cases k1
  rw [← Texts.tenv_eq k2 r3, he] at he'; cases he'
  cases r4 with
  | command q _ =>
    have := Texts.prepare_ok (Texts.source_eq k2) k2.dir q r3 hpr
    rw [hpr'] at this; cases this
    refine ⟨rfl, rfl, rfl, rfl, fun k hk => ?_⟩
    have we : env.WF := interpolateEnv_WF (prepare_inv hpr).2.1 (WF_mergeEnvMaps _)
    rw [procEnv_eq we, procEnv_eq we, colourEnv_other hk, colourEnv_other hk]

/-- **C125** Nor does it decide about success: if references make no circle and items of parallel blocks keep out of each other's way, then a
run with the one texts in which nothing goes wrong outside succeeds exactly if such a run with the others does. -/
theorem C125_success (hs : Same c g strict tasks tasks') (hd : c.dry = false) (hask : Unasked c tasks g main) {rank : Str → Nat}
    (hrk : ∀ a b, Refers tasks a b → rank b < rank a) (hsep : Separate tasks) (hr : Reach (start c tasks g main) s)
    (hcalm : ∀ e ∈ s.sh.trace, Calm e) {r r' : Option Err} (hp : s.prog = .ret r) (hr' : Reach (start c tasks' g main) s')
    (hcalm' : ∀ e ∈ s'.sh.trace, Calm e) (hp' : s'.prog = .ret r') : r' = none ↔ r = none := by
  rw [C79_exact hd hask hrk hsep hr hcalm hp,
    C79_exact hd (Texts.unasked hs hask) (fun a b h => hrk a b (Texts.refers_of (Texts.same_symm hs) h)) (Texts.separate hs hsep) hr' hcalm' hp']
  exact ⟨Texts.works_of (Texts.same_symm hs), Texts.works_of hs⟩

/-- **C125** Validation accepts both or none, in whatever order it looks at the tasks: it does not look at the texts. -/
theorem C125_accepted (hs : Same c g strict tasks tasks') {grow grow' : Nat → Nat} {o1 o2 o3 o4 p1 p2 p3 p4 : TaskMap} (hwf : tasks.WF)
    (hwf' : tasks'.WF) (h1 : o1.Perm tasks) (h2 : o2.Perm tasks) (h3 : o3.Perm tasks) (h4 : o4.Perm tasks) (k1 : p1.Perm tasks')
    (k2 : p2.Perm tasks') (k3 : p3.Perm tasks') (k4 : p4.Perm tasks') :
    validateAll grow o1 o2 o3 o4 tasks = [] ↔ validateAll grow' p1 p2 p3 p4 tasks' = [] := by
  rw [validateAll_nil grow hwf h1 h2 h3 h4, validateAll_nil grow' hwf' k1 k2 k3 k4]
  have go : ∀ {t t' : TaskMap}, Same c g strict t t' →
      (∀ a b, Refers t a b → ∃ T, t.get? b = some T) ∧ (¬ ∃ n, Reaches t n n) ∧ Unambiguous t →
      (∀ a b, Refers t' a b → ∃ T, t'.get? b = some T) ∧ (¬ ∃ n, Reaches t' n n) ∧ Unambiguous t' := by
    intro t t' hs ⟨a1, a2, a3⟩
    have hs' := Texts.same_symm hs
    have decl : ∀ {T T' : Task}, SameTask c g strict T T' → Spec.declared T' = Spec.declared T := by
      intro T T' h
      rw [h.rest]; rfl
    have reaches : ∀ {a b}, Reaches t' a b → Reaches t a b := by
      intro a b h
      induction h with
      | one h => exact .one (Texts.refers_of hs' h)
      | more h _ ih => exact .more (Texts.refers_of hs' h) ih
    refine ⟨fun a b hab => ?_, fun ⟨n, hn⟩ => a2 ⟨n, reaches hn⟩, ⟨fun k V a hV ha => ?_, fun k k' V V' a hV hV' ha ha' => ?_, fun k V hV => ?_⟩⟩
    · obtain ⟨T, hT⟩ := a1 a b (Texts.refers_of hs' hab)
      obtain ⟨T', h, -⟩ := hs.1 _ _ hT
      exact ⟨T', h⟩
    · obtain ⟨U, e, q⟩ := hs'.1 _ _ hV
      exact hs.2 _ (a3.notName k U a e (by rw [decl q]; exact ha))
    · obtain ⟨U, e, q⟩ := hs'.1 _ _ hV
      obtain ⟨U', e', q'⟩ := hs'.1 _ _ hV'
      exact a3.oneTask k k' U U' a e e' (by rw [decl q]; exact ha) (by rw [decl q']; exact ha')
    · obtain ⟨U, e, q⟩ := hs'.1 _ _ hV
      rw [← decl q]
      exact a3.once k U e
  exact ⟨go hs, go (Texts.same_symm hs)⟩

/-- **C125** Replacing references by their value, as in C124, is such a replacement. -/
theorem C125_inline {M : GoMap Str → Prop} {x v t t' : Str} (hx : ∀ m, M m → value m.get? c.env x = some v) (hv : '$' ∉ v) (ht : NoNul t)
    (hn : ∀ m, M m → ∀ n w, value m.get? c.env n = some w → NoNul w) (h : Spec.Inline.Inlined x v t t') : Says c M t t' :=
  fun m hm => (C124_text (ctx := ⟨m, c.env⟩) (hx m hm) hv ht (hn m hm) h).symm

end

namespace Sample
open Exec

/-- a variable in a command and a message -/
def byName : TaskMap := [(s "all", { name := s "all", vars := some [(s "x", s "main")], run := [cmd "cc ${{ x }}.c", .log { log := s "built" }] })]

/-- its value in the command, and another message -/
def spelled : TaskMap := [(s "all", { name := s "all", vars := some [(s "x", s "main")], run := [cmd "cc main.c", .log { log := s "done: ${{ x }}", level := s "warn" }] })]

theorem spelled_same : Same {} [] false byName spelled := by
  refine ⟨fun k T hT => ?_, fun k hk => ?_⟩
  · have hm := GoMap.mem_of_get? hT
    simp only [byName, List.mem_cons, Prod.mk.injEq, List.not_mem_nil, or_false] at hm
    obtain ⟨rfl, rfl⟩ := hm
    have only : ∀ m, Resolved {} [] { name := s "all", vars := some [(s "x", s "main")], run := [cmd "cc ${{ x }}.c", .log { log := s "built" }] } m →
        m = [(s "x", s "main")] := by
      intro m hm
      have : resolveVars (some [(s "x", s "main")]) [] (Cfg.env {}) = .ok [(s "x", s "main")] := by decide +kernel
      unfold Resolved at hm
      rw [this] at hm
      cases hm
      rfl
    refine ⟨_, rfl, rfl, fun _ _ => rfl, ⟨Iff.rfl, fun _ _ => rfl⟩, .nil, ?_⟩
    refine .command ⟨rfl, by decide +kernel, ?_, ⟨Iff.rfl, fun _ _ => rfl⟩, .nil, fun _ _ => rfl⟩ (.log ⟨rfl, ?_, nofun, fun _ _ => rfl⟩ .nil)
    · intro m hm
      rw [only m hm]
      decide +kernel
    · intro m hm
      rw [only m hm]
      exact ⟨fun _ => ⟨s "done: main", by decide +kernel⟩, fun _ => ⟨s "built", by decide +kernel⟩⟩
  · have : k ≠ s "all" := by rintro rfl; exact absurd hk (by decide +kernel)
    simp [spelled, GoMap.get?, Ne.symm this]

theorem byName_unasked : Unasked {} byName [] (s "all") := by
  intro n T p _ hT hp
  have := GoMap.mem_of_get? hT
  simp only [byName, List.mem_cons, Prod.mk.injEq, List.not_mem_nil, or_false] at this
  obtain ⟨-, rfl⟩ := this
  simp [cmd] at hp

def byNameRun : State := drive [.auto 400] (start {} byName [] (s "all"))
def spelledRun : State := drive [.auto 400] (start {} spelled [] (s "all"))

/-- the conditions of `C125_messages` are met, and the value occurs in the command -/
example : (commands (Spec.entries spelledRun.sh.trace)).Perm (commands (Spec.entries byNameRun.sh.trace)) ∧
    Spec.entries spelledRun.sh.trace = [.cmd ⟨s "all", 0, none⟩ (s "cc main.c"), .log ⟨s "all", 1, none⟩ (s "done: main") (s "warn")] ∧
    Separate byName :=
  ⟨C125_messages spelled_same rfl byName_unasked (reach _ _) (ret_of_result (by decide +kernel)) (calm_of (by decide +kernel))
    (reach _ _) (ret_of_result (by decide +kernel)) (calm_of (by decide +kernel)), by decide +kernel, no_blocks (by decide +kernel)⟩

/-- a command that is nothing but an empty variable, and nothing at all -/
def blankOr (text : String) : TaskMap := [(s "all", { name := s "all", vars := some [(s "x", [])], run := [cmd text] })]

end Sample

open Sample in
/-- **C125** Limits of the property: a command must not become blank. An empty variable expands to the same as nothing, but a command that
is written as nothing is an error. -/
theorem C125_blank :
    interpolate (s "${{ x }}") ⟨[(s "x", [])], fun _ => none⟩ = interpolate [] ⟨[(s "x", [])], fun _ => none⟩ ∧
    Exec.result (Exec.drive [.auto 200] (start {} (blankOr "${{ x }}") [] (s "all"))) = some none ∧
    (Exec.result (Exec.drive [.auto 200] (start {} (blankOr "") [] (s "all")))).map (fun e => e.isSome) = some true := by
  decide +kernel

end Bab
