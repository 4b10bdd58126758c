import Verif.Proof.Secret
/-
The programs of the runner when the answers to some questions differ.
-/

namespace Bab
open Spec Spec.Secret

namespace Secret

/-! ### environments of processes -/

theorem keys_set_congr {m m' : GoMap Str} (h : m.keys = m'.keys) (k v v' : Str) : GoMap.keys (m.set k v) = GoMap.keys (m'.set k v') := by
  rw [GoMap.keys_set, GoMap.keys_set, h]

theorem keys_merge_one {m m' : GoMap Str} (h : m.keys = m'.keys) :
    GoMap.keys (mergeEnvMaps [m]) = GoMap.keys (mergeEnvMaps [m']) := by
  unfold mergeEnvMaps
  simp only [List.foldl_cons, List.foldl_nil]
  have key : ∀ (m m' a a' : GoMap Str), m.keys = m'.keys → a.keys = a'.keys →
      GoMap.keys (m.foldl (fun a p => a.set p.1 p.2) a) = GoMap.keys (m'.foldl (fun a p => a.set p.1 p.2) a') := by
    intro m
    induction m with
    | nil =>
      intro m' a a' hm ha
      cases m' with
      | nil => exact ha
      | cons q m' => cases hm
    | cons p m ih =>
      intro m' a a' hm ha
      cases m' with
      | nil => cases hm
      | cons q m' =>
        simp only [GoMap.keys, List.map_cons, List.cons.injEq] at hm
        simp only [List.foldl_cons]
        refine ih m' _ _ hm.2 ?_
        rw [hm.1]
        exact keys_set_congr ha _ _ _
  exact key m m' [] [] h rfl

theorem names_eq {m m' : List (Str × Str)} (h : m.map (·.1) = m'.map (·.1)) :
    (m.map fun q => (q.1, ([] : Str))) = m'.map fun q => (q.1, []) := by
  have : ∀ l : List (Str × Str), (l.map fun q => (q.1, ([] : Str))) = (l.map (·.1)).map fun k => (k, []) := by
    intro l; rw [List.map_map]; rfl
  rw [this, this, h]

theorem mem_set {m : GoMap Str} {k v : Str} {p : Str × Str} (h : p ∈ m.set k v) : p ∈ m ∨ p = (k, v) := by
  induction m with
  | nil => exact .inr (by simpa [GoMap.set] using h)
  | cons q m ih =>
    obtain ⟨k', v'⟩ := q
    simp only [GoMap.set] at h
    split at h
    · rcases List.mem_cons.mp h with h | h
      · exact .inr h
      · exact .inl (List.mem_cons_of_mem _ h)
    · rcases List.mem_cons.mp h with h | h
      · exact .inl (h ▸ List.mem_cons_self)
      · rcases ih h with h | h
        · exact .inl (List.mem_cons_of_mem _ h)
        · exact .inr h

theorem mem_merge {ms : List (GoMap Str)} {p : Str × Str} (h : p ∈ mergeEnvMaps ms) : ∃ m ∈ ms, p ∈ m := by
  unfold mergeEnvMaps at h
  have inner : ∀ (m a : GoMap Str), p ∈ m.foldl (fun a p => a.set p.1 p.2) a → p ∈ a ∨ p ∈ m := by
    intro m
    induction m with
    | nil => exact fun a h => .inl h
    | cons q m ih =>
      intro a h
      rcases ih _ h with h | h
      · rcases mem_set h with h | h
        · exact .inl h
        · exact .inr (h ▸ List.mem_cons_self)
      · exact .inr (List.mem_cons_of_mem _ h)
  have outer : ∀ (ms : List (GoMap Str)) (a : GoMap Str),
      p ∈ ms.foldl (fun acc m => m.foldl (fun a p => a.set p.1 p.2) acc) a → p ∈ a ∨ ∃ m ∈ ms, p ∈ m := by
    intro ms
    induction ms with
    | nil => exact fun a h => .inl h
    | cons m ms ih =>
      intro a h
      rcases ih _ h with h | ⟨m', h1, h2⟩
      · rcases inner m a h with h | h
        · exact .inl h
        · exact .inr ⟨m, List.mem_cons_self, h⟩
      · exact .inr ⟨m', List.mem_cons_of_mem _ h1, h2⟩
  rcases outer ms [] h with h | h
  · cases h
  · exact h

/-! ### programs -/

/-- what may differ: the variables in `S`, and the answers as given by `A` -/
structure Diff where
  S : Str → Prop
  A : Str → Except Err Str → Except Err Str
  keeps : ∀ x r e, A x r = .error e ↔ r = .error e

/-- the same is shown, and the answers are the other ones -/
def V (d : Diff) (e e' : Ev) : Prop :=
  onScreen e = onScreen e' ∧ answer e' = (answer e).map fun q => (q.1, d.A q.1 q.2)

/-- actions that have nothing to do with variables -/
def Plain : Act → Prop
  | .claim _ | .setDone _ | .status _ | .snapshot | .cancelled _ | .newCtx | .wait _ | .tui | .fuel => True
  | _ => False

inductive Rel (d : Diff) : Prog → Prog → Prop
  | ret (r) : Rel d (.ret r) (.ret r)
  | plain {a : Act} (ha : Plain a) {k k' : a.Resp → Prog} (h : ∀ x, Rel d (k x) (k' x)) : Rel d (.act a k) (.act a k')
  | globals {k k' : GoMap Str → Prog} (h : ∀ g g', Alike d.S g g' → Rel d (k g) (k' g')) : Rel d (.act .globals k) (.act .globals k')
  | setGlobal {n v v'} (hv : ¬ d.S n → v = v') {k k' : Unit → Prog} (h : ∀ x, Rel d (k x) (k' x)) :
      Rel d (.act (.setGlobal n v) k) (.act (.setGlobal n v') k')
  | start {c l spec spec'} (he : V d (.procStart l spec) (.procStart l spec')) {k k' : Bool → Prog} (h : ∀ x, Rel d (k x) (k' x)) :
      Rel d (.act (.start c l spec) k) (.act (.start c l spec') k')
  | prompt {l p} {k k' : Except Err Str → Prog} (h : ∀ x, Rel d (k x) (k' (d.A p.prompt x))) :
      Rel d (.act (.prompt l p) k) (.act (.prompt l p) k')
  | emit {e e'} (he : V d e e') {k k' : Unit → Prog} (h : ∀ x, Rel d (k x) (k' x)) : Rel d (.act (.emit e) k) (.act (.emit e') k')
  | par {lim ctx t it n} {st : BState n} {ps ps' : Fin n → Prog} {k k' : Option Err → Prog}
      (hp : ∀ i, Rel d (ps i) (ps' i)) (h : ∀ r, Rel d (k r) (k' r)) :
      Rel d (.par lim ctx t it n st ps k) (.par lim ctx t it n st ps' k')

/-- the shared states of the two executions -/
structure Sh (d : Diff) (σ τ : Shared) : Prop where
  status : σ.status = τ.status
  gvars : Alike d.S σ.gvars τ.gvars
  cancelled : σ.cancelled = τ.cancelled
  ctxs : σ.ctxs = τ.ctxs
  trace : List.Forall₂ (V d) σ.trace τ.trace

theorem Sh.isCancelled {d : Diff} {σ τ : Shared} (h : Sh d σ τ) (c : CtxPath) : σ.isCancelled c = τ.isCancelled c := by
  unfold Shared.isCancelled
  rw [h.cancelled]

theorem Sh.grow {d : Diff} {σ τ : Shared} (h : Sh d σ τ) {es es' : List Ev} (he : List.Forall₂ (V d) es es') :
    Sh d { σ with trace := σ.trace ++ es } { τ with trace := τ.trace ++ es' } where
  status := h.status
  gvars := h.gvars
  cancelled := h.cancelled
  ctxs := h.ctxs
  trace := List.rel_append h.trace he

theorem plain_step {d : Diff} {a : Act} (ha : Plain a) {σ τ : Shared} (h : Sh d σ τ) {x : a.Resp} (hx : a.Answers σ x) :
    a.Answers τ x ∧ Sh d (a.apply σ x) (a.apply τ x) := by
  cases a with
  | claim n =>
    have hx : x = σ.status.get? n := hx
    refine ⟨by show x = _; rw [hx, h.status], ?_⟩
    cases x with
    | none => exact ⟨by show σ.status.set n .running = _; rw [h.status]; rfl, h.gvars, h.cancelled, h.ctxs, List.rel_append h.trace (.cons ⟨rfl, rfl⟩ .nil)⟩
    | some s => exact h.grow .nil
  | setDone n =>
    exact ⟨trivial, by show σ.status.set n .done = _; rw [h.status]; rfl, h.gvars, h.cancelled, h.ctxs, List.rel_append h.trace (.cons ⟨rfl, rfl⟩ .nil)⟩
  | status n =>
    have hx : x = σ.status.get? n := hx
    exact ⟨by show x = _; rw [hx, h.status], h.grow .nil⟩
  | snapshot =>
    have hx : x = σ.status := hx
    exact ⟨by show x = _; rw [hx, h.status], h.grow .nil⟩
  | cancelled c =>
    have hx : x = σ.isCancelled c := hx
    exact ⟨by show x = _; rw [hx, h.isCancelled], h.grow .nil⟩
  | newCtx =>
    have hx : x = σ.ctxs := hx
    refine ⟨by show x = _; rw [hx, h.ctxs], h.status, h.gvars, h.cancelled, ?_, List.rel_append h.trace .nil⟩
    show σ.ctxs + 1 = τ.ctxs + 1
    rw [h.ctxs]
  | wait l => exact ⟨trivial, h.grow (.cons ⟨rfl, rfl⟩ .nil)⟩
  | tui => exact ⟨trivial, h.grow (.cons ⟨rfl, rfl⟩ .nil)⟩
  | fuel => exact ⟨trivial, h.grow .nil⟩
  | globals => exact ha.elim
  | setGlobal => exact ha.elim
  | start => exact ha.elim
  | prompt => exact ha.elim
  | emit => exact ha.elim

/-- whatever the one program does the other one can do -/
theorem step {d : Diff} {p q : Prog} (hr : Rel d p q) {σ σ' τ : Shared} {p' : Prog} (h : Step p σ p' σ') (hs : Sh d σ τ) :
    ∃ q' τ', Step q τ q' τ' ∧ Rel d p' q' ∧ Sh d σ' τ' := by
  induction hr generalizing p' σ σ' τ with
  | ret _ => cases h
  | plain ha hk _ =>
    cases h with
    | act x hx => exact ⟨_, _, .act x (plain_step ha hs hx).1, hk x, (plain_step ha hs hx).2⟩
  | globals hk _ =>
    cases h with
    | act x hx =>
      have hx : x = σ.gvars := hx
      subst hx
      exact ⟨_, _, .act (a := .globals) τ.gvars rfl, hk _ _ hs.gvars, hs.grow .nil⟩
  | @setGlobal n v v' hv k k' hk _ =>
    cases h with
    | act x hx =>
      exact ⟨_, _, .act (a := .setGlobal n v') x trivial, hk x, hs.status, hs.gvars.set hv, hs.cancelled, hs.ctxs, List.rel_append hs.trace .nil⟩
  | @start c l spec spec' he k k' hk _ =>
    cases h with
    | act x hx =>
      have hx : x = true → σ.isCancelled c = false := hx
      refine ⟨_, _, .act (a := .start c l spec') x (by show x = true → _; rw [← hs.isCancelled]; exact hx), hk x, ?_⟩
      cases x with
      | true => exact hs.grow (.cons he .nil)
      | false => exact hs.grow (.cons ⟨rfl, rfl⟩ .nil)
  | @prompt l p k k' hk _ =>
    cases h with
    | act x hx =>
      refine ⟨_, _, .act (a := .prompt l p) (d.A p.prompt x) (fun e he => hx e ((d.keeps _ _ _).mp he)), hk x, ?_⟩
      exact hs.grow (.cons ⟨rfl, rfl⟩ .nil)
  | @emit e e' he k k' hk _ =>
    cases h with
    | act x hx => exact ⟨_, _, .act (a := .emit e') x trivial, hk x, hs.grow (.cons he .nil)⟩
  | @par lim ctx t it n st ps ps' k k' hp hk ihp _ =>
    cases h with
    | acquire i ht hl => exact ⟨_, _, .acquire i ht hl, .par hp hk, hs⟩
    | abort i ht hl hc =>
      exact ⟨_, _, .abort i ht hl (by rw [← hs.isCancelled]; exact hc), .par hp hk, hs.grow (.cons ⟨rfl, rfl⟩ .nil)⟩
    | child i ht hc =>
      obtain ⟨q', τ', g1, g2, g3⟩ := ihp i hc hs
      refine ⟨_, τ', .child i ht g1, .par (fun j => ?_) hk, g3⟩
      unfold upd
      split
      · exact g2
      · exact hp j
    | @finish _ _ _ _ _ _ _ _ _ r i ht hret =>
      refine ⟨_, τ, .finish i ht (r := r) ?_, .par hp hk, hs⟩
      have := hp i
      rw [hret] at this
      cases hq : ps' i with
      | ret r => rw [hq] at this; cases this; rfl
      | act => rw [hq] at this; cases this
      | par => rw [hq] at this; cases this
    | release i ht => exact ⟨_, _, .release i ht, .par hp hk, hs⟩
    | wgDone i ht => exact ⟨_, _, .wgDone i ht, .par hp hk, hs⟩
    | join hw => exact ⟨_, _, .join hw, hk _, hs⟩

theorem reach {d : Diff} {p q : Prog} (hr : Rel d p q) {σ τ : Shared} (hs : Sh d σ τ) {s : State} (h : Reach ⟨p, σ⟩ s) :
    ∃ s', Reach ⟨q, τ⟩ s' ∧ Rel d s.prog s'.prog ∧ Sh d s.sh s'.sh := by
  induction h with
  | refl => exact ⟨_, .refl, hr, hs⟩
  | @step t u _ hst ih =>
    obtain ⟨⟨q1, τ1⟩, h1, h2, h3⟩ := ih
    cases hst with
    | prog hp =>
      obtain ⟨q2, τ2, g1, g2, g3⟩ := step h2 hp h3
      exact ⟨⟨q2, τ2⟩, h1.step (.prog g1), g2, g3⟩
    | @cancel p2 σ2 id hid =>
      refine ⟨_, h1.step (.cancel id (by have := h3.ctxs; simp only at this; omega)), h2, h3.status, h3.gvars, ?_, h3.ctxs,
        List.rel_append h3.trace (.cons ⟨rfl, rfl⟩ .nil)⟩
      have := h3.cancelled
      simp only at this
      simp only [this]

/-! ### the functions of the runner -/

inductive VRel (S : Str → Prop) : VarEnv → VarEnv → Prop
  | own {m m'} (h : Alike S m m') : VRel S (.own m) (.own m')
  | global : VRel S .global .global

section
variable {d : Diff}

local notation "R" => Rel d

theorem note {e e' : Ev} {p q : Prog} (he : V d e e') (h : R p q) : R (.note e p) (.note e' q) := .emit he fun _ => h

theorem bind {p q : Prog} {f f' : Option Err → Prog} (h : R p q) (hf : ∀ r, R (f r) (f' r)) : R (p.bind f) (q.bind f') := by
  induction h with
  | ret r => exact hf r
  | plain ha _ ih => exact .plain ha ih
  | globals _ ih => exact .globals ih
  | setGlobal hv _ ih => exact .setGlobal hv ih
  | start he _ ih => exact .start he ih
  | prompt _ ih => exact .prompt ih
  | emit he _ ih => exact .emit he ih
  | par hp _ _ ih => exact .par hp ih

theorem andThen {p q : Prog} (w : Err → Err) {f f' : Prog} (h : R p q) (hf : R f f') : R (p.andThen w f) (q.andThen w f') :=
  bind h fun r => by
    cases r with
    | none => exact hf
    | some e => exact .ret _

theorem readVars {v v' : VarEnv} (hv : VRel d.S v v') {k k' : GoMap Str → Prog} (h : ∀ m m', Alike d.S m m' → R (k m) (k' m')) :
    R (Bab.readVars v k) (Bab.readVars v' k') := by
  cases hv with
  | own he => exact h _ _ he
  | global => exact .globals h

theorem writeVar {v v' : VarEnv} (hv : VRel d.S v v') {n a a' : Str} (ha : ¬ d.S n → a = a') {k k' : VarEnv → Prog}
    (h : ∀ v v', VRel d.S v v' → R (k v) (k' v')) : R (Bab.writeVar v n a k) (Bab.writeVar v' n a' k') := by
  cases hv with
  | own he => exact h _ _ (.own (he.set ha))
  | global => exact .setGlobal ha fun _ => h _ _ .global

theorem runProc {tn : Str} {fr : Frame} {loc : Loc} {spec spec' : ProcSpec} (hc : spec.cmd = spec'.cmd)
    (he : V d (.procStart loc spec) (.procStart loc spec')) :
    R (Bab.runProc tn fr loc spec) (Bab.runProc tn fr loc spec') := by
  unfold Bab.runProc
  rw [hc]
  have hf : ∀ code : Nat, R (.act (.cancelled fr.ctx) fun (b : Bool) =>
        .ret (some (.wrap (.command tn spec'.cmd) (if b then .canceled else .exit code))))
      (.act (.cancelled fr.ctx) fun (b : Bool) =>
        .ret (some (.wrap (.command tn spec'.cmd) (if b then .canceled else .exit code)))) :=
    fun code => .plain (by exact trivial) fun b => .ret _
  refine .start he fun started => ?_
  cases started with
  | true =>
    refine .plain (by exact trivial) fun r => ?_
    cases r with
    | none => exact .ret _
    | some code => exact hf code
  | false => exact hf 127

theorem procSpec_shown (c : Cfg) (fr : Frame) (T : Task) (v : CommandRun) (text : Str) {env env' : GoMap Str} (h : env.keys = env'.keys)
    (dir : Str) (loc : Loc) :
    V d (.procStart loc (procSpec c fr T v text env dir)) (.procStart loc (procSpec c fr T v text env' dir)) := by
  refine ⟨?_, rfl⟩
  have h0 : env = [] ↔ env' = [] := by
    cases env <;> cases env' <;> simp_all [GoMap.keys]
  simp only [onScreen, procSpec, Option.some.injEq, Ev.procStart.injEq, true_and]
  have h1 : ∀ (e e' : List (Str × Str)), (e.map fun q => (q.1, ([] : Str))) = (e'.map fun q => (q.1, [])) →
      ((if env ≠ [] ∨ (fr.out.isSome && isOutput [v.output, fr.ovOutput, T.output, c.globalOutput]) = true then some e else none).map
        (·.map fun q => (q.1, ([] : Str)))) =
      ((if env' ≠ [] ∨ (fr.out.isSome && isOutput [v.output, fr.ovOutput, T.output, c.globalOutput]) = true then some e' else none).map
        (·.map fun q => (q.1, ([] : Str)))) := by
    intro e e' he
    by_cases hx : env = []
    · simp only [hx, h0.mp hx, ne_eq, not_true_eq_false, false_or]
      split
      · simp only [Option.map_some, he]
      · rfl
    · have hx' : ¬ env' = [] := fun e => hx (h0.mpr e)
      simp only [ne_eq, hx, hx', not_false_eq_true, true_or, if_true, Option.map_some, he]
  congr 1
  apply h1
  simp only [List.map_append]
  congr 1
  by_cases hx : env = []
  · rw [if_pos hx, if_pos (h0.mp hx)]
  · rw [if_neg hx, if_neg fun e => hx (h0.mpr e)]
    exact names_eq (keys_merge_one h)

variable {c : Cfg} {tasks : TaskMap} (hk : Keeps d.S c tasks) (hA : ∀ x r, ¬ d.S x → d.A x r = r)
  (hI : c.stdinTTY = false → ∀ x r, d.A x r = r)
include hk

theorem prepare_both {T : Task} (ht : ClearTask d.S T) {v : CommandRun} (h1 : Clear d.S v.cmd) (h2 : Clear d.S v.dir)
    {m m' : GoMap Str} (hm : Alike d.S m m') (tenv : GoMap Str) :
    Both (fun a b => a.1 = b.1 ∧ a.2.1.keys = b.2.1.keys ∧ a.2.2 = b.2.2) (prepareCommand c T v tenv m) (prepareCommand c T v tenv m') := by
  unfold prepareCommand
  rw [clear_interpolate hm h1, clear_dir h2 ht.dir hk.dir hm]
  cases interpolate v.cmd ⟨m', c.env⟩ with
  | error e => exact .error e
  | ok text =>
    dsimp only
    have hb := env_both hm c.env (mergeEnvMaps [tenv, v.env])
    revert hb
    generalize interpolateEnv ⟨m, c.env⟩ (mergeEnvMaps [tenv, v.env]) = a
    generalize interpolateEnv ⟨m', c.env⟩ (mergeEnvMaps [tenv, v.env]) = b
    rintro (e | hk)
    · exact .error e
    · dsimp only
      cases resolveDir c T v.dir ⟨m', c.env⟩ with
      | error e => exact .error _
      | ok dir => exact .ok ⟨rfl, hk, rfl⟩

omit hk in
theorem both_placed {α : Type} {Q : α → α → Prop} {a b : Except Err α} (l : Nat) (h : Both Q a b) : Both Q (placed l a) (placed l b) := by
  cases h with
  | error e => rw [placed_error]; exact .error _
  | ok h => rw [placed_ok, placed_ok]; exact .ok h

theorem executeCommand {T : Task} (ht : ClearTask d.S T) {fr : Frame} {loc : Loc} {v : CommandRun} (h1 : Clear d.S v.cmd)
    (h2 : Clear d.S v.dir) {vars vars' : VarEnv} (hv : VRel d.S vars vars') {tenv : GoMap Str} :
    R (Bab.executeCommand c T fr loc v vars tenv) (Bab.executeCommand c T fr loc v vars' tenv) := by
  unfold Bab.executeCommand
  split
  · exact .ret _
  · refine readVars hv fun m m' hm => note ⟨rfl, rfl⟩ ?_
    have hb := both_placed v.line (prepare_both hk ht h1 h2 hm tenv)
    revert hb
    generalize placed v.line (prepareCommand c T v tenv m) = a
    generalize placed v.line (prepareCommand c T v tenv m') = b
    rintro (e | ⟨h3, h4, h5⟩)
    · exact .ret _
    · rename_i x y
      obtain ⟨text, env, dir⟩ := x
      obtain ⟨text', env', dir'⟩ := y
      obtain rfl : text = text' := h3
      obtain rfl : dir = dir' := h5
      dsimp only
      split
      · exact note ⟨rfl, rfl⟩ (.ret _)
      · have hp : R (Bab.runProc T.name fr loc (procSpec c fr T v text env dir)) (Bab.runProc T.name fr loc (procSpec c fr T v text env' dir)) :=
          runProc rfl (procSpec_shown c fr T v text h4 dir loc)
        split
        · exact hp
        · exact note ⟨rfl, rfl⟩ hp

/-- what an item that runs in a parallel block or by itself must satisfy -/
def Sub (S : Str → Prop) (i : RunItem) : Prop :=
  (∀ v, i = .command v → Clear S v.cmd ∧ Clear S v.dir) ∧ ∀ l, i = .log l → Clear S l.log

variable {rec rec' : Rec} (hrec : ∀ fr b n, Rel d (rec fr b n) (rec' fr b n))
include hrec

theorem executeRunItem {T : Task} (ht : ClearTask d.S T) {fr : Frame} {loc : Loc} {item : RunItem} (hi : Sub d.S item) {vars vars' : VarEnv}
    (hv : VRel d.S vars vars') {tenv : GoMap Str} :
    R (Bab.executeRunItem c rec T fr loc item vars tenv) (Bab.executeRunItem c rec' T fr loc item vars' tenv) := by
  unfold Bab.executeRunItem
  cases item with
  | command v => exact executeCommand hk ht (hi.1 v rfl).1 (hi.1 v rfl).2 hv
  | task t =>
    dsimp only
    split
    · exact note ⟨rfl, rfl⟩ (.ret _)
    · exact hrec _ _ _
  | log l =>
    refine readVars hv fun m m' hm => note ⟨rfl, rfl⟩ ?_
    rw [clear_interpolate hm (hi.2 l rfl)]
    split
    · exact .ret _
    · split
      · exact note ⟨rfl, rfl⟩ (.ret _)
      · exact note ⟨rfl, rfl⟩ (.ret _)
  | prompt p => exact .ret _
  | parallel => exact .ret _

omit hk in
theorem preDeps {fr : Frame} {ds seen : List Str} {k k' : List Str → Prog} (h : ∀ s, R (k s) (k' s)) :
    R (Bab.preDeps rec fr ds seen k) (Bab.preDeps rec' fr ds seen k') := by
  induction ds generalizing seen with
  | nil => exact h seen
  | cons x ds ih =>
    unfold Bab.preDeps
    split
    · exact ih
    · refine .plain (by exact trivial) fun s => ?_
      split
      · exact ih
      · exact andThen _ (hrec _ _ _) ih

omit hk in
theorem preResolveDeps {fr : Frame} {items : List RunItem} {seen : List Str} {k k' : Prog} (h : R k k') :
    R (Bab.preResolveDeps tasks rec fr items seen k) (Bab.preResolveDeps tasks rec' fr items seen k') := by
  induction items generalizing seen with
  | nil => exact h
  | cons item items ih =>
    cases item with
    | task t =>
      unfold Bab.preResolveDeps
      cases tasks.get? t.task with
      | none => exact .ret _
      | some T => exact preDeps hrec fun s => ih
    | _ => exact ih

omit hk hrec in
theorem runBlock {lim : Nat} {ctx : CtxPath} {name : Str} {i : Nat} {items : List RunItem} {labels : List Str}
    {child child' : Nat → RunItem → Prog} (h : ∀ (j : Nat), ∀ item ∈ items, R (child j item) (child' j item)) :
    R (Bab.runBlock lim ctx name i items labels child) (Bab.runBlock lim ctx name i items labels child') := by
  refine .par (fun j => ?_) (fun r => note ⟨rfl, rfl⟩ (.ret _))
  exact note ⟨rfl, rfl⟩ (bind (h _ _ (List.get_mem _ _)) fun r => note ⟨rfl, rfl⟩ (.ret _))

theorem executeParallel {name : Str} {T : Task} (ht : ClearTask d.S T) {fr : Frame} {i : Nat} {items : List RunItem}
    (hi : ∀ x ∈ items, Sub d.S x)
    {labels : List Str} {mode : ParallelMode} {lim : Nat} {color silent output : Option Bool} {m m' : GoMap Str} (hm : Alike d.S m m')
    {tenv : GoMap Str} :
    R (Bab.executeParallel c tasks rec name T fr i items labels mode lim color silent output m tenv)
      (Bab.executeParallel c tasks rec' name T fr i items labels mode lim color silent output m' tenv) := by
  unfold Bab.executeParallel
  dsimp only
  refine preResolveDeps hrec ?_
  have hchild : ∀ (fr : Frame) (j : Nat), ∀ item ∈ items,
      R (Bab.executeRunItem c rec T fr ⟨name, i, some j⟩ item (.own m) tenv)
        (Bab.executeRunItem c rec' T fr ⟨name, i, some j⟩ item (.own m') tenv) :=
    fun fr j item hx => executeRunItem hk hrec ht (hi item hx) (.own hm)
  split
  · exact note ⟨rfl, rfl⟩ (.ret _)
  · split
    · unfold executeParallelTUI
      simp only
      split
      · exact note ⟨rfl, rfl⟩ (runBlock fun j item hx => hchild _ j item hx)
      · refine .plain (by exact trivial) fun id => .plain (by exact trivial) fun ok => ?_
        split
        · exact note ⟨rfl, rfl⟩ (runBlock fun j item hx => hchild _ j item hx)
        · exact .ret _
    · exact note ⟨rfl, rfl⟩ (runBlock fun j item hx => hchild _ j item hx)

omit hk hrec in
include hA hI in
theorem executePrompt {tn : Str} {loc : Loc} {p : PromptRun} (hp : ClearItem d.S (.prompt p)) {vars vars' : VarEnv}
    (hv : VRel d.S vars vars') {k k' : Option Err → VarEnv → Prog}
    (h : ∀ r v v', VRel d.S v v' → R (k r v) (k' r v')) :
    R (Bab.executePrompt c tn loc p vars k) (Bab.executePrompt c tn loc p vars' k') := by
  unfold Bab.executePrompt
  refine readVars hv fun m m' hm => note ⟨rfl, rfl⟩ ?_
  rw [clear_prompt hm c.env hp]
  cases hip : placed p.line (interpolatePrompt p ⟨m', c.env⟩) with
  | error e => exact h _ _ _ hv
  | ok p' =>
    have hn := prompt_name (of_placed_ok hip)
    dsimp only
    have hgot : ∀ r r' : Except Err Str, (∀ e, r' = .error e ↔ r = .error e) → (¬ d.S p.prompt → r = r') →
        R (match r with
          | .error e => k (some (.wrap (.prompt tn p.prompt) e)) vars
          | .ok ans => Bab.writeVar vars p.prompt ans (k none))
        (match r' with
          | .error e => k' (some (.wrap (.prompt tn p.prompt) e)) vars'
          | .ok ans => Bab.writeVar vars' p.prompt ans (k' none)) := by
      intro r r' he hs
      cases r with
      | error e =>
        rw [(he e).mpr rfl]
        exact h _ _ _ hv
      | ok a =>
        cases r' with
        | error e => cases (he e).mp rfl
        | ok a' => exact writeVar hv (fun hx => Except.ok.inj (hs hx)) fun v v' hv => h _ _ _ hv
    split
    · exact note ⟨rfl, rfl⟩ (h _ _ _ hv)
    · cases htty : c.stdinTTY with
      | true =>
        refine .prompt fun r => hgot _ _ (d.keeps _ _) ?_
        rw [hn]
        exact fun hx => (hA _ r hx).symm
      | false =>
        refine note ⟨rfl, ?_⟩ (hgot _ _ (fun e => .rfl) fun _ => rfl)
        simp only [answer, Option.map_some, hI htty]

include hA hI in
theorem executeItem {name : Str} {T : Task} (ht : ClearTask d.S T) {fr : Frame} {i : Nat} {item : RunItem} (hi : ClearItem d.S item)
    {vars vars' : VarEnv} (hv : VRel d.S vars vars') {tenv : GoMap Str} {k k' : Option Err → VarEnv → Prog}
    (h : ∀ r v v', VRel d.S v v' → R (k r v) (k' r v')) :
    R (Bab.executeItem c tasks rec name T fr i item vars tenv k) (Bab.executeItem c tasks rec' name T fr i item vars' tenv k') := by
  unfold Bab.executeItem
  cases item with
  | prompt p => exact executePrompt hA hI hi hv h
  | parallel items labels mode lim color silent output pl w ln =>
    dsimp only
    split
    · exact note ⟨rfl, rfl⟩ (h _ _ _ hv)
    · refine readVars hv fun m m' hm => bind (executeParallel hk hrec ht ?_ hm) fun r => h _ _ _ hv
      exact fun x hx => ⟨fun v e => hi.2.1 v (e ▸ hx), fun l e => hi.2.2 l (e ▸ hx)⟩
  | command v =>
    refine bind (executeRunItem hk hrec ht ⟨?_, by simp⟩ hv) fun r => h _ _ _ hv
    rintro _ ⟨⟩
    exact ⟨hi.2.1, hi.2.2⟩
  | log l =>
    refine bind (executeRunItem hk hrec ht ⟨by simp, ?_⟩ hv) fun r => h _ _ _ hv
    rintro _ ⟨⟩
    exact hi.2
  | task t => exact bind (executeRunItem hk hrec ht ⟨by simp, by simp⟩ hv) fun r => h _ _ _ hv

omit hk hrec in
theorem clear_cond {S : Str → Prop} {item : RunItem} (h : ClearItem S item) : Clear S item.cond := by
  cases item with
  | task t => exact h
  | _ => exact h.1

include hA hI in
theorem executeItems {name : Str} {T : Task} (ht : ClearTask d.S T) {fr : Frame} {tenv : GoMap Str}
    {items : List RunItem} (hi : ∀ x ∈ items, ClearItem d.S x) {i : Nat} {vars vars' : VarEnv} (hv : VRel d.S vars vars') {ex sk : Nat} :
    R (Bab.executeItems c tasks rec name T fr tenv items i vars ex sk) (Bab.executeItems c tasks rec' name T fr tenv items i vars' ex sk) := by
  induction items generalizing i vars vars' ex sk with
  | nil =>
    unfold Bab.executeItems
    split <;> exact .ret _
  | cons item rest ih =>
    have hi0 := hi item List.mem_cons_self
    have ih := fun {i vars vars' ex sk} hv => ih (fun x hx => hi x (List.mem_cons_of_mem _ hx)) (i := i) (vars := vars) (vars' := vars') (ex := ex) (sk := sk) hv
    unfold Bab.executeItems
    refine .plain (by exact trivial) fun b => ?_
    dsimp only
    have hgo : ∀ w w' : Option (GoMap Str),
        R (.note (.itemStart name i w) <|
          Bab.executeItem c tasks rec name T fr i item vars tenv fun r vars' =>
            .note (.itemEnd name i r) <|
            match r with
            | some e => .ret (some e)
            | none => Bab.executeItems c tasks rec name T fr tenv rest (i + 1) vars' (ex + 1) sk)
        (.note (.itemStart name i w') <|
          Bab.executeItem c tasks rec' name T fr i item vars' tenv fun r vars' =>
            .note (.itemEnd name i r) <|
            match r with
            | some e => .ret (some e)
            | none => Bab.executeItems c tasks rec' name T fr tenv rest (i + 1) vars' (ex + 1) sk) := by
      intro w w'
      refine note ⟨rfl, rfl⟩ (executeItem hk hA hI hrec ht hi0 hv fun r v v' hv' => note ⟨rfl, rfl⟩ ?_)
      cases r with
      | none => exact ih hv'
      | some e => exact .ret _
    split
    · exact .ret _
    · split
      · exact note ⟨rfl, rfl⟩ (ih hv)
      · split
        · exact hgo _ _
        · refine readVars hv fun m m' hm => ?_
          rw [clear_evaluate hm c.env (clear_cond hi0)]
          split
          · exact .ret _
          · exact note ⟨rfl, rfl⟩ (ih hv)
          · exact hgo _ _

omit hk in
theorem runDeps {name : Str} {fr : Frame} {k k' : Prog} {ds : List Str} {i : Nat} (h : R k k') :
    R (Bab.runDeps rec name fr k ds i) (Bab.runDeps rec' name fr k' ds i) := by
  induction ds generalizing i with
  | nil => exact h
  | cons x ds ih =>
    unfold Bab.runDeps
    refine bind (hrec _ _ _) fun r => ?_
    cases r with
    | none => exact note ⟨rfl, rfl⟩ ih
    | some e => exact note ⟨rfl, rfl⟩ (.ret _)

include hA hI in
theorem executeTask {name : Str} {T : Task} (ht : ClearTask d.S T) {fr : Frame} :
    R (Bab.executeTask c tasks rec name T fr) (Bab.executeTask c tasks rec' name T fr) := by
  unfold Bab.executeTask
  refine .globals fun g g' hg => ?_
  have hb := both_placed T.line (vars_both (env := c.env) hg ht.vars)
  revert hb
  cases hvs : T.vars with
  | none =>
    intro _
    simp only [resolveVars]
    rw [placed_ok, placed_ok]
    dsimp only
    refine note ⟨rfl, rfl⟩ ?_
    rw [clear_env hg c.env fun p hp => ?_]
    · split
      · exact .ret _
      · exact executeItems hk hA hI hrec ht ht.run .global
    · obtain ⟨m, h1, h2⟩ := mem_merge hp
      simp only [List.mem_cons, List.not_mem_nil, or_false] at h1
      rcases h1 with rfl | rfl
      · exact hk.env p h2
      · exact ht.env p h2
  | some vs =>
    generalize placed T.line (resolveVars (some vs) g c.env) = a
    generalize placed T.line (resolveVars (some vs) g' c.env) = b
    rintro (e | hm)
    · exact .ret _
    · dsimp only
      refine note ⟨rfl, rfl⟩ ?_
      rw [clear_env hm c.env fun p hp => ?_]
      · split
        · exact .ret _
        · exact executeItems hk hA hI hrec ht ht.run (.own hm)
      · obtain ⟨m, h1, h2⟩ := mem_merge hp
        simp only [List.mem_cons, List.not_mem_nil, or_false] at h1
        rcases h1 with rfl | rfl
        · exact hk.env p h2
        · exact ht.env p h2

include hA hI in
theorem runTaskBody {fr : Frame} {isMain : Bool} {name : Str} :
    R (Bab.runTaskBody c tasks rec fr isMain name) (Bab.runTaskBody c tasks rec' fr isMain name) := by
  unfold Bab.runTaskBody
  cases hT : tasks.get? name with
  | none => exact .ret _
  | some T =>
    have ht := hk.tasks name T hT
    dsimp only
    have hfin : R (.act (.setDone name) fun _ => .ret none) (.act (.setDone name) fun _ => .ret none) := .plain (by exact trivial) fun _ => .ret _
    have hdeps : R
        (Bab.runDeps rec name fr
          (if T.run = [] then .act (.setDone name) fun _ => .ret none
           else (Bab.executeTask c tasks rec name T fr).bind fun
            | some e => .ret (some e)
            | none => .act (.setDone name) fun _ => .ret none) T.deps 0)
        (Bab.runDeps rec' name fr
          (if T.run = [] then .act (.setDone name) fun _ => .ret none
           else (Bab.executeTask c tasks rec' name T fr).bind fun
            | some e => .ret (some e)
            | none => .act (.setDone name) fun _ => .ret none) T.deps 0) := by
      refine runDeps hrec ?_
      split
      · exact hfin
      · refine bind (executeTask hk hA hI hrec ht) fun r => ?_
        cases r with
        | none => exact hfin
        | some e => exact .ret _
    have hgo : ∀ {A B : Prog}, R A B →
        R (if !c.dry && !isSilent [fr.ovSilent, T.silent, c.globalSilent] then .note (.echoTask name isMain fr.out) A else A)
          (if !c.dry && !isSilent [fr.ovSilent, T.silent, c.globalSilent] then .note (.echoTask name isMain fr.out) B else B) := by
      intro A B h
      split
      · exact note ⟨rfl, rfl⟩ h
      · exact h
    split
    · exact hgo hdeps
    · refine .globals fun g g' hg => ?_
      rw [clear_evaluate hg c.env ht.cond]
      split
      · exact .ret _
      · exact note ⟨rfl, rfl⟩ hfin
      · exact note ⟨rfl, rfl⟩ (hgo hdeps)

omit hrec in
include hA hI in
theorem runTask (fuel : Nat) (fr : Frame) (isMain : Bool) (name : Str) :
    R (Bab.runTask c tasks fuel fr isMain name) (Bab.runTask c tasks fuel fr isMain name) := by
  induction fuel generalizing fr isMain name with
  | zero => exact .plain (by exact trivial) fun _ => .ret _
  | succ fuel ih =>
    unfold Bab.runTask
    refine .plain (by exact trivial) fun s => ?_
    cases s with
    | none => exact bind (runTaskBody hk hA hI ih) fun r => note ⟨rfl, rfl⟩ (.ret _)
    | some s =>
      cases s with
      | done => exact .ret _
      | running => exact .plain (by exact trivial) fun x => .ret _

end

theorem filterMap_shown {d : Diff} {l l' : List Ev} (h : List.Forall₂ (V d) l l') : l.filterMap onScreen = l'.filterMap onScreen := by
  induction h with
  | nil => rfl
  | cons h _ ih => rw [List.filterMap_cons, List.filterMap_cons, h.1, ih]

theorem filterMap_answer {d : Diff} {l l' : List Ev} (h : List.Forall₂ (V d) l l') :
    l'.filterMap answer = (l.filterMap answer).map fun q => (q.1, d.A q.1 q.2) := by
  induction h with
  | nil => rfl
  | @cons a b _ _ h _ ih =>
    rw [List.filterMap_cons, List.filterMap_cons, h.2, ih]
    cases answer a <;> rfl

end Secret
end Bab
