import Verif.Spec.Edit
import Verif.Proof.RenRun
import Verif.Proof.Chain
/-
Programs that are equal apart from the lines in errors. A set of tasks and the same tasks reduced to what counts when they are run
give such programs.
-/

namespace Bab
open Spec

namespace Lines

/-- the two programs are equal apart from the lines in errors -/
inductive Rel : Prog → Prog → Prop
  | ret {r r' : Option Err} (h : r'.map unlinedErr = r.map unlinedErr) : Rel (.ret r) (.ret r')
  | act (a : Act) {k k' : a.Resp → Prog} (h : ∀ x, Rel (k x) (k' x)) : Rel (.act a k) (.act a k')
  | emit {e e' : Ev} {k k' : Unit → Prog} (he : unlinedEv e' = unlinedEv e) (h : ∀ x, Rel (k x) (k' x)) :
      Rel (.act (.emit e) k) (.act (.emit e') k')
  | prompt {loc p p'} {k k' : Except Err Str → Prog} (hp : p'.prompt = p.prompt) (h : ∀ x, Rel (k x) (k' x)) :
      Rel (.act (.prompt loc p) k) (.act (.prompt loc p') k')
  | par {lim ctx t it n} {st st' : BState n} {ps ps' : Fin n → Prog} {k k' : Option Err → Prog}
      (h1 : st.held = st'.held) (h2 : st.wg = st'.wg) (h3 : st.tag = st'.tag)
      (h4 : st'.first.map unlinedErr = st.first.map unlinedErr) (hp : ∀ i, Rel (ps i) (ps' i))
      (h : ∀ r r' : Option Err, r'.map unlinedErr = r.map unlinedErr → Rel (k r) (k' r')) :
      Rel (.par lim ctx t it n st ps k) (.par lim ctx t it n st' ps' k')

theorem Rel.symm {p q : Prog} (h : Rel p q) : Rel q p := by
  induction h with
  | ret h => exact .ret h.symm
  | act a _ ih => exact .act a ih
  | emit he _ ih => exact .emit he.symm ih
  | prompt hp _ ih => exact .prompt hp.symm ih
  | par h1 h2 h3 h4 _ _ ihp ih => exact .par h1.symm h2.symm h3.symm h4.symm ihp fun r r' hr => ih r' r hr.symm

theorem same_refl (σ : Shared) : SameButLines σ σ := ⟨rfl, rfl, rfl, rfl, rfl⟩

theorem same_symm {σ τ : Shared} (h : SameButLines σ τ) : SameButLines τ σ :=
  ⟨h.status.symm, h.gvars.symm, h.cancelled.symm, h.ctxs.symm, h.trace.symm⟩

theorem same_trans {σ τ υ : Shared} (h : SameButLines σ τ) (h' : SameButLines τ υ) : SameButLines σ υ :=
  ⟨h'.status.trans h.status, h'.gvars.trans h.gvars, h'.cancelled.trans h.cancelled, h'.ctxs.trans h.ctxs, h'.trace.trans h.trace⟩

theorem isCancelled {σ τ : Shared} (h : SameButLines σ τ) (c : CtxPath) : τ.isCancelled c = σ.isCancelled c := by
  unfold Shared.isCancelled
  rw [h.cancelled]

theorem grow {σ τ : Shared} (h : SameButLines σ τ) {es es' : List Ev} (he : es'.map unlinedEv = es.map unlinedEv) :
    SameButLines { σ with trace := σ.trace ++ es } { τ with trace := τ.trace ++ es' } :=
  ⟨h.status, h.gvars, h.cancelled, h.ctxs, by simp only [List.map_append, h.trace, he]⟩

theorem answers {σ τ : Shared} (h : SameButLines σ τ) {a : Act} {x : a.Resp} (hx : a.Answers σ x) : a.Answers τ x := by
  cases a with
  | claim n => exact Eq.trans hx (by rw [h.status])
  | status n => exact Eq.trans hx (by rw [h.status])
  | snapshot => exact Eq.trans hx h.status.symm
  | globals => exact Eq.trans hx h.gvars.symm
  | cancelled c => exact Eq.trans hx (isCancelled h c).symm
  | newCtx => exact Eq.trans hx h.ctxs.symm
  | start c loc spec => exact fun e => (isCancelled h c).trans (hx e)
  | _ => exact hx

theorem apply {σ τ : Shared} (h : SameButLines σ τ) (a : Act) (x : a.Resp) : SameButLines (a.apply σ x) (a.apply τ x) := by
  have he : SameButLines (a.effect σ x) (a.effect τ x) := by
    cases a with
    | claim n =>
      cases x with
      | none => exact ⟨by simp only [Act.effect, h.status], h.gvars, h.cancelled, h.ctxs, h.trace⟩
      | some s => exact h
    | setDone n => exact ⟨by simp only [Act.effect, h.status], h.gvars, h.cancelled, h.ctxs, h.trace⟩
    | setGlobal k v => exact ⟨h.status, by simp only [Act.effect, h.gvars], h.cancelled, h.ctxs, h.trace⟩
    | newCtx => exact ⟨h.status, h.gvars, h.cancelled, by simp only [Act.effect, h.ctxs], h.trace⟩
    | _ => exact h
  exact ⟨he.status, he.gvars, he.cancelled, he.ctxs, by simp only [Act.apply, List.map_append, h.trace]⟩

theorem upd_rel {n : Nat} {ps ps' : Fin n → Prog} (hp : ∀ i, Rel (ps i) (ps' i)) {i : Fin n} {p p' : Prog}
    (h : Rel p p') : ∀ j, Rel (upd ps i p j) (upd ps' i p' j) := by
  intro j
  unfold upd
  split
  · exact h
  · exact hp j

theorem once_rel {f f' r r' : Option Err} (h : f'.map unlinedErr = f.map unlinedErr) (h' : r'.map unlinedErr = r.map unlinedErr) :
    (once f' r').map unlinedErr = (once f r).map unlinedErr := by
  unfold once
  cases f <;> cases f' <;> simp_all

/-- a step of one program can be made by the other one -/
theorem step {p q : Prog} (hr : Rel p q) {σ σ' τ : Shared} {p' : Prog} (h : Step p σ p' σ') (hs : SameButLines σ τ) :
    ∃ q' τ', Step q τ q' τ' ∧ Rel p' q' ∧ SameButLines σ' τ' := by
  induction h generalizing q τ with
  | @act a k σ x hx =>
    cases hr with
    | act _ h => exact ⟨_, _, .act x (answers hs hx), h x, apply hs a x⟩
    | @emit e e' _ _ he h =>
      exact ⟨_, _, .act (a := .emit e') x trivial, h x, grow hs (by simp [Act.evs, he])⟩
    | @prompt loc p p' _ _ hp h =>
      exact ⟨_, _, .act (a := .prompt loc p') x hx, h x, grow hs (by simp [Act.evs, hp])⟩
  | acquire i h hl =>
    cases hr with
    | par h1 h2 h3 h4 hps hk =>
      exact ⟨_, _, .acquire i (h3 ▸ h) (h1 ▸ hl), .par (by simp only [h1]) h2 (by simp only [h3]) h4 hps hk, hs⟩
  | abort i h hl hc =>
    cases hr with
    | par h1 h2 h3 h4 hps hk =>
      exact ⟨_, _, .abort i (h3 ▸ h) hl ((isCancelled hs _).trans hc), .par h1 (by simp only [h2]) (by simp only [h3]) h4 hps hk,
        grow hs rfl⟩
  | child i h _ ih =>
    cases hr with
    | par h1 h2 h3 h4 hps hk =>
      obtain ⟨q', τ', g1, g2, g3⟩ := ih (hps i) hs
      exact ⟨_, _, .child i (h3 ▸ h) g1, .par h1 h2 h3 h4 (upd_rel hps g2) hk, g3⟩
  | finish i h hret =>
    cases hr with
    | @par _ _ _ _ _ _ _ _ ps' _ _ h1 h2 h3 h4 hps hk =>
      have hi := hps i
      rw [hret] at hi
      generalize hq : ps' i = q at hi
      cases hi with
      | ret he => exact ⟨_, _, .finish i (h3 ▸ h) hq, .par h1 h2 (by simp only [h3]) (once_rel h4 he) hps hk, hs⟩
  | release i h =>
    cases hr with
    | par h1 h2 h3 h4 hps hk =>
      exact ⟨_, _, .release i (h3 ▸ h), .par (by simp only [h1]) h2 (by simp only [h3]) h4 hps hk, hs⟩
  | wgDone i h =>
    cases hr with
    | par h1 h2 h3 h4 hps hk =>
      exact ⟨_, _, .wgDone i (h3 ▸ h), .par h1 (by simp only [h2]) (by simp only [h3]) h4 hps hk, hs⟩
  | join h =>
    cases hr with
    | par h1 h2 h3 h4 hps hk => exact ⟨_, _, .join (h2 ▸ h), hk _ _ h4, hs⟩

/-- whatever happens in the one execution can happen in the other one -/
theorem reach {p q : Prog} (hr : Rel p q) {σ τ : Shared} (hs : SameButLines σ τ) : CanAll ⟨p, σ⟩ ⟨q, τ⟩ := by
  intro s h
  have key : ∃ t, Reach ⟨q, τ⟩ t ∧ Rel s.prog t.prog ∧ SameButLines s.sh t.sh := by
    induction h with
    | refl => exact ⟨_, .refl, hr, hs⟩
    | @step t u _ hst ih =>
      obtain ⟨⟨q1, τ1⟩, h1, h2, h3⟩ := ih
      cases hst with
      | prog hp =>
        obtain ⟨q2, τ2, g1, g2, g3⟩ := step h2 hp h3
        exact ⟨_, h1.step (.prog g1), g2, g3⟩
      | @cancel p2 σ2 id hid =>
        refine ⟨_, h1.step (.cancel id (by have := h3.ctxs; simp only at this; omega)), h2, ?_⟩
        exact ⟨h3.status, h3.gvars, by have := h3.cancelled; simp only at this; simp only [this], h3.ctxs,
          by have := h3.trace; simp only at this; simp only [List.map_append, this]⟩
  obtain ⟨t, h1, h2, h3⟩ := key
  refine ⟨t, h1, h3, fun r he => ?_⟩
  rw [he] at h2
  generalize t.prog = q at h2
  cases h2 with
  | ret h => exact ⟨_, rfl, h⟩

theorem canAll_trans {s t u : State} (h : CanAll s t) (h' : CanAll t u) : CanAll s u := by
  intro s' hs
  obtain ⟨t', h1, h2, h3⟩ := h s' hs
  obtain ⟨u', g1, g2, g3⟩ := h' t' h1
  refine ⟨u', g1, same_trans h2 g2, fun r hr => ?_⟩
  obtain ⟨r1, k1, k2⟩ := h3 r hr
  obtain ⟨r2, k3, k4⟩ := g3 r1 k1
  exact ⟨r2, k3, k4.trans k2⟩

/-! ### lines in errors -/

theorem unlined_placed (l l' : Nat) (e : Err) : unlinedErr (e.placed l) = unlinedErr (e.placed l') := by
  induction e with
  | wrap w e ih => cases w <;> simp [Err.placed, unlinedErr, ih]
  | _ => rfl

theorem unlined_wrap (w : Where) {e e' : Err} (h : unlinedErr e' = unlinedErr e) : unlinedErr (.wrap w e') = unlinedErr (.wrap w e) := by
  cases w <;> simp [unlinedErr, h]

theorem items_map (items : List RunItem) : unlinedItems items = items.map unlinedItem := by
  induction items with
  | nil => rfl
  | cons a l ih => rw [unlinedItems, ih]; rfl

theorem item_platform (item : RunItem) (p : Str) : (unlinedItem item).onPlatform p = item.onPlatform p := by
  cases item <;> rfl

theorem item_cond (item : RunItem) : (unlinedItem item).cond = item.cond := by
  cases item <;> rfl

theorem label (items : List RunItem) (labels : List Str) (j : Nat) : itemLabel (unlinedItems items) labels j = itemLabel items labels j := by
  unfold itemLabel
  rw [items_map, List.getElem?_map]
  split
  · rfl
  · cases items[j]? with
    | none => rfl
    | some item => cases item <;> rfl

theorem bind {p q : Prog} {f g : Option Err → Prog} (h : Rel p q)
    (hf : ∀ r r' : Option Err, r'.map unlinedErr = r.map unlinedErr → Rel (f r) (g r')) : Rel (p.bind f) (q.bind g) := by
  induction h with
  | ret h => exact hf _ _ h
  | act a _ ih => exact .act a ih
  | emit he _ ih => exact .emit he ih
  | prompt hp _ ih => exact .prompt hp ih
  | par h1 h2 h3 h4 hp _ _ ih => exact .par h1 h2 h3 h4 hp ih

theorem note {e e' : Ev} {p q : Prog} (he : unlinedEv e' = unlinedEv e) (h : Rel p q) : Rel (.note e p) (.note e' q) :=
  .emit he fun _ => h

theorem andThen {p q : Prog} {w : Where} {f g : Prog} (h : Rel p q) (hf : Rel f g) :
    Rel (p.andThen (.wrap w) f) (q.andThen (.wrap w) g) :=
  bind h fun r r' hr => by
    cases r <;> cases r' <;> simp only [Option.map_none, Option.map_some, reduceCtorEq, Option.some.injEq] at hr
    · exact hf
    · exact .ret (by simp [unlined_wrap w hr])

theorem readVars {v : VarEnv} {k k' : GoMap Str → Prog} (h : ∀ m, Rel (k m) (k' m)) : Rel (readVars v k) (readVars v k') := by
  cases v with
  | own m => exact h m
  | global => exact .act _ h

theorem writeVar {v : VarEnv} {n x : Str} {k k' : VarEnv → Prog} (h : ∀ m, Rel (k m) (k' m)) :
    Rel (writeVar v n x k) (writeVar v n x k') := by
  cases v with
  | own m => exact h _
  | global => exact .act _ fun _ => h _

theorem err (e : Option Err) : Rel (.ret e) (.ret e) := .ret rfl

/-- related recursive calls -/
def RecRel (rec rec' : Rec) : Prop := ∀ fr b n, Rel (rec fr b n) (rec' fr b n)

theorem runProc (tn : Str) (fr : Frame) (loc : Loc) (spec : ProcSpec) : Rel (Bab.runProc tn fr loc spec) (Bab.runProc tn fr loc spec) := by
  refine .act _ fun (started : Bool) => ?_
  cases started with
  | true =>
    refine .act _ fun (r : Option Nat) => ?_
    cases r with
    | none => exact err _
    | some c => exact .act _ fun _ => err _
  | false => exact .act _ fun _ => err _

theorem prepare (c : Cfg) (T : Task) (v : CommandRun) (tenv m : GoMap Str) :
    prepareCommand c (core T) { v with line := 0 } tenv m = prepareCommand c T v tenv m := rfl

theorem executeCommand (c : Cfg) (T : Task) (fr : Frame) (loc : Loc) (v : CommandRun) (vars : VarEnv) (tenv : GoMap Str) :
    Rel (Bab.executeCommand c T fr loc v vars tenv) (Bab.executeCommand c (core T) fr loc { v with line := 0 } vars tenv) := by
  unfold Bab.executeCommand
  by_cases h : trimSpace v.cmd = []
  · rw [if_pos h, if_pos h]; exact err _
  · rw [if_neg h, if_neg h]
    refine readVars fun m => note rfl ?_
    rw [prepare]
    cases prepareCommand c T v tenv m with
    | error e => rw [placed_error, placed_error]; exact .ret (by simp [unlined_placed 0 v.line])
    | ok a =>
      obtain ⟨text, env, dir⟩ := a
      rw [placed_ok, placed_ok]
      dsimp only
      split
      · exact note rfl (err _)
      · show Rel (if isSilent [v.silent, fr.ovSilent, T.silent, c.globalSilent] then _ else _)
          (if isSilent [v.silent, fr.ovSilent, T.silent, c.globalSilent] then _ else _)
        split
        · exact runProc _ _ _ _
        · exact note rfl (runProc _ _ _ _)

section
variable {rec rec' : Rec} (hrec : RecRel rec rec')
include hrec

theorem executeRunItem (c : Cfg) (T : Task) (fr : Frame) (loc : Loc) (item : RunItem) (vars : VarEnv) (tenv : GoMap Str) :
    Rel (Bab.executeRunItem c rec T fr loc item vars tenv) (Bab.executeRunItem c rec' (core T) fr loc (unlinedItem item) vars tenv) := by
  unfold Bab.executeRunItem
  cases item with
  | command v => exact executeCommand c T fr loc v vars tenv
  | task t =>
    simp only [unlinedItem]
    split
    · exact note rfl (err _)
    · exact hrec _ _ _
  | log l =>
    simp only [unlinedItem]
    refine readVars fun m => note rfl ?_
    cases interpolate l.log ⟨m, c.env⟩ with
    | error e => rw [placed_error, placed_error]; exact .ret (by simp [unlined_placed 0 l.line])
    | ok text =>
      rw [placed_ok, placed_ok]
      dsimp only
      split <;> exact note rfl (err _)
  | prompt p => exact err _
  | parallel => exact err _

theorem preDeps (fr : Frame) {ds seen : List Str} {k k' : List Str → Prog} (hk : ∀ s, Rel (k s) (k' s)) :
    Rel (Bab.preDeps rec fr ds seen k) (Bab.preDeps rec' fr ds seen k') := by
  induction ds generalizing seen with
  | nil => exact hk seen
  | cons d ds ih =>
    unfold Bab.preDeps
    split
    · exact ih
    · refine .act _ fun (s : Option Status) => ?_
      show Rel (if s = some .done then _ else _) (if s = some .done then _ else _)
      split
      · exact ih
      · exact andThen (hrec _ _ _) ih

/-- the tasks reduced to what counts -/
def cores (tasks : TaskMap) : TaskMap := tasks.map fun q => (q.1, core q.2)

omit hrec in
theorem cores_get (tasks : TaskMap) (n : Str) : (cores tasks).get? n = (tasks.get? n).map core := by
  induction tasks with
  | nil => rfl
  | cons q l ih =>
    obtain ⟨k, T⟩ := q
    simp only [cores, List.map_cons, GoMap.get?] at ih ⊢
    split
    · rfl
    · exact ih

theorem preResolveDeps (tasks : TaskMap) (fr : Frame) {items : List RunItem} {seen : List Str} {k k' : Prog} (hk : Rel k k') :
    Rel (Bab.preResolveDeps tasks rec fr items seen k) (Bab.preResolveDeps (cores tasks) rec' fr (unlinedItems items) seen k') := by
  induction items generalizing seen with
  | nil => exact hk
  | cons item items ih =>
    cases item with
    | task t =>
      simp only [unlinedItems, unlinedItem]
      unfold Bab.preResolveDeps
      simp only [cores_get]
      cases tasks.get? t.task with
      | none => exact err _
      | some T => exact preDeps hrec fr fun s => ih
    | _ => exact ih

omit hrec in
theorem runBlock {lim : Nat} {ctx : CtxPath} {name : Str} {i : Nat} {items : List RunItem} {labels : List Str}
    {child child' : Nat → RunItem → Prog} (h : ∀ (j : Nat) item, Rel (child j item) (child' j (unlinedItem item))) :
    Rel (Bab.runBlock lim ctx name i items labels child) (Bab.runBlock lim ctx name i (unlinedItems items) labels child') := by
  unfold Bab.runBlock
  have hlen : items.length = (unlinedItems items).length := by rw [items_map, List.length_map]
  rw [Ren.par_cast hlen]
  refine .par rfl rfl rfl rfl (fun j => ?_) (fun r r' hr => note (by simp [unlinedEv, hr]) (.ret hr))
  refine note rfl (bind ?_ fun r r' hr => note (by simp [unlinedEv, hr]) (.ret ?_))
  · have : (unlinedItems items).get (j.cast hlen) = unlinedItem (items.get j) := by
      simp [items_map]
    rw [this]
    exact h _ _
  · rw [show ((Fin.cast hlen j : Fin _) : Nat) = (j : Nat) from rfl, label]
    cases r <;> cases r' <;> simp only [Option.map_none, Option.map_some, reduceCtorEq, Option.some.injEq] at hr ⊢
    exact unlined_wrap _ hr

theorem executeParallel (c : Cfg) (tasks : TaskMap) (name : Str) (T : Task) (fr : Frame) (i : Nat) (items : List RunItem)
    (labels : List Str) (mode : ParallelMode) (lim : Nat) (color silent output : Option Bool) (m tenv : GoMap Str) :
    Rel (executeParallel c tasks rec name T fr i items labels mode lim color silent output m tenv)
      (executeParallel c (cores tasks) rec' name (core T) fr i (unlinedItems items) labels mode lim color silent output m tenv) := by
  unfold Bab.executeParallel
  refine preResolveDeps hrec tasks _ ?_
  have hchild : ∀ (fr : Frame) (j : Nat) (item : RunItem),
      Rel (Bab.executeRunItem c rec T fr ⟨name, i, some j⟩ item (.own m) tenv)
        (Bab.executeRunItem c rec' (core T) fr ⟨name, i, some j⟩ (unlinedItem item) (.own m) tenv) :=
    fun fr j item => executeRunItem hrec _ _ _ _ _ _ _
  have htui : ∀ fr : Frame, Rel (executeParallelTUI c rec name T fr i items labels lim m tenv)
      (executeParallelTUI c rec' name (core T) fr i (unlinedItems items) labels lim m tenv) := by
    intro fr
    unfold executeParallelTUI
    simp only
    split
    · exact note rfl (runBlock fun j item => hchild _ j item)
    · refine .act _ fun _ => .act _ fun (ok : Bool) => ?_
      cases ok with
      | true => exact note rfl (runBlock fun j item => hchild _ j item)
      | false => exact err _
  have hint : ∀ fr : Frame, Rel (executeParallelInterleaved c rec name T fr i items labels lim m tenv)
      (executeParallelInterleaved c rec' name (core T) fr i (unlinedItems items) labels lim m tenv) :=
    fun fr => note rfl (runBlock fun j item => hchild _ j item)
  cases c.dry with
  | true => exact note rfl (err _)
  | false =>
    simp only [Bool.false_eq_true, if_false]
    split
    · exact htui _
    · exact hint _

omit hrec in
theorem interpolatePrompt_line (p : PromptRun) (x : Ctx) :
    interpolatePrompt { p with line := 0 } x = (interpolatePrompt p x).map fun p' => { p' with line := 0 } := by
  unfold interpolatePrompt
  simp only [Bind.bind, Except.bind, pure, Except.pure]
  cases interpolate p.message x with
  | error e => rfl
  | ok a =>
    dsimp only
    cases interpolateOpt x p.default with
    | error e => rfl
    | ok a =>
      dsimp only
      cases interpolateOpt x p.placeholder with
      | error e => rfl
      | ok a =>
        dsimp only
        cases interpolateList x p.options with
        | error e => rfl
        | ok a =>
          dsimp only
          cases interpolateList x p.defaults with
          | error e => rfl
          | ok a => rfl

omit hrec in
theorem executePrompt {tn : Str} {c : Cfg} {loc : Loc} {p : PromptRun} {vars : VarEnv} {k k' : Option Err → VarEnv → Prog}
    (hk : ∀ (r r' : Option Err) v, r'.map unlinedErr = r.map unlinedErr → Rel (k r v) (k' r' v)) :
    Rel (Bab.executePrompt c tn loc p vars k) (Bab.executePrompt c tn loc { p with line := 0 } vars k') := by
  unfold Bab.executePrompt
  refine readVars fun m => note rfl ?_
  rw [interpolatePrompt_line]
  cases interpolatePrompt p ⟨m, c.env⟩ with
  | error e =>
    simp only [Except.map, placed_error]
    exact hk _ _ _ (by simp [unlined_placed 0 p.line])
  | ok p' =>
    simp only [Except.map, placed_ok]
    have hgot : ∀ r : Except Err Str,
        Rel (match r with
          | .error e => k (some (.wrap (.prompt tn p.prompt) e)) vars
          | .ok ans => Bab.writeVar vars p.prompt ans (k none))
        (match r with
          | .error e => k' (some (.wrap (.prompt tn p.prompt) e)) vars
          | .ok ans => Bab.writeVar vars p.prompt ans (k' none)) := by
      intro r
      cases r with
      | error e => exact hk _ _ _ rfl
      | ok a => exact writeVar (fun m => hk _ _ _ rfl)
    split
    · exact note rfl (hk _ _ _ rfl)
    · split
      · exact .prompt rfl hgot
      · exact note rfl (hgot _)

theorem executeItem (c : Cfg) (tasks : TaskMap) (name : Str) (T : Task) (fr : Frame) (i : Nat) (item : RunItem) (vars : VarEnv)
    (tenv : GoMap Str) {k k' : Option Err → VarEnv → Prog}
    (hk : ∀ (r r' : Option Err) v, r'.map unlinedErr = r.map unlinedErr → Rel (k r v) (k' r' v)) :
    Rel (Bab.executeItem c tasks rec name T fr i item vars tenv k)
      (Bab.executeItem c (cores tasks) rec' name (core T) fr i (unlinedItem item) vars tenv k') := by
  have hrun := executeRunItem hrec c T fr ⟨name, i, none⟩ item vars tenv
  unfold Bab.executeItem
  cases item with
  | prompt p => exact executePrompt hk
  | parallel items labels mode lim color silent output pl w ln =>
    simp only [unlinedItem]
    split
    · exact note rfl (hk _ _ _ rfl)
    · exact readVars fun m => bind (executeParallel hrec _ _ _ _ _ _ _ _ _ _ _ _ _ _ _) fun r r' hr => hk _ _ _ hr
  | command v => exact bind hrun fun r r' hr => hk _ _ _ hr
  | log l => exact bind hrun fun r r' hr => hk _ _ _ hr
  | task t => exact bind hrun fun r r' hr => hk _ _ _ hr

theorem executeItems (c : Cfg) (tasks : TaskMap) (name : Str) (T : Task) (fr : Frame) (tenv : GoMap Str) {items : List RunItem} {i : Nat}
    {vars : VarEnv} {ex sk : Nat} :
    Rel (Bab.executeItems c tasks rec name T fr tenv items i vars ex sk)
      (Bab.executeItems c (cores tasks) rec' name (core T) fr tenv (unlinedItems items) i vars ex sk) := by
  induction items generalizing i vars ex sk with
  | nil =>
    simp only [unlinedItems]
    unfold Bab.executeItems
    split <;> exact err _
  | cons item rest ih =>
    simp only [unlinedItems]
    unfold Bab.executeItems
    refine .act _ fun (b : Bool) => ?_
    simp only [item_platform, item_cond]
    have hgo : ∀ w : Option (GoMap Str),
        Rel (.note (.itemStart name i w) <|
          Bab.executeItem c tasks rec name T fr i item vars tenv fun r vars' =>
            .note (.itemEnd name i r) <|
            match r with
            | some e => .ret (some e)
            | none => Bab.executeItems c tasks rec name T fr tenv rest (i + 1) vars' (ex + 1) sk)
        (.note (.itemStart name i w) <|
          Bab.executeItem c (cores tasks) rec' name (core T) fr i (unlinedItem item) vars tenv fun r vars' =>
            .note (.itemEnd name i r) <|
            match r with
            | some e => .ret (some e)
            | none => Bab.executeItems c (cores tasks) rec' name (core T) fr tenv (unlinedItems rest) (i + 1) vars' (ex + 1) sk) := by
      intro w
      refine note rfl (executeItem hrec _ _ _ _ _ _ _ _ _ fun r r' v hr => note (by simp [unlinedEv, hr]) ?_)
      cases r <;> cases r' <;> simp only [Option.map_none, Option.map_some, reduceCtorEq, Option.some.injEq] at hr ⊢
      · exact ih
      · exact .ret (by simp [hr])
    cases b with
    | true => exact err _
    | false =>
      simp only [Bool.false_eq_true, if_false]
      split
      · exact note rfl ih
      · split
        · exact hgo none
        · refine readVars fun m => ?_
          cases evaluate item.cond ⟨m, c.env⟩ with
          | error e =>
            rw [placed_error, placed_error]
            exact .ret (congrArg some (unlined_wrap _ (unlined_placed _ _ e)))
          | ok b =>
            rw [placed_ok, placed_ok]
            cases b with
            | false => exact note rfl ih
            | true => exact hgo _

theorem runDeps (name : Str) (fr : Frame) {k k' : Prog} {ds : List Str} {i : Nat} (hk : Rel k k') :
    Rel (Bab.runDeps rec name fr k ds i) (Bab.runDeps rec' name fr k' ds i) := by
  induction ds generalizing i with
  | nil => exact hk
  | cons d ds ih =>
    unfold Bab.runDeps
    refine bind (hrec _ _ _) fun r r' hr => ?_
    cases r <;> cases r' <;> simp only [Option.map_none, Option.map_some, reduceCtorEq, Option.some.injEq] at hr ⊢
    · exact note rfl ih
    · exact note (by simp [unlinedEv, hr]) (.ret (by simp [unlined_wrap _ hr]))

theorem runTaskBody (c : Cfg) (tasks : TaskMap) (fr : Frame) (isMain : Bool) (name : Str) :
    Rel (Bab.runTaskBody c tasks rec fr isMain name) (Bab.runTaskBody c (cores tasks) rec' fr isMain name) := by
  unfold Bab.runTaskBody
  rw [cores_get]
  cases tasks.get? name with
  | none => exact err _
  | some T =>
    simp only [Option.map_some]
    have hfin : Rel (.act (.setDone name) fun _ => .ret none) (.act (.setDone name) fun _ => .ret none) := .act _ fun _ => err _
    have hnil : (core T).run = [] ↔ T.run = [] := by
      show unlinedItems T.run = [] ↔ _
      rw [items_map]; simp
    have hdeps : Rel
        (Bab.runDeps rec name fr
          (if T.run = [] then .act (.setDone name) fun _ => .ret none
           else (Bab.executeTask c tasks rec name T fr).bind fun
            | some e => .ret (some e)
            | none => .act (.setDone name) fun _ => .ret none) T.deps 0)
        (Bab.runDeps rec' name fr
          (if (core T).run = [] then .act (.setDone name) fun _ => .ret none
           else (Bab.executeTask c (cores tasks) rec' name (core T) fr).bind fun
            | some e => .ret (some e)
            | none => .act (.setDone name) fun _ => .ret none) (core T).deps 0) := by
      refine runDeps hrec _ _ ?_
      by_cases h : T.run = []
      · rw [if_pos h, if_pos (hnil.mpr h)]; exact hfin
      · rw [if_neg h, if_neg (fun h' => h (hnil.mp h'))]
        refine bind ?_ fun r r' hr => by
          cases r <;> cases r' <;> simp only [Option.map_none, Option.map_some, reduceCtorEq, Option.some.injEq] at hr ⊢
          · exact hfin
          · exact .ret (by simp [hr])
        unfold Bab.executeTask
        refine .act _ fun (g : GoMap Str) => ?_
        show Rel _ (match placed 0 (resolveVars T.vars g c.env) with | .error e => _ | .ok m => _)
        cases resolveVars T.vars g c.env with
        | error e => rw [placed_error, placed_error]; exact .ret (by simp [unlined_placed 0 T.line])
        | ok m =>
          rw [placed_ok, placed_ok]
          refine note rfl ?_
          show Rel _ (match placed 0 (interpolateEnv ⟨m, c.env⟩ (mergeEnvMaps [c.globalEnv, T.env])) with | .error e => _ | .ok tenv => _)
          cases interpolateEnv ⟨m, c.env⟩ (mergeEnvMaps [c.globalEnv, T.env]) with
          | error e => rw [placed_error, placed_error]; exact .ret (by simp [unlined_placed 0 T.line])
          | ok tenv => rw [placed_ok, placed_ok]; exact executeItems hrec _ _ _ _ _ _
    have hgo : ∀ {A B : Prog}, Rel A B →
        Rel (if !c.dry && !isSilent [fr.ovSilent, T.silent, c.globalSilent] then .note (.echoTask name isMain fr.out) A else A)
          (if !c.dry && !isSilent [fr.ovSilent, T.silent, c.globalSilent] then .note (.echoTask name isMain fr.out) B else B) := by
      intro A B h
      split
      · exact note rfl h
      · exact h
    show Rel _ (if T.cond = [] then _ else _)
    split
    · exact hgo hdeps
    · refine .act _ fun (g : GoMap Str) => ?_
      show Rel _ (match placed 0 (evaluate T.cond ⟨g, c.env⟩) with | .error e => _ | .ok false => _ | .ok true => _)
      cases evaluate T.cond ⟨g, c.env⟩ with
      | error e => rw [placed_error, placed_error]; exact .ret (by simp [unlined_wrap _ (unlined_placed 0 T.line e)])
      | ok b =>
        rw [placed_ok, placed_ok]
        cases b with
        | false => exact note rfl hfin
        | true => exact note rfl (hgo hdeps)

end

theorem chain_cores (current : Str) (tasks : TaskMap) (state : GoMap Status) :
    buildChain current (cores tasks) state = buildChain current tasks state := by
  unfold buildChain
  have : (cores tasks).length = tasks.length := by simp [cores]
  rw [this]
  congr 1
  have key : ∀ fuel chain seen, chainLoop current (cores tasks) state fuel chain seen = chainLoop current tasks state fuel chain seen := by
    intro fuel
    induction fuel with
    | zero => intros; rfl
    | succ fuel ih =>
      intro chain seen
      unfold chainLoop
      simp only [cores_get, ih]
      cases tasks.get? (chain.getLast?.getD []) <;> rfl
  exact key _ _ _

theorem runTask (c : Cfg) (tasks : TaskMap) (fuel : Nat) : RecRel (Bab.runTask c tasks fuel) (Bab.runTask c (cores tasks) fuel) := by
  induction fuel with
  | zero => intro fr b n; exact .act _ fun _ => err _
  | succ fuel ih =>
    intro fr b n
    unfold Bab.runTask
    refine .act _ fun (s : Option Status) => ?_
    cases s with
    | none => exact bind (runTaskBody ih _ _ _ _ _) fun r r' hr => note (by simp [unlinedEv, hr]) (.ret hr)
    | some s =>
      cases s with
      | done => exact err _
      | running =>
        refine .act _ fun (st : GoMap Status) => ?_
        rw [chain_cores]
        exact err _

theorem start_cores (c : Cfg) (tasks : TaskMap) (main : Str) :
    Rel (runWithTasks c tasks main) (runWithTasks c (cores tasks) main) := by
  unfold runWithTasks
  have : (cores tasks).length = tasks.length := by simp [cores]
  rw [this]
  exact runTask c tasks _ _ _ _

end Lines
end Bab
