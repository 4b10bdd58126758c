import Verif.Proof.Ren
import Verif.Proof.ResolveVars
import Verif.Props.Interpolate
/-
The programs of the runner for two sets of tasks that are the same apart from names are related.
-/

namespace Bab
open Spec

/-! ### texts with equal maps of variables -/

theorem interpolate_mapEq {m m' : GoMap Str} (h : MapEq m m') (env : Str → Option Str) (t : Str) :
    interpolate t ⟨m, env⟩ = interpolate t ⟨m', env⟩ := interpolate_congr fun n _ _ => h n

theorem interpolateEnv_mapEq {m m' : GoMap Str} (h : MapEq m m') (env : Str → Option Str) (l : GoMap Str) :
    interpolateEnv ⟨m, env⟩ l = interpolateEnv ⟨m', env⟩ l := by
  induction l with
  | nil => rfl
  | cons q l ih =>
    obtain ⟨k, v⟩ := q
    simp only [interpolateEnv]
    rw [interpolate_mapEq h, ih]

theorem interpolateList_mapEq {m m' : GoMap Str} (h : MapEq m m') (env : Str → Option Str) (l : List Str) :
    interpolateList ⟨m, env⟩ l = interpolateList ⟨m', env⟩ l := by
  induction l with
  | nil => rfl
  | cons s l ih =>
    simp only [interpolateList]
    rw [interpolate_mapEq h, ih]

theorem interpolateOpt_mapEq {m m' : GoMap Str} (h : MapEq m m') (env : Str → Option Str) (t : Str) :
    interpolateOpt ⟨m, env⟩ t = interpolateOpt ⟨m', env⟩ t := by
  unfold interpolateOpt
  rw [interpolate_mapEq h]

theorem interpolatePrompt_mapEq {m m' : GoMap Str} (h : MapEq m m') (env : Str → Option Str) (p : PromptRun) :
    interpolatePrompt p ⟨m, env⟩ = interpolatePrompt p ⟨m', env⟩ := by
  unfold interpolatePrompt
  rw [interpolate_mapEq h, interpolateOpt_mapEq h, interpolateOpt_mapEq h, interpolateList_mapEq h, interpolateList_mapEq h]

theorem evaluate_mapEq {m m' : GoMap Str} (h : MapEq m m') (env : Str → Option Str) (t : Str) :
    evaluate t ⟨m, env⟩ = evaluate t ⟨m', env⟩ := by
  unfold evaluate
  rw [interpolate_mapEq h]

theorem MapEq.set {m m' : GoMap Str} (h : MapEq m m') (k v : Str) : MapEq (m.set k v) (m'.set k v) := by
  intro x
  rw [GoMap.get?_set, GoMap.get?_set, h x]

namespace Ren

/-- the two runners are the same apart from the settings of the file -/
structure CRel (c c' : Cfg) : Prop where
  dry : c'.dry = c.dry
  platform : c'.platform = c.platform
  env : c'.env = c.env
  environ : c'.environ = c.environ
  stat : c'.stat = c.stat
  stderrTTY : c'.stderrTTY = c.stderrTTY
  stdinTTY : c'.stdinTTY = c.stdinTTY

/-- the two tasks mean the same, each with its runner and its global variables -/
structure TRel (g : Str → Str) (c c' : Cfg) (G G' : GoMap Str) (T T' : Task) : Prop where
  name : T'.name = g T.name
  source : T'.sourcePath = T.sourcePath
  dir : (if T'.dir = [] then c'.globalDir else T'.dir) = (if T.dir = [] then c.globalDir else T.dir)
  silent : firstNonNil [T'.silent, c'.globalSilent] = firstNonNil [T.silent, c.globalSilent]
  output : firstNonNil [T'.output, c'.globalOutput] = firstNonNil [T.output, c.globalOutput]
  line : T'.line = T.line
  cond : T'.cond = T.cond
  holds : T.cond ≠ [] → evaluate T.cond ⟨G', c.env⟩ = evaluate T.cond ⟨G, c.env⟩
  deps : T'.deps = T.deps.map g
  run : T'.run = renameItems g T.run
  env : mergeEnvMaps [c'.globalEnv, T'.env] = mergeEnvMaps [c.globalEnv, T.env]
  own : T'.vars ≠ none
  vars : (∃ m m', resolveVars T.vars G c.env = .ok m ∧ resolveVars T'.vars G' c.env = .ok m' ∧ MapEq m m') ∨
    ∃ e e', resolveVars T.vars G c.env = .error e ∧ resolveVars T'.vars G' c.env = .error e' ∧ ErrRel g e e'
  asks : T.vars = none → ∀ p, .prompt p ∉ T.run

/-- the variables of the two tasks -/
inductive VRel (G : GoMap Str) : VarEnv → VarEnv → Prop
  | own {m m'} (h : MapEq m m') : VRel G (.own m) (.own m')
  | global {m'} (h : MapEq G m') : VRel G .global (.own m')

theorem endRel_none {g : Str → Str} {r r' : Option Err} (h : EndRel g r r') : r = none ↔ r' = none := by
  cases h <;> simp

/-- names changed by `g` -/
def by_ (g : Str → Str) (hg : ∀ a b, g a = g b → a = b) (G G' : GoMap Str) : Diff where
  E := EndRel g
  V := EvRel g
  N a a' := a' = g a
  G := G
  G' := G'
  inj := by
    rintro a a' b b' rfl rfl
    exact ⟨fun h => by rw [h], fun h => hg _ _ h⟩
  ends := endRel_none
  canc := .cancel

section
variable {g : Str → Str} {hg : ∀ a b, g a = g b → a = b} {G G' : GoMap Str}

local notation "R" => Rel (by_ g hg G G')

theorem err {e : Err} (h : Nameless e) : R (.ret (some e)) (.ret (some e)) := .ret (.fail (.same e h))

theorem nameless_interpolate {t : Str} {x : Ctx} {e : Err} (h : interpolate t x = .error e) : Nameless e := by
  obtain ⟨ts, hr⟩ := reads_exists t
  obtain ⟨x, rfl, -⟩ := (C02_interpolate_error_iff x t ts hr e).mp h
  trivial

theorem nameless_placed {α : Type} {l : Nat} {r : Except Err α} {e : Err} (h : placed l r = .error e)
    (hr : ∀ {e'}, r = .error e' → Nameless e') : Nameless e := by
  obtain ⟨e', he, rfl⟩ := of_placed_error h
  have := hr he
  clear he h
  induction e' with
  | wrap w e ih => cases w <;> first | exact ih this | exact this
  | _ => exact this

theorem rel_placed {g : Str → Str} {e e' : Err} (h : ErrRel g e e') (l : Nat) : ErrRel g (e.placed l) (e'.placed l) := by
  induction h with
  | same e h => exact .same _ (nameless_placed (r := (.error e : Except Err Unit)) (placed_error l e) fun h' => by cases h'; exact h)
  | notFound n => exact .notFound n
  | unknown n => exact .unknown n
  | noItems n => exact .noItems n
  | emptyCmd n => exact .emptyCmd n
  | @defs e e' h h' =>
    have hp : ∀ {e}, VarErr e → e.placed l = .wrap (.place l) e := by
      rintro e (⟨_, _, rfl⟩ | ⟨_, rfl⟩) <;> rfl
    rw [hp h, hp h']
    exact .wrap (.place l) (.defs h h')
  | circular c c' => exact .circular c c'
  | wrap w _ ih => exact .wrap w ih
  | label l _ ih => exact .label l ih
  | asked t p e => exact .asked t p _

theorem nameless_env {x : Ctx} {m : GoMap Str} {e : Err} (h : interpolateEnv x m = .error e) : Nameless e := by
  induction m with
  | nil => cases h
  | cons q m ih =>
    obtain ⟨k, v⟩ := q
    unfold interpolateEnv at h
    split at h
    · next he => cases h; exact nameless_interpolate he
    · split at h
      · next he => cases h; exact ih he
      · cases h

theorem nameless_list {x : Ctx} {l : List Str} {e : Err} (h : interpolateList x l = .error e) : Nameless e := by
  induction l with
  | nil => cases h
  | cons t l ih =>
    unfold interpolateList at h
    split at h
    · next he => cases h; exact nameless_interpolate he
    · split at h
      · next he => cases h; exact ih he
      · cases h

theorem nameless_opt {x : Ctx} {t : Str} {e : Err} (h : interpolateOpt x t = .error e) : Nameless e := by
  unfold interpolateOpt at h
  split at h
  · cases h
  · exact nameless_interpolate h

theorem nameless_prompt {x : Ctx} {p : PromptRun} {e : Err} (h : interpolatePrompt p x = .error e) : Nameless e := by
  unfold interpolatePrompt at h
  simp only [Bind.bind, Except.bind, Pure.pure, Except.pure] at h
  split at h
  · next he => cases h; exact nameless_interpolate he
  · split at h
    · next he => cases h; exact nameless_opt he
    · split at h
      · next he => cases h; exact nameless_opt he
      · split at h
        · next he => cases h; exact nameless_list he
        · split at h
          · next he => cases h; exact nameless_list he
          · cases h

theorem nameless_evaluate {t : Str} {x : Ctx} {e : Err} (h : evaluate t x = .error e) : Nameless e := by
  unfold evaluate at h
  split at h
  · cases h
  · split at h
    · rename_i e' he; cases h; exact (nameless_interpolate he : Nameless e')
    · cases h

theorem nameless_dir {c : Cfg} {T : Task} {t : Str} {x : Ctx} {e : Err} (h : resolveDir c T t x = .error e) : Nameless e := by
  unfold resolveDir at h
  dsimp only at h
  generalize (if t = [] then T.dir else t) = d at h
  generalize (if d = [] then c.globalDir else d) = d at h
  by_cases hd : d = []
  · rw [if_pos hd] at h; cases h
  · rw [if_neg hd] at h
    cases hi : interpolate d x with
    | error e' => rw [hi] at h; cases h; exact (nameless_interpolate hi : Nameless e')
    | ok y =>
      rw [hi] at h
      dsimp only at h
      split at h
      · cases h
      · cases h; trivial

theorem note {e e' : Ev} {p q : Prog} (he : EvRel g e e') (h : R p q) : R (.note e p) (.note e' q) :=
  .emit he fun _ => h

theorem bind {p q : Prog} {f f' : Option Err → Prog} (h : R p q) (hf : ∀ r r', EndRel g r r' → R (f r) (f' r')) :
    R (p.bind f) (q.bind f') := by
  induction h with
  | ret h => exact hf _ _ h
  | claim hn he _ ih => exact .claim hn he ih
  | setDone hn he _ ih => exact .setDone hn he ih
  | status hn _ ih => exact .status hn ih
  | snapshot _ ih => exact .snapshot ih
  | globalsL _ ih => exact .globalsL ih
  | globalsR _ ih => exact .globalsR ih
  | cancelled _ ih => exact .cancelled ih
  | newCtx _ ih => exact .newCtx ih
  | start he hf _ ih => exact .start he hf ih
  | wait he _ ih => exact .wait he ih
  | prompt he _ ih => exact .prompt he ih
  | tui he _ ih => exact .tui he ih
  | emit he _ ih => exact .emit he ih
  | fuel _ ih => exact .fuel ih
  | par he h1 h2 h3 h4 hp _ _ ih => exact .par he h1 h2 h3 h4 hp ih

theorem andThen {p q : Prog} (w : Where) {f f' : Prog} (h : R p q) (hf : R f f') :
    R (p.andThen (.wrap w) f) (q.andThen (.wrap (renWhere g w)) f') :=
  bind h fun r r' hr => by
    cases hr with
    | ok => exact hf
    | fail h => exact .ret (.fail (.wrap _ h))

theorem readVars {v v' : VarEnv} (hv : VRel G v v') {k k' : GoMap Str → Prog} (h : ∀ m m', MapEq m m' → R (k m) (k' m')) :
    R (readVars v k) (readVars v' k') := by
  cases hv with
  | own he => exact h _ _ he
  | global he => exact .globalsL (h _ _ he)

theorem runProc {tn : Str} {fr : Frame} {loc : Loc} {spec : ProcSpec} :
    R (Bab.runProc tn fr loc spec) (Bab.runProc (g tn) fr (renLoc g loc) spec) := by
  have hf : ∀ code : Nat, R (.act (.cancelled fr.ctx) fun (b : Bool) =>
        .ret (some (.wrap (.command tn spec.cmd) (if b then .canceled else .exit code))))
      (.act (.cancelled fr.ctx) fun (b : Bool) =>
        .ret (some (.wrap (.command (g tn) spec.cmd) (if b then .canceled else .exit code)))) :=
    fun code => .cancelled (fun b => .ret (.fail (.wrap (.command tn spec.cmd) (.same _ (by cases b <;> trivial)))))
  refine .start (.procStart _ _) (.procFail _) (fun started => ?_)
  cases started with
  | true =>
    refine .wait (fun x => .procEnd _ _) (fun r => ?_)
    cases r with
    | none => exact .ret .ok
    | some code => exact hf code
  | false => exact hf 127

theorem isSilent_first (l l' r r' : List (Option Bool)) (hl : l = l') (h : firstNonNil r = firstNonNil r') :
    isSilent (l ++ r) = isSilent (l' ++ r') := by
  subst hl
  have key : ∀ l : List (Option Bool), isSilent l = (firstNonNil l).getD false := by
    intro l
    induction l with
    | nil => rfl
    | cons a l ih => cases a <;> simp [isSilent, firstNonNil, ih]
  induction l with
  | nil => simp only [List.nil_append]; rw [key, key, h]
  | cons a l ih => cases a <;> simp [isSilent, ih]

theorem isOutput_first (l l' r r' : List (Option Bool)) (hl : l = l') (h : firstNonNil r = firstNonNil r') :
    isOutput (l ++ r) = isOutput (l' ++ r') := by
  subst hl
  have key : ∀ l : List (Option Bool), isOutput l = (firstNonNil l).getD true := by
    intro l
    induction l with
    | nil => rfl
    | cons a l ih => cases a <;> simp [isOutput, firstNonNil, ih]
  induction l with
  | nil => simp only [List.nil_append]; rw [key, key, h]
  | cons a l ih => cases a <;> simp [isOutput, ih]

variable {c c' : Cfg} (hc : CRel c c')
include hc

theorem prepareCommand_rel {T T' : Task} (ht : TRel g c c' G G' T T') {m m' : GoMap Str} (hm : MapEq m m') (v : CommandRun)
    (tenv : GoMap Str) :
    (∃ e e', prepareCommand c T v tenv m = .error e ∧ prepareCommand c' T' v tenv m' = .error e' ∧ ErrRel g e e') ∨
    ∃ x, prepareCommand c T v tenv m = .ok x ∧ prepareCommand c' T' v tenv m' = .ok x := by
  have hdir : resolveDir c T v.dir ⟨m, c.env⟩ = resolveDir c' T' v.dir ⟨m', c.env⟩ := by
    unfold resolveDir
    rw [ht.source, hc.stat]
    have : (if (if v.dir = [] then T'.dir else v.dir) = [] then c'.globalDir else if v.dir = [] then T'.dir else v.dir) =
        (if (if v.dir = [] then T.dir else v.dir) = [] then c.globalDir else if v.dir = [] then T.dir else v.dir) := by
      by_cases h : v.dir = []
      · simp only [h, if_true]; exact ht.dir
      · simp only [h, if_false]
    simp only [this, interpolate_mapEq hm]
  unfold prepareCommand
  rw [hc.env, ← interpolate_mapEq hm, ← interpolateEnv_mapEq hm, ← hdir, ht.name]
  cases h1 : interpolate v.cmd ⟨m, c.env⟩ with
  | error e => exact .inl ⟨e, e, rfl, rfl, .same e (nameless_interpolate h1)⟩
  | ok text =>
    dsimp only
    cases h2 : interpolateEnv ⟨m, c.env⟩ (mergeEnvMaps [tenv, v.env]) with
    | error e => exact .inl ⟨e, e, rfl, rfl, .same e (nameless_env h2)⟩
    | ok env =>
      dsimp only
      cases h3 : resolveDir c T v.dir ⟨m, c.env⟩ with
      | error e => exact .inl ⟨_, _, rfl, rfl, .wrap (.dirOf T.name v.cmd) (.same e (nameless_dir h3))⟩
      | ok dir => exact .inr ⟨_, rfl, rfl⟩

theorem procSpec_eq {T T' : Task} (ht : TRel g c c' G G' T T') (fr : Frame) (v : CommandRun) (text : Str) (env : GoMap Str)
    (dir : Str) : procSpec c fr T v text env dir = procSpec c' fr T' v text env dir := by
  unfold procSpec
  have h := isOutput_first [v.output, fr.ovOutput] _ _ _ rfl ht.output
  simp only [List.cons_append, List.nil_append] at h
  rw [h, hc.environ, hc.platform]

theorem executeCommand {T T' : Task} (ht : TRel g c c' G G' T T') {fr : Frame} {loc : Loc} {v : CommandRun} {vars vars' : VarEnv}
    (hv : VRel G vars vars') {tenv : GoMap Str} :
    R (Bab.executeCommand c T fr loc v vars tenv) (Bab.executeCommand c' T' fr (renLoc g loc) v vars' tenv) := by
  unfold Bab.executeCommand
  split
  · rw [ht.name]; exact .ret (.fail (.emptyCmd _))
  · refine readVars hv fun m m' hm => note (.sees _ hm) ?_
    rcases prepareCommand_rel hc ht hm v tenv with ⟨e, e', h1, h2, he⟩ | ⟨⟨text, env, dir⟩, h1, h2⟩
    · rw [h1, h2, placed_error, placed_error]
      exact .ret (.fail (rel_placed he _))
    · rw [h1, h2, placed_ok]
      dsimp only
      rw [hc.dry, ← procSpec_eq hc ht]
      split
      · exact note (.wouldRun _ _) (.ret .ok)
      · have h := isSilent_first [v.silent, fr.ovSilent] _ _ _ rfl ht.silent
        simp only [List.cons_append, List.nil_append] at h
        simp only [h]
        split
        · rw [ht.name]; exact runProc
        · rw [ht.name]; exact note (.echoCmd _ _ _) runProc

variable {rec rec' : Rec} (hrec : ∀ fr b n, Rel (by_ g hg G G') (rec fr b n) (rec' fr b (g n)))
include hrec

theorem executeRunItem {T T' : Task} (ht : TRel g c c' G G' T T') {fr : Frame} {loc : Loc} {item : RunItem} {vars vars' : VarEnv}
    (hv : VRel G vars vars') {tenv : GoMap Str} :
    R (Bab.executeRunItem c rec T fr loc item vars tenv)
      (Bab.executeRunItem c' rec' T' fr (renLoc g loc) (renameItem g item) vars' tenv) := by
  unfold Bab.executeRunItem
  cases item with
  | command v => exact executeCommand hc ht hv
  | task t =>
    simp only [renameItem]
    rw [hc.dry]
    split
    · exact note (.wouldTask _ _) (.ret .ok)
    · exact hrec _ _ _
  | log l =>
    simp only [renameItem]
    refine readVars hv fun m m' hm => note (.sees _ hm) ?_
    rw [hc.env, ← interpolate_mapEq hm, hc.dry]
    split
    · next he => exact err (nameless_placed he nameless_interpolate)
    · split
      · exact note (.wouldLog _ _ _) (.ret .ok)
      · exact note (.logged _ _ _ _) (.ret .ok)
  | prompt p => exact err trivial
  | parallel => exact err trivial

omit hc in
theorem preDeps {fr : Frame} {ds seen : List Str} {k k' : List Str → Prog} (hk : ∀ s, R (k s) (k' (s.map g))) :
    R (preDeps rec fr ds seen k) (preDeps rec' fr (ds.map g) (seen.map g) k') := by
  induction ds generalizing seen with
  | nil => exact hk seen
  | cons d ds ih =>
    rw [List.map_cons]
    unfold Bab.preDeps
    have hmem : g d ∈ seen.map g ↔ d ∈ seen := by
      constructor
      · intro h
        obtain ⟨x, hx, he⟩ := List.mem_map.mp h
        rw [← hg _ _ he]
        exact hx
      · exact fun h => List.mem_map.mpr ⟨d, h, rfl⟩
    by_cases h : d ∈ seen
    · rw [if_pos h, if_pos (hmem.mpr h)]
      exact ih
    · rw [if_neg h, if_neg (fun h' => h (hmem.mp h'))]
      refine .status rfl fun s => ?_
      split
      · exact ih (seen := d :: seen)
      · exact andThen (.preDep d) (hrec _ _ _) (ih (seen := d :: seen))

variable {tasks tasks' : TaskMap}
  (htasks : ∀ n, (tasks.get? n = none ∧ tasks'.get? (g n) = none) ∨
    ∃ T T', tasks.get? n = some T ∧ tasks'.get? (g n) = some T' ∧ TRel g c c' G G' T T')
include htasks

omit hc in
theorem preResolveDeps {fr : Frame} {items : List RunItem} {seen : List Str} {k k' : Prog} (hk : R k k') :
    R (preResolveDeps tasks rec fr items seen k) (preResolveDeps tasks' rec' fr (renameItems g items) (seen.map g) k') := by
  induction items generalizing seen with
  | nil => exact hk
  | cons item items ih =>
    cases item with
    | task t =>
      simp only [renameItems, renameItem]
      unfold Bab.preResolveDeps
      rcases htasks t.task with ⟨h1, h2⟩ | ⟨T, T', h1, h2, ht⟩
      · rw [h1, h2]
        exact .ret (.fail (.unknown _))
      · rw [h1, h2]
        dsimp only
        rw [ht.deps]
        exact preDeps hrec fun s => ih
    | _ => exact ih

omit hc hrec htasks in
theorem renameItems_map (items : List RunItem) : renameItems g items = items.map (renameItem g) := by
  induction items with
  | nil => rfl
  | cons a l ih => rw [renameItems, ih]; rfl

omit hc hrec htasks in
theorem par_cast {lim : Nat} {ctx : CtxPath} {t : Str} {it n n' : Nat} (h : n = n') (ps : Fin n' → Prog) (k : Option Err → Prog) :
    Prog.par lim ctx t it n' { held := 0, wg := n', first := none, tag := fun _ => .init } ps k =
      Prog.par lim ctx t it n { held := 0, wg := n, first := none, tag := fun _ => .init } (fun j => ps (j.cast h)) k := by
  subst h
  rfl

omit hc hrec htasks in
theorem label_rename (items : List RunItem) (labels : List Str) (j : Nat) :
    itemLabel (renameItems g items) labels j = itemLabel items labels j ∨
    itemLabel (renameItems g items) labels j = g (itemLabel items labels j) := by
  unfold itemLabel
  rw [renameItems_map, List.getElem?_map]
  split
  · exact .inl rfl
  · cases items[j]? with
    | none => exact .inl rfl
    | some i =>
      cases i with
      | task t => exact .inr rfl
      | _ => exact .inl rfl

omit hc hrec htasks in
theorem runBlock {lim : Nat} {ctx : CtxPath} {name : Str} {i : Nat} {items : List RunItem} {labels : List Str}
    {child child' : Nat → RunItem → Prog} (h : ∀ (j : Nat) item, R (child j item) (child' j (renameItem g item))) :
    R (Bab.runBlock lim ctx name i items labels child) (Bab.runBlock lim ctx (g name) i (renameItems g items) labels child') := by
  unfold Bab.runBlock
  have hlen : items.length = (renameItems g items).length := by rw [renameItems_map, List.length_map]
  rw [par_cast hlen]
  refine .par (fun j => .subAbort _ _ _) rfl rfl rfl .ok (fun j => ?_) (fun r r' hr => note (.parEnd _ _ hr) (.ret hr))
  refine note (.subStart _ _ _) (bind ?_ fun r r' hr => note (.subEnd _ _ _ hr) (.ret ?_))
  · have : (renameItems g items).get (j.cast hlen) = renameItem g (items.get j) := by
      simp [renameItems_map]
    rw [this]
    exact h _ _
  · cases hr with
    | ok => exact .ok
    | fail h =>
      show EndRel g (some _) (some _)
      rw [show ((Fin.cast hlen j : Fin _) : Nat) = (j : Nat) from rfl]
      rcases label_rename (g := g) items labels j with e | e
      · rw [e]; exact .fail (.wrap _ h)
      · rw [e]; exact .fail (.label _ h)

theorem executeParallel {name : Str} {T T' : Task} (ht : TRel g c c' G G' T T') {fr : Frame} {i : Nat} {items : List RunItem}
    {labels : List Str} {mode : ParallelMode} {lim : Nat} {color silent output : Option Bool} {m m' : GoMap Str} (hm : MapEq m m')
    {tenv : GoMap Str} :
    R (executeParallel c tasks rec name T fr i items labels mode lim color silent output m tenv)
      (executeParallel c' tasks' rec' (g name) T' fr i (renameItems g items) labels mode lim color silent output m' tenv) := by
  unfold Bab.executeParallel
  dsimp only
  refine preResolveDeps (seen := []) hrec htasks ?_
  have hchild : ∀ (fr : Frame) (j : Nat) (item : RunItem),
      R (Bab.executeRunItem c rec T fr ⟨name, i, some j⟩ item (.own m) tenv)
        (Bab.executeRunItem c' rec' T' fr ⟨g name, i, some j⟩ (renameItem g item) (.own m') tenv) :=
    fun fr j item => executeRunItem (loc := ⟨name, i, some j⟩) hc hrec ht (.own hm)
  have htui : ∀ fr : Frame, R (executeParallelTUI c rec name T fr i items labels lim m tenv)
      (executeParallelTUI c' rec' (g name) T' fr i (renameItems g items) labels lim m' tenv) := by
    intro fr
    unfold executeParallelTUI
    simp only
    split
    · exact note (.parBegin _ _ hm) (runBlock (fun j item => hchild _ j item))
    · refine .newCtx fun id => .tui (fun b => .tuiStart b) fun ok => ?_
      split
      · exact note (.parBegin _ _ hm) (runBlock (fun j item => hchild _ j item))
      · exact err trivial
  have hint : ∀ fr : Frame, R (executeParallelInterleaved c rec name T fr i items labels lim m tenv)
      (executeParallelInterleaved c' rec' (g name) T' fr i (renameItems g items) labels lim m' tenv) := by
    intro fr
    exact note (.parBegin _ _ hm) (runBlock (fun j item => hchild _ j item))
  rw [hc.dry, hc.stderrTTY]
  cases c.dry with
  | true => exact note (.wouldParallel ⟨name, i, none⟩) (.ret .ok)
  | false =>
    simp only [Bool.false_eq_true, if_false]
    split
    · exact htui _
    · exact hint _

omit hrec htasks in
theorem executePrompt {tn : Str} {loc : Loc} {p : PromptRun} {m m' : GoMap Str} (hm : MapEq m m') {k k' : Option Err → VarEnv → Prog}
    (hk : ∀ r r' m m', EndRel g r r' → MapEq m m' → R (k r (.own m)) (k' r' (.own m'))) :
    R (executePrompt c tn loc p (.own m) k) (executePrompt c' (g tn) (renLoc g loc) p (.own m') k') := by
  unfold Bab.executePrompt
  refine readVars (.own hm) fun m1 m1' hm1 => note (.sees _ hm1) ?_
  rw [hc.env, ← interpolatePrompt_mapEq hm1, hc.dry, hc.stdinTTY]
  cases hip : placed p.line (interpolatePrompt p ⟨m1, c.env⟩) with
  | error e =>
    exact hk _ _ _ _ (.fail (.same _ (nameless_placed hip nameless_prompt))) hm
  | ok p' =>
    replace hip := of_placed_ok hip
    simp only
    have hgot : ∀ r : Except Err Str,
        R (match r with
          | .error e => k (some (.wrap (.prompt tn p.prompt) e)) (.own m)
          | .ok ans => Bab.writeVar (.own m) p.prompt ans (k none))
        (match r with
          | .error e => k' (some (.wrap (.prompt (g tn) p.prompt) e)) (.own m')
          | .ok ans => Bab.writeVar (.own m') p.prompt ans (k' none)) := by
      intro r
      cases r with
      | error e => exact hk _ _ _ _ (.fail (.asked _ _ _)) hm
      | ok a => exact hk _ _ _ _ .ok (MapEq.set hm _ _)
    split
    · exact note (.wouldPrompt _ _) (hk _ _ _ _ .ok hm)
    · split
      · exact .prompt (fun x => .answered _ _ _) hgot
      · exact note (.answered _ _ _) (hgot _)

theorem executeItem {name : Str} {T T' : Task} (ht : TRel g c c' G G' T T') {fr : Frame} {i : Nat} {item : RunItem}
    {vars vars' : VarEnv} (hv : VRel G vars vars') (hp : vars = .global → ∀ p, item ≠ .prompt p) {tenv : GoMap Str}
    {k k' : Option Err → VarEnv → Prog}
    (hk : ∀ r r' v v', EndRel g r r' → VRel G v v' → (v = .global → vars = .global) → R (k r v) (k' r' v')) :
    R (executeItem c tasks rec name T fr i item vars tenv k)
      (executeItem c' tasks' rec' (g name) T' fr i (renameItem g item) vars' tenv k') := by
  unfold Bab.executeItem
  have hsame : ∀ r r', EndRel g r r' → R (k r vars) (k' r' vars') := fun r r' h => hk r r' _ _ h hv id
  cases item with
  | prompt p =>
    cases hv with
    | own hm =>
      rw [ht.name]
      exact executePrompt (loc := ⟨name, i, none⟩) hc hm fun r r' m m' hr hm => hk _ _ _ _ hr (.own hm) (fun h => by cases h)
    | global _ => exact absurd rfl (hp rfl p)
  | parallel items labels mode lim color silent output pl w ln =>
    simp only [renameItem]
    rw [hc.dry]
    split
    · exact note (.wouldParallel ⟨name, i, none⟩) (hsame _ _ .ok)
    · exact readVars hv fun m m' hm => bind (executeParallel hc hrec htasks ht hm) fun r r' hr => hsame _ _ hr
  | command v => exact bind (executeRunItem (loc := ⟨name, i, none⟩) (item := .command v) hc hrec ht hv) fun r r' hr => hsame _ _ hr
  | log l => exact bind (executeRunItem (loc := ⟨name, i, none⟩) (item := .log l) hc hrec ht hv) fun r r' hr => hsame _ _ hr
  | task t => exact bind (executeRunItem (loc := ⟨name, i, none⟩) (item := .task t) hc hrec ht hv) fun r r' hr => hsame _ _ hr

omit hc hrec htasks in
theorem rename_cond (item : RunItem) : (renameItem g item).cond = item.cond := by cases item <;> rfl

omit hc hrec htasks in
theorem rename_line (item : RunItem) : (renameItem g item).line = item.line := by cases item <;> rfl

omit hc hrec htasks in
theorem rename_onPlatform (item : RunItem) (pl : Str) : (renameItem g item).onPlatform pl = item.onPlatform pl := by
  cases item <;> rfl

theorem executeItems {name : Str} {T T' : Task} (ht : TRel g c c' G G' T T') {fr : Frame} {tenv : GoMap Str}
    {items : List RunItem} {i : Nat} {vars vars' : VarEnv} (hv : VRel G vars vars')
    (hp : vars = .global → ∀ p, .prompt p ∉ items) {ex sk : Nat} :
    R (executeItems c tasks rec name T fr tenv items i vars ex sk)
      (executeItems c' tasks' rec' (g name) T' fr tenv (renameItems g items) i vars' ex sk) := by
  induction items generalizing i vars vars' ex sk with
  | nil =>
    unfold renameItems Bab.executeItems
    split
    · rw [ht.name]; exact .ret (.fail (.noItems _))
    · exact .ret .ok
  | cons item rest ih =>
    have hp' : vars = .global → ∀ p, .prompt p ∉ rest := fun h p hm => hp h p (List.mem_cons_of_mem _ hm)
    have hsame := fun i ex sk => ih (i := i) (ex := ex) (sk := sk) hv hp'
    unfold renameItems Bab.executeItems
    refine .cancelled fun b => ?_
    simp only
    have hgo : ∀ w w' : Option (GoMap Str), EvRel g (.itemStart name i w) (.itemStart (g name) i w') →
        R (.note (.itemStart name i w) <|
          Bab.executeItem c tasks rec name T fr i item vars tenv fun r vars' =>
            .note (.itemEnd name i r) <|
            match r with
            | some e => .ret (some e)
            | none => Bab.executeItems c tasks rec name T fr tenv rest (i + 1) vars' (ex + 1) sk)
        (.note (.itemStart (g name) i w') <|
          Bab.executeItem c' tasks' rec' (g name) T' fr i (renameItem g item) vars' tenv fun r vars' =>
            .note (.itemEnd (g name) i r) <|
            match r with
            | some e => .ret (some e)
            | none => Bab.executeItems c' tasks' rec' (g name) T' fr tenv (renameItems g rest) (i + 1) vars' (ex + 1) sk) := by
      intro w w' hw
      refine note hw (executeItem hc hrec htasks ht hv (fun h p he => hp h p (he ▸ List.mem_cons_self))
        fun r r' v v' hr hv' hgl => note (.itemEnd _ _ hr) ?_)
      cases hr with
      | ok => exact ih hv' (fun h => hp' (hgl h))
      | fail h => exact .ret (.fail h)
    rw [rename_onPlatform, rename_cond, rename_line, hc.platform]
    split
    · exact err trivial
    · split
      · exact note (.platform _ _) (hsame _ _ _)
      · split
        · exact hgo _ _ (.item _ _)
        · refine readVars hv fun m m' hm => ?_
          rw [hc.env, ← evaluate_mapEq hm]
          split
          · next he =>
            rw [ht.name]
            exact .ret (.fail (.wrap (.itemCond T.name (i + 1)) (.same _ (nameless_placed he nameless_evaluate))))
          · exact note (.cond _ _ hm) (hsame _ _ _)
          · exact hgo _ _ (.itemIf _ _ hm)

omit hc htasks in
theorem runDeps {name : Str} {fr : Frame} {k k' : Prog} {ds : List Str} {i : Nat} (hk : R k k') :
    R (runDeps rec name fr k ds i) (runDeps rec' (g name) fr k' (ds.map g) i) := by
  induction ds generalizing i with
  | nil => exact hk
  | cons d ds ih =>
    rw [List.map_cons]
    unfold Bab.runDeps
    refine bind (hrec _ _ _) fun r r' hr => ?_
    cases hr with
    | ok => exact note (.depOk _ _) ih
    | fail h => exact note (.depFail _ _ h) (.ret (.fail (.wrap (.dep d) h)))

theorem executeTask {name : Str} {T T' : Task} (ht : TRel g c c' G G' T T') {fr : Frame} :
    R (executeTask c tasks rec name T fr) (executeTask c' tasks' rec' (g name) T' fr) := by
  unfold Bab.executeTask
  refine .globalsL (.globalsR ?_)
  show R (match placed T.line (resolveVars T.vars G c.env) with | .error e => _ | .ok m => _)
    (match placed T'.line (resolveVars T'.vars G' c'.env) with | .error e => _ | .ok m => _)
  rw [hc.env, ht.line]
  rcases ht.vars with ⟨m, m', h1, h2, hm⟩ | ⟨e, e', h1, h2, he⟩
  · rw [h1, h2, placed_ok, placed_ok]
    refine note (.taskVars _ _ _ hm _) ?_
    rw [ht.env, ← interpolateEnv_mapEq hm]
    split
    · next he => exact err (nameless_placed he nameless_env)
    · rename_i tenv _
      have hv : VRel G (if T.vars.isNone then .global else .own m) (if T'.vars.isNone then .global else .own m') := by
        have ho : T'.vars.isNone = false := by
          cases h : T'.vars with
          | none => exact absurd h ht.own
          | some _ => rfl
        rw [ho]
        cases h : T.vars with
        | none =>
          rw [h] at h1
          have h1 : Except.ok G = Except.ok m := h1
          cases h1
          exact .global hm
        | some _ => exact .own hm
      rw [ht.run]
      refine executeItems hc hrec htasks ht hv ?_
      intro h
      apply ht.asks
      cases h' : T.vars with
      | none => rfl
      | some _ => rw [h'] at h; cases h
  · rw [h1, h2, placed_error, placed_error]
    exact .ret (.fail (rel_placed he _))

theorem runTaskBody {fr : Frame} {isMain : Bool} {name : Str} :
    R (runTaskBody c tasks rec fr isMain name) (runTaskBody c' tasks' rec' fr isMain (g name)) := by
  unfold Bab.runTaskBody
  rcases htasks name with ⟨h1, h2⟩ | ⟨T, T', h1, h2, ht⟩
  · rw [h1, h2]
    exact .ret (.fail (.notFound _))
  · rw [h1, h2]
    simp only
    have hfin : R (.act (.setDone name) fun _ => .ret none) (.act (.setDone (g name)) fun _ => .ret none) :=
      .setDone rfl (.done _) fun _ => .ret .ok
    have hrun : T'.run = [] ↔ T.run = [] := by
      rw [ht.run, renameItems_map, List.map_eq_nil_iff]
    have hdeps : R
        (Bab.runDeps rec name fr
          (if T.run = [] then .act (.setDone name) fun _ => .ret none
           else (Bab.executeTask c tasks rec name T fr).bind fun
            | some e => .ret (some e)
            | none => .act (.setDone name) fun _ => .ret none) T.deps 0)
        (Bab.runDeps rec' (g name) fr
          (if T'.run = [] then .act (.setDone (g name)) fun _ => .ret none
           else (Bab.executeTask c' tasks' rec' (g name) T' fr).bind fun
            | some e => .ret (some e)
            | none => .act (.setDone (g name)) fun _ => .ret none) T'.deps 0) := by
      rw [ht.deps]
      refine runDeps hrec ?_
      by_cases hr : T.run = []
      · rw [if_pos hr, if_pos (hrun.mpr hr)]
        exact hfin
      · rw [if_neg hr, if_neg (fun h => hr (hrun.mp h))]
        refine bind (executeTask hc hrec htasks ht) fun r r' hr => ?_
        cases hr with
        | ok => exact hfin
        | fail h => exact .ret (.fail h)
    have hgo : ∀ {A B : Prog}, R A B →
        R (if !c.dry && !isSilent [fr.ovSilent, T.silent, c.globalSilent] then .note (.echoTask name isMain fr.out) A else A)
          (if !c'.dry && !isSilent [fr.ovSilent, T'.silent, c'.globalSilent] then .note (.echoTask (g name) isMain fr.out) B else B) := by
      intro A B h
      have hs := isSilent_first [fr.ovSilent] _ _ _ rfl ht.silent
      simp only [List.cons_append, List.nil_append] at hs
      rw [hc.dry, hs]
      split
      · exact note (.echoTask _ _ _) h
      · exact h
    rw [ht.cond, hc.env]
    by_cases hcd : T.cond = []
    · rw [if_pos hcd, if_pos hcd]
      exact hgo hdeps
    · rw [if_neg hcd, if_neg hcd]
      refine .globalsL (.globalsR ?_)
      show R (match placed T.line (evaluate T.cond ⟨G, c.env⟩) with | .error e => _ | .ok false => _ | .ok true => _)
        (match placed T'.line (evaluate T.cond ⟨G', c.env⟩) with | .error e => _ | .ok false => _ | .ok true => _)
      rw [ht.holds hcd, ht.line]
      split
      · next he => exact .ret (.fail (.wrap (.taskCond name) (.same _ (nameless_placed he nameless_evaluate))))
      · exact note (.taskSkip _ _ _) hfin
      · exact note (.taskRuns _ _ _) (hgo hdeps)

omit hrec in
theorem runTask (fuel : Nat) (fr : Frame) (isMain : Bool) (name : Str) :
    R (runTask c tasks fuel fr isMain name) (runTask c' tasks' fuel fr isMain (g name)) := by
  induction fuel generalizing fr isMain name with
  | zero => exact .fuel fun _ => err trivial
  | succ fuel ih =>
    unfold Bab.runTask
    refine .claim rfl (.claimed _) fun s => ?_
    cases s with
    | none =>
      exact bind (runTaskBody hc ih htasks) fun r r' hr => note (.taskEnd _ hr) (.ret hr)
    | some s =>
      cases s with
      | done => exact .ret .ok
      | running => exact .snapshot fun x y => .ret (.fail (.circular _ _))

omit hrec in
/-- the two invocations: whatever the one does the other one can do -/
theorem forth (hinj : ∀ a b, g a = g b → a = b) (hlen : tasks.length = tasks'.length) {main : Str} {s : State} (h : Reach (start c tasks G main) s) :
    ∃ s', Reach (start c' tasks' G' (g main)) s' ∧ Mirrors g s s' := by
  have hr : Rel (by_ g hinj G G') (runWithTasks c tasks main) (runWithTasks c' tasks' (g main)) := by
    unfold runWithTasks
    rw [hlen]
    exact runTask hc htasks _ _ _ _
  have hs : Sh (by_ g hinj G G') (Shared.init G) (Shared.init G') := ⟨fun _ _ _ => rfl, rfl, rfl, rfl, rfl, .nil⟩
  obtain ⟨s', h1, _, h3, h4⟩ := reach hr hs h
  exact ⟨s', h1, h3.trace, h4⟩

omit hrec in
theorem back (hinj : ∀ a b, g a = g b → a = b) (hlen : tasks.length = tasks'.length) {main : Str} {s' : State} (h : Reach (start c' tasks' G' (g main)) s') :
    ∃ s, Reach (start c tasks G main) s ∧ List.Forall₂ (EvRel g) s.sh.trace s'.sh.trace ∧
      ∀ r', s'.prog = .ret r' → ∃ r, s.prog = .ret r ∧ EndRel g r r' := by
  have hr : Rel (by_ g hinj G G') (runWithTasks c tasks main) (runWithTasks c' tasks' (g main)) := by
    unfold runWithTasks
    rw [hlen]
    exact runTask hc htasks _ _ _ _
  have hs : Sh (by_ g hinj G G') (Shared.init G) (Shared.init G') := ⟨fun _ _ _ => rfl, rfl, rfl, rfl, rfl, .nil⟩
  obtain ⟨s, h1, _, h3, h4⟩ := reach hr.flip hs.flip h
  exact ⟨s, h1, h3.trace.flip, h4⟩

end
end Ren
end Bab
