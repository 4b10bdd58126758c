import Verif.Proof.Rename
import Verif.Props.ResolveVars
/-
The programs of the runner for tasks and for the same tasks under other names are related.
-/

namespace Bab
open Spec

namespace Rename

theorem endIs_none {g : Str → Str} {r r' : Option Err} (h : EndIs g r r') : r = none ↔ r' = none := by
  cases h <;> simp

/-- names changed by `g` -/
def by_ (g : Str → Str) (hg : ∀ a b, g a = g b → a = b) : Diff where
  E := EndIs g
  V := EvIs g
  N a a' := a' = g a
  inj := by
    rintro a a' b b' rfl rfl
    exact ⟨fun h => by rw [h], fun h => hg _ _ h⟩
  ends := endIs_none
  canc i := .other (.cancel i) (fun _ _ h => by cases h) (fun _ _ _ h => by cases h) (fun _ _ _ h => by cases h)
    (fun _ _ _ _ h => by cases h) (fun _ _ _ h => by cases h)

theorem same {g : Str → Str} {e : Err} (h : Nameless e) : ErrIs g e e := by
  induction e with
  | wrap w e ih =>
    cases w with
    | condition => exact .wrap .condition (ih h)
    | cancelled => exact .wrap .cancelled (ih h)
    | dirText => exact .wrap .dirText (ih h)
    | view => exact .wrap .view (ih h)
    | place l => exact .wrap (.place l) (ih h)
    | _ => exact h.elim
  | _ => first
    | exact h.elim
    | exact .leaf (g := g) _ (by intro _ _ h; cases h)

section
variable {g : Str → Str} {hg : ∀ a b, g a = g b → a = b}

local notation "R" => Rel (by_ g hg)

local macro "plain" : tactic => `(tactic|
  exact EvIs.other _ (fun _ _ h => by cases h) (fun _ _ _ h => by cases h) (fun _ _ _ h => by cases h)
    (fun _ _ _ _ h => by cases h) (fun _ _ _ h => by cases h))

theorem err {e : Err} (h : Nameless e) : R (.ret (some e)) (.ret (some e)) := .ret (.fail (same h))

theorem leaf (e : Err) (h : ∀ w e', e ≠ .wrap w e') : R (.ret (some e)) (.ret (some (renLeaf g e))) := .ret (.fail (.leaf e h))

theorem note {e e' : Ev} {p q : Prog} (he : EvIs g e e') (h : R p q) : R (.note e p) (.note e' q) :=
  .emit he fun _ => h

theorem bind {p q : Prog} {f f' : Option Err → Prog} (h : R p q) (hf : ∀ r r', EndIs g r r' → R (f r) (f' r')) :
    R (p.bind f) (q.bind f') := by
  induction h with
  | ret h => exact hf _ _ h
  | claim hn he _ ih => exact .claim hn he ih
  | setDone hn he _ ih => exact .setDone hn he ih
  | status hn _ ih => exact .status hn ih
  | snapshot _ ih => exact .snapshot ih
  | globals _ ih => exact .globals ih
  | setGlobal _ ih => exact .setGlobal ih
  | cancelled _ ih => exact .cancelled ih
  | newCtx _ ih => exact .newCtx ih
  | start he hf _ ih => exact .start he hf ih
  | wait he _ ih => exact .wait he ih
  | prompt he _ ih => exact .prompt he ih
  | tui he _ ih => exact .tui he ih
  | emit he _ ih => exact .emit he ih
  | fuel _ ih => exact .fuel ih
  | par he h1 h2 h3 h4 hp _ _ ih => exact .par he h1 h2 h3 h4 hp ih

theorem andThen {p q : Prog} (w : Where) {f f' : Prog} (h : R p q) (hf : R f f') :
    R (p.andThen (.wrap w) f) (q.andThen (.wrap (renWhere g w)) f') :=
  bind h fun r r' hr => by
    cases hr with
    | ok => exact hf
    | fail h => exact .ret (.fail (.wrap _ h))

theorem readVars {v : VarEnv} {k k' : GoMap Str → Prog} (h : ∀ m, R (k m) (k' m)) : R (readVars v k) (readVars v k') := by
  cases v with
  | own m => exact h m
  | global => exact .globals h

theorem writeVar {v : VarEnv} {n x : Str} {k k' : VarEnv → Prog} (h : ∀ v, R (k v) (k' v)) :
    R (writeVar v n x k) (writeVar v n x k') := by
  cases v with
  | own m => exact h _
  | global => exact .setGlobal fun _ => h _

theorem runProc {tn : Str} {fr : Frame} {loc : Loc} {spec : ProcSpec} :
    R (Bab.runProc tn fr loc spec) (Bab.runProc (g tn) fr (renLoc g loc) spec) := by
  have hf : ∀ code : Nat, R (.act (.cancelled fr.ctx) fun (b : Bool) =>
        .ret (some (.wrap (.command tn spec.cmd) (if b then .canceled else .exit code))))
      (.act (.cancelled fr.ctx) fun (b : Bool) =>
        .ret (some (.wrap (.command (g tn) spec.cmd) (if b then .canceled else .exit code)))) :=
    fun code => .cancelled (fun b => .ret (.fail (.wrap (.command tn spec.cmd) (same (by cases b <;> trivial)))))
  refine .start (by plain) (by plain) (fun started => ?_)
  cases started with
  | true =>
    refine .wait (fun x => by plain) (fun r => ?_)
    cases r with
    | none => exact .ret .ok
    | some code => exact hf code
  | false => exact hf 127

variable {c : Cfg}

theorem prepareCommand_rel (T : Task) (m : GoMap Str) (v : CommandRun) (tenv : GoMap Str) :
    (∃ e e', prepareCommand c T v tenv m = .error e ∧ prepareCommand c (renameTask g T) v tenv m = .error e' ∧
      ErrIs g (e.placed v.line) (e'.placed v.line)) ∨
    ∃ x, prepareCommand c T v tenv m = .ok x ∧ prepareCommand c (renameTask g T) v tenv m = .ok x := by
  unfold prepareCommand
  have hdir : resolveDir c (renameTask g T) v.dir ⟨m, c.env⟩ = resolveDir c T v.dir ⟨m, c.env⟩ := rfl
  rw [hdir]
  have hn : ∀ {e : Err}, Nameless e → Nameless (e.placed v.line) := fun {e} h =>
    Ren.nameless_placed (r := (.error e : Except Err Unit)) (placed_error _ e) fun h' => by cases h'; exact h
  cases h1 : interpolate v.cmd ⟨m, c.env⟩ with
  | error e => exact .inl ⟨e, e, rfl, rfl, same (hn (Ren.nameless_interpolate h1))⟩
  | ok text =>
    dsimp only
    cases h2 : interpolateEnv ⟨m, c.env⟩ (mergeEnvMaps [tenv, v.env]) with
    | error e => exact .inl ⟨e, e, rfl, rfl, same (hn (Ren.nameless_env h2))⟩
    | ok env =>
      dsimp only
      cases h3 : resolveDir c T v.dir ⟨m, c.env⟩ with
      | error e => exact .inl ⟨_, _, rfl, rfl, .wrap (.dirOf T.name v.cmd) (same (hn (Ren.nameless_dir h3)))⟩
      | ok dir => exact .inr ⟨_, rfl, rfl⟩

theorem executeCommand {T : Task} {fr : Frame} {loc : Loc} {v : CommandRun} {vars : VarEnv} {tenv : GoMap Str} :
    R (Bab.executeCommand c T fr loc v vars tenv) (Bab.executeCommand c (renameTask g T) fr (renLoc g loc) v vars tenv) := by
  unfold Bab.executeCommand
  split
  · exact leaf (.emptyCmd T.name) (fun _ _ h => by cases h)
  · refine readVars fun m => note (by plain) ?_
    rcases prepareCommand_rel (g := g) (c := c) T m v tenv with ⟨e, e', h1, h2, he⟩ | ⟨⟨text, env, dir⟩, h1, h2⟩
    · rw [h1, h2, placed_error, placed_error]
      exact .ret (.fail he)
    · rw [h1, h2, placed_ok]
      dsimp only
      split
      · exact note (by plain) (.ret .ok)
      · split
        · rw [if_pos (by assumption)]; exact runProc
        · rw [if_neg (by assumption)]; exact note (by plain) runProc

variable {rec rec' : Rec} (hrec : ∀ fr b n, Rel (by_ g hg) (rec fr b n) (rec' fr b (g n)))
include hrec

theorem executeRunItem {T : Task} {fr : Frame} {loc : Loc} {item : RunItem} {vars : VarEnv} {tenv : GoMap Str} :
    R (Bab.executeRunItem c rec T fr loc item vars tenv)
      (Bab.executeRunItem c rec' (renameTask g T) fr (renLoc g loc) (renameItem g item) vars tenv) := by
  unfold Bab.executeRunItem
  cases item with
  | command v => exact executeCommand
  | task t =>
    simp only [renameItem]
    split
    · exact note (by plain) (.ret .ok)
    · exact hrec _ _ _
  | log l =>
    simp only [renameItem]
    refine readVars fun m => note (by plain) ?_
    split
    · next he => exact err (Ren.nameless_placed he Ren.nameless_interpolate)
    · split
      · exact note (by plain) (.ret .ok)
      · exact note (by plain) (.ret .ok)
  | prompt p => exact err trivial
  | parallel => exact err trivial

theorem preDeps {fr : Frame} {ds seen : List Str} {k k' : List Str → Prog} (hk : ∀ s, R (k s) (k' (s.map g))) :
    R (preDeps rec fr ds seen k) (preDeps rec' fr (ds.map g) (seen.map g) k') := by
  induction ds generalizing seen with
  | nil => exact hk seen
  | cons d ds ih =>
    rw [List.map_cons]
    unfold Bab.preDeps
    have hmem : g d ∈ seen.map g ↔ d ∈ seen := by
      constructor
      · intro h
        obtain ⟨x, hx, he⟩ := List.mem_map.mp h
        rw [← hg _ _ he]
        exact hx
      · exact fun h => List.mem_map.mpr ⟨d, h, rfl⟩
    by_cases h : d ∈ seen
    · rw [if_pos h, if_pos (hmem.mpr h)]
      exact ih
    · rw [if_neg h, if_neg (fun h' => h (hmem.mp h'))]
      refine .status rfl fun s => ?_
      split
      · exact ih (seen := d :: seen)
      · exact andThen (.preDep d) (hrec _ _ _) (ih (seen := d :: seen))

variable {tasks tasks' : TaskMap} (htasks : ∀ n, tasks'.get? (g n) = (tasks.get? n).map (renameTask g))
include htasks

theorem preResolveDeps {fr : Frame} {items : List RunItem} {seen : List Str} {k k' : Prog} (hk : R k k') :
    R (preResolveDeps tasks rec fr items seen k) (preResolveDeps tasks' rec' fr (renameItems g items) (seen.map g) k') := by
  induction items generalizing seen with
  | nil => exact hk
  | cons item items ih =>
    cases item with
    | task t =>
      simp only [renameItems, renameItem]
      unfold Bab.preResolveDeps
      rw [htasks]
      cases tasks.get? t.task with
      | none => exact leaf (.parallelUnknown t.task) (fun _ _ h => by cases h)
      | some T => exact preDeps hrec fun s => ih
    | _ => exact ih

omit hrec htasks in
theorem runBlock {lim : Nat} {ctx : CtxPath} {name : Str} {i : Nat} {items : List RunItem} {labels : List Str}
    {child child' : Nat → RunItem → Prog} (h : ∀ (j : Nat) item, R (child j item) (child' j (renameItem g item))) :
    R (Bab.runBlock lim ctx name i items labels child) (Bab.runBlock lim ctx (g name) i (renameItems g items) labels child') := by
  unfold Bab.runBlock
  have hlen : items.length = (renameItems g items).length := by rw [Ren.renameItems_map, List.length_map]
  rw [Ren.par_cast hlen]
  refine .par (fun j => by plain) rfl rfl rfl .ok (fun j => ?_) (fun r r' hr => note (.parEnd _ _ hr) (.ret hr))
  refine note (by plain) (bind ?_ fun r r' hr => note (.subEnd _ _ _ hr) (.ret ?_))
  · have : (renameItems g items).get (j.cast hlen) = renameItem g (items.get j) := by
      simp [Ren.renameItems_map]
    rw [this]
    exact h _ _
  · cases hr with
    | ok => exact .ok
    | fail h =>
      show EndIs g (some _) (some _)
      rw [show ((Fin.cast hlen j : Fin _) : Nat) = (j : Nat) from rfl]
      rcases Ren.label_rename (g := g) items labels j with e | e
      · rw [e]; exact .fail (.wrap _ h)
      · rw [e]; exact .fail (.label _ h)

theorem executeParallel {name : Str} {T : Task} {fr : Frame} {i : Nat} {items : List RunItem}
    {labels : List Str} {mode : ParallelMode} {lim : Nat} {color silent output : Option Bool} {m : GoMap Str}
    {tenv : GoMap Str} :
    R (executeParallel c tasks rec name T fr i items labels mode lim color silent output m tenv)
      (executeParallel c tasks' rec' (g name) (renameTask g T) fr i (renameItems g items) labels mode lim color silent output m tenv) := by
  unfold Bab.executeParallel
  dsimp only
  refine preResolveDeps (seen := []) hrec htasks ?_
  have hchild : ∀ (fr : Frame) (j : Nat) (item : RunItem),
      R (Bab.executeRunItem c rec T fr ⟨name, i, some j⟩ item (.own m) tenv)
        (Bab.executeRunItem c rec' (renameTask g T) fr ⟨g name, i, some j⟩ (renameItem g item) (.own m) tenv) :=
    fun fr j item => executeRunItem (loc := ⟨name, i, some j⟩) hrec
  have htui : ∀ fr : Frame, R (executeParallelTUI c rec name T fr i items labels lim m tenv)
      (executeParallelTUI c rec' (g name) (renameTask g T) fr i (renameItems g items) labels lim m tenv) := by
    intro fr
    unfold executeParallelTUI
    simp only
    split
    · exact note (by plain) (runBlock (fun j item => hchild _ j item))
    · refine .newCtx fun id => .tui (fun b => by plain) fun ok => ?_
      split
      · exact note (by plain) (runBlock (fun j item => hchild _ j item))
      · exact err trivial
  have hint : ∀ fr : Frame, R (executeParallelInterleaved c rec name T fr i items labels lim m tenv)
      (executeParallelInterleaved c rec' (g name) (renameTask g T) fr i (renameItems g items) labels lim m tenv) := by
    intro fr
    exact note (by plain) (runBlock (fun j item => hchild _ j item))
  cases c.dry with
  | true => exact note (by plain) (.ret .ok)
  | false =>
    simp only [Bool.false_eq_true, if_false]
    split
    · exact htui _
    · exact hint _

omit hrec htasks in
theorem fair_default (p : PromptRun) : Fair (handleNonInteractive p) := by
  intro e he
  unfold handleNonInteractive at he
  repeat' split at he
  all_goals first
    | cases he; done
    | (cases he; exact .inr ⟨_, rfl⟩)

omit hrec htasks in
theorem executePrompt {tn : Str} {loc : Loc} {p : PromptRun} {vars : VarEnv} {k k' : Option Err → VarEnv → Prog}
    (hk : ∀ r r' v, EndIs g r r' → R (k r v) (k' r' v)) :
    R (executePrompt c tn loc p vars k) (executePrompt c (g tn) (renLoc g loc) p vars k') := by
  unfold Bab.executePrompt
  refine readVars fun m => note (by plain) ?_
  cases hip : placed p.line (interpolatePrompt p ⟨m, c.env⟩) with
  | error e => exact hk _ _ _ (.fail (same (Ren.nameless_placed hip Ren.nameless_prompt)))
  | ok p' =>
    simp only
    have hgot : ∀ r : Except Err Str, Fair r →
        R (match r with
          | .error e => k (some (.wrap (.prompt tn p.prompt) e)) vars
          | .ok ans => Bab.writeVar vars p.prompt ans (k none))
        (match r with
          | .error e => k' (some (.wrap (.prompt (g tn) p.prompt) e)) vars
          | .ok ans => Bab.writeVar vars p.prompt ans (k' none)) := by
      intro r hr
      cases r with
      | error e =>
        refine hk _ _ _ (.fail (.wrap (.prompt tn p.prompt) (same ?_)))
        rcases hr e rfl with rfl | ⟨_, rfl⟩ <;> trivial
      | ok a => exact writeVar fun v => hk _ _ _ .ok
    split
    · exact note (by plain) (hk _ _ _ .ok)
    · split
      · exact .prompt (fun x => by plain) hgot
      · exact note (by plain) (hgot _ (fair_default _))

theorem executeItem {name : Str} {T : Task} {fr : Frame} {i : Nat} {item : RunItem} {vars : VarEnv} {tenv : GoMap Str}
    {k k' : Option Err → VarEnv → Prog} (hk : ∀ r r' v, EndIs g r r' → R (k r v) (k' r' v)) :
    R (executeItem c tasks rec name T fr i item vars tenv k)
      (executeItem c tasks' rec' (g name) (renameTask g T) fr i (renameItem g item) vars tenv k') := by
  unfold Bab.executeItem
  cases item with
  | prompt p => exact executePrompt (loc := ⟨name, i, none⟩) hk
  | parallel items labels mode lim color silent output pl w ln =>
    simp only [renameItem]
    split
    · exact note (by plain) (hk _ _ _ .ok)
    · exact readVars fun m => bind (executeParallel hrec htasks) fun r r' hr => hk _ _ _ hr
  | command v => exact bind (executeRunItem (loc := ⟨name, i, none⟩) (item := .command v) hrec) fun r r' hr => hk _ _ _ hr
  | log l => exact bind (executeRunItem (loc := ⟨name, i, none⟩) (item := .log l) hrec) fun r r' hr => hk _ _ _ hr
  | task t => exact bind (executeRunItem (loc := ⟨name, i, none⟩) (item := .task t) hrec) fun r r' hr => hk _ _ _ hr

theorem executeItems {name : Str} {T : Task} {fr : Frame} {tenv : GoMap Str}
    {items : List RunItem} {i : Nat} {vars : VarEnv} {ex sk : Nat} :
    R (executeItems c tasks rec name T fr tenv items i vars ex sk)
      (executeItems c tasks' rec' (g name) (renameTask g T) fr tenv (renameItems g items) i vars ex sk) := by
  induction items generalizing i vars ex sk with
  | nil =>
    unfold renameItems Bab.executeItems
    split
    · exact leaf (.noItems T.name) (fun _ _ h => by cases h)
    · exact .ret .ok
  | cons item rest ih =>
    unfold renameItems Bab.executeItems
    refine .cancelled fun b => ?_
    simp only
    have hgo : ∀ w : Option (GoMap Str),
        R (.note (.itemStart name i w) <|
          Bab.executeItem c tasks rec name T fr i item vars tenv fun r vars' =>
            .note (.itemEnd name i r) <|
            match r with
            | some e => .ret (some e)
            | none => Bab.executeItems c tasks rec name T fr tenv rest (i + 1) vars' (ex + 1) sk)
        (.note (.itemStart (g name) i w) <|
          Bab.executeItem c tasks' rec' (g name) (renameTask g T) fr i (renameItem g item) vars tenv fun r vars' =>
            .note (.itemEnd (g name) i r) <|
            match r with
            | some e => .ret (some e)
            | none => Bab.executeItems c tasks' rec' (g name) (renameTask g T) fr tenv (renameItems g rest) (i + 1) vars' (ex + 1) sk) := by
      intro w
      refine note (by plain) (executeItem hrec htasks fun r r' v hr => note (.itemEnd _ _ hr) ?_)
      cases hr with
      | ok => exact ih
      | fail h => exact .ret (.fail h)
    rw [Ren.rename_onPlatform, Ren.rename_cond, Ren.rename_line]
    split
    · exact err trivial
    · split
      · exact note (by plain) ih
      · split
        · exact hgo _
        · refine readVars fun m => ?_
          split
          · next he => exact .ret (.fail (.wrap (.itemCond T.name (i + 1)) (same (Ren.nameless_placed he Ren.nameless_evaluate))))
          · exact note (by plain) ih
          · exact hgo _

omit htasks in
theorem runDeps {name : Str} {fr : Frame} {k k' : Prog} {ds : List Str} {i : Nat} (hk : R k k') :
    R (runDeps rec name fr k ds i) (runDeps rec' (g name) fr k' (ds.map g) i) := by
  induction ds generalizing i with
  | nil => exact hk
  | cons d ds ih =>
    rw [List.map_cons]
    unfold Bab.runDeps
    refine bind (hrec _ _ _) fun r r' hr => ?_
    cases hr with
    | ok => exact note (by plain) ih
    | fail h => exact note (.depFail _ _ h) (.ret (.fail (.wrap (.dep d) h)))

omit hrec htasks in
theorem nameless_vars {vars : Option (GoMap Str)} {G : GoMap Str} {env : Str → Option Str} {e : Err}
    (h : resolveVars vars G env = .error e) : Nameless e := by
  cases vars with
  | none => cases h
  | some m => rcases C05_resolveVars_error_kind _ _ _ _ h with ⟨_, _, rfl, -⟩ | ⟨_, rfl, -⟩ <;> trivial

theorem executeTask {name : Str} {T : Task} {fr : Frame} :
    R (executeTask c tasks rec name T fr) (executeTask c tasks' rec' (g name) (renameTask g T) fr) := by
  unfold Bab.executeTask
  refine .globals fun G => ?_
  show R _ (match placed T.line (resolveVars T.vars G c.env) with | .error e => _ | .ok m => _)
  cases he : placed T.line (resolveVars T.vars G c.env) with
  | error e => exact err (Ren.nameless_placed he nameless_vars)
  | ok m =>
    refine note (by plain) ?_
    show R _ (match placed T.line (interpolateEnv _ (mergeEnvMaps [c.globalEnv, T.env])) with | .error e => _ | .ok m => _)
    cases he : placed T.line (interpolateEnv ⟨m, c.env⟩ (mergeEnvMaps [c.globalEnv, T.env])) with
    | error e => exact err (Ren.nameless_placed he Ren.nameless_env)
    | ok tenv => exact executeItems hrec htasks

theorem runTaskBody {fr : Frame} {isMain : Bool} {name : Str} :
    R (runTaskBody c tasks rec fr isMain name) (runTaskBody c tasks' rec' fr isMain (g name)) := by
  unfold Bab.runTaskBody
  rw [htasks]
  cases tasks.get? name with
  | none => exact leaf (.taskNotFound name) (fun _ _ h => by cases h)
  | some T =>
    simp only [Option.map_some]
    have hfin : R (.act (.setDone name) fun _ => .ret none) (.act (.setDone (g name)) fun _ => .ret none) :=
      .setDone rfl (by plain) fun _ => .ret .ok
    have hrun : (renameTask g T).run = [] ↔ T.run = [] := by
      show renameItems g T.run = [] ↔ _
      rw [Ren.renameItems_map, List.map_eq_nil_iff]
    have hdeps : R
        (Bab.runDeps rec name fr
          (if T.run = [] then .act (.setDone name) fun _ => .ret none
           else (Bab.executeTask c tasks rec name T fr).bind fun
            | some e => .ret (some e)
            | none => .act (.setDone name) fun _ => .ret none) T.deps 0)
        (Bab.runDeps rec' (g name) fr
          (if (renameTask g T).run = [] then .act (.setDone (g name)) fun _ => .ret none
           else (Bab.executeTask c tasks' rec' (g name) (renameTask g T) fr).bind fun
            | some e => .ret (some e)
            | none => .act (.setDone (g name)) fun _ => .ret none) (renameTask g T).deps 0) := by
      refine runDeps hrec ?_
      by_cases hr : T.run = []
      · rw [if_pos hr, if_pos (hrun.mpr hr)]
        exact hfin
      · rw [if_neg hr, if_neg (fun h => hr (hrun.mp h))]
        refine bind (executeTask hrec htasks) fun r r' hr => ?_
        cases hr with
        | ok => exact hfin
        | fail h => exact .ret (.fail h)
    have hgo : ∀ {A B : Prog}, R A B →
        R (if !c.dry && !isSilent [fr.ovSilent, T.silent, c.globalSilent] then .note (.echoTask name isMain fr.out) A else A)
          (if !c.dry && !isSilent [fr.ovSilent, (renameTask g T).silent, c.globalSilent] then .note (.echoTask (g name) isMain fr.out) B
            else B) := by
      intro A B h
      show R _ (if !c.dry && !isSilent [fr.ovSilent, T.silent, c.globalSilent] then _ else _)
      split
      · exact note (by plain) h
      · exact h
    show R _ (if T.cond = [] then _ else _)
    by_cases hcd : T.cond = []
    · rw [if_pos hcd, if_pos hcd]
      exact hgo hdeps
    · rw [if_neg hcd, if_neg hcd]
      refine .globals fun G => ?_
      show R _ (match placed T.line (evaluate T.cond ⟨G, c.env⟩) with | .error e => _ | .ok false => _ | .ok true => _)
      cases he : placed T.line (evaluate T.cond ⟨G, c.env⟩) with
      | error e => exact .ret (.fail (.wrap (.taskCond name) (same (Ren.nameless_placed he Ren.nameless_evaluate))))
      | ok b =>
        cases b with
        | false => exact note (by plain) hfin
        | true => exact note (by plain) (hgo hdeps)

omit hrec in
theorem chainLoop_map {cur : Str} {st st' : GoMap Status} (hst : ∀ n, st.get? n = st'.get? (g n)) (hinj : ∀ a b, g a = g b → a = b)
    (fuel : Nat) {chain seen : List Str} (hne : chain ≠ []) :
    chainLoop (g cur) tasks' st' fuel (chain.map g) (seen.map g) = (chainLoop cur tasks st fuel chain seen).map (List.map g) := by
  induction fuel generalizing chain seen with
  | zero => rfl
  | succ fuel ih =>
    unfold chainLoop
    obtain ⟨l, hl⟩ : ∃ l, chain.getLast? = some l := by
      cases h : chain.getLast? with
      | none => exact absurd (List.getLast?_eq_none_iff.mp h) hne
      | some l => exact ⟨l, rfl⟩
    have hl' : (chain.map g).getLast? = some (g l) := by rw [List.getLast?_map, hl]; rfl
    rw [hl, hl']
    simp only [Option.getD_some]
    have hmem : g l ∈ seen.map g ↔ l ∈ seen := by
      constructor
      · intro h
        obtain ⟨x, hx, he⟩ := List.mem_map.mp h
        rw [← hinj _ _ he]
        exact hx
      · exact fun h => List.mem_map.mpr ⟨l, h, rfl⟩
    by_cases hs : l ∈ seen
    · rw [if_pos hs, if_pos (hmem.mpr hs)]; rfl
    · rw [if_neg hs, if_neg (fun h => hs (hmem.mp h)), htasks]
      cases tasks.get? l with
      | none => rfl
      | some T =>
        simp only [Option.map_some]
        show (if T.deps.map g = [] then _ else _) = _
        by_cases hd : T.deps = []
        · rw [if_pos hd, if_pos (by rw [hd]; rfl)]; rfl
        · rw [if_neg hd, if_neg (by rw [List.map_eq_nil_iff]; exact hd)]
          have hfind : ((renameTask g T).deps.find? fun d => st'.get? d = some .running) =
              (T.deps.find? fun d => st.get? d = some .running).map g := by
            show (T.deps.map g).find? _ = _
            rw [List.find?_map]
            congr 2
            funext d
            simp only [Function.comp_apply, hst]
          rw [hfind]
          cases T.deps.find? fun d => st.get? d = some .running with
          | none => exact ih (seen := l :: seen) hne
          | some d =>
            simp only [Option.map_some]
            by_cases he : d = cur
            · rw [if_pos he, if_pos (by rw [he])]
              simp
            · rw [if_neg he, if_neg (fun h => he (hinj _ _ h))]
              have := ih (chain := chain ++ [d]) (seen := l :: seen) (by simp)
              simpa using this

omit hrec in
theorem buildChain_map {cur : Str} {st st' : GoMap Status} (hst : ∀ n, st.get? n = st'.get? (g n)) (hinj : ∀ a b, g a = g b → a = b)
    (hlen : tasks.length = tasks'.length) : buildChain (g cur) tasks' st' = (buildChain cur tasks st).map g := by
  unfold buildChain
  rw [← hlen]
  have := chainLoop_map (cur := cur) (g := g) htasks hst hinj (tasks.length + 2) (chain := [cur]) (seen := []) (by simp)
  simp only [List.map_cons, List.map_nil] at this
  rw [this]
  cases chainLoop cur tasks st (tasks.length + 2) [cur] [] <;> rfl

omit hrec in
theorem runTask (hlen : tasks.length = tasks'.length) (fuel : Nat) (fr : Frame) (isMain : Bool) (name : Str) :
    R (runTask c tasks fuel fr isMain name) (runTask c tasks' fuel fr isMain (g name)) := by
  induction fuel generalizing fr isMain name with
  | zero => exact .fuel fun _ => err trivial
  | succ fuel ih =>
    unfold Bab.runTask
    refine .claim rfl (by plain) fun s => ?_
    cases s with
    | none =>
      exact bind (runTaskBody ih htasks) fun r r' hr => note (.taskEnd _ hr) (.ret hr)
    | some s =>
      cases s with
      | done => exact .ret .ok
      | running =>
        refine .snapshot fun x y hxy => ?_
        rw [buildChain_map htasks (fun n => hxy n (g n) rfl) hg hlen]
        exact leaf (.circularDep _) (fun _ _ h => by cases h)

end

variable {g : Str → Str} {c : Cfg} {tasks tasks' : TaskMap}

/-- the two invocations: whatever the one does the other one can do -/
theorem twins (hinj : ∀ a b, g a = g b → a = b) (htasks : ∀ n, tasks'.get? (g n) = (tasks.get? n).map (renameTask g))
    (hlen : tasks.length = tasks'.length) (G : GoMap Str) (main : Str) :
    (∀ s, Reach (start c tasks G main) s → ∃ s', Reach (start c tasks' G (g main)) s' ∧ Twin g s s') ∧
    (∀ s', Reach (start c tasks' G (g main)) s' → ∃ s, Reach (start c tasks G main) s ∧ Twin g s s') := by
  have hr : Rel (by_ g hinj) (runWithTasks c tasks main) (runWithTasks c tasks' (g main)) := by
    unfold runWithTasks
    rw [hlen]
    exact runTask htasks hlen _ _ _ _
  have hs : Sh (by_ g hinj) (Shared.init G) (Shared.init G) := ⟨fun _ _ _ => rfl, rfl, rfl, rfl, .nil⟩
  constructor
  · intro s h
    obtain ⟨s', h1, h2, h3⟩ := reach hr hs h
    exact ⟨s', h1, h3.trace, h3.gvars, fun r hr => ends h2 hr, fun r hr => ends h2.flip hr⟩
  · intro s' h
    obtain ⟨s, h1, h2, h3⟩ := reach hr.flip hs.flip h
    exact ⟨s, h1, h3.trace.flip, h3.gvars.symm, fun r hr => ends h2.flip hr, fun r hr => ends h2 hr⟩

end Rename
end Bab
