import Verif.Proof.Race
/-
The functions of the runner in the logic of `Proof/Race`.
-/

namespace Bab.Race
open Bab Spec Spec.Conc

/-- `A` consists of questions and accesses to the global variables, and tasks that are not in `P` perform none of them
themselves -/
structure Watch (c : Cfg) (tasks : TaskMap) (A : Act → Prop) (P : Str → Prop) : Prop where
  kind : ∀ a, A a → IsQuestion a ∨ IsAccess a
  asks : ∀ n, ¬ P n → Asks c.platform tasks n → ∀ l p, ¬ A (.prompt l p)
  writes : ∀ n, ¬ P n → Writes c.platform tasks n → ∀ k v, ¬ A (.setGlobal k v)
  reads : ∀ n, ¬ P n → UsesVars tasks n → ¬ A .globals

section
variable {c : Cfg} {tasks : TaskMap} {A B : Act → Prop} {P P' : Str → Prop} {K : Kn} {s : Prop}

theorem Watch.other (w : Watch c tasks A P) {a : Act} (h1 : ∀ l p, a ≠ .prompt l p) (h2 : a ≠ .globals) (h3 : ∀ k v, a ≠ .setGlobal k v) : ¬ A a := by
  intro h
  rcases w.kind a h with ⟨l, p, e⟩ | e | ⟨k, v, e⟩
  · exact h1 l p e
  · exact h2 e
  · exact h3 k v e

/-- everything the task may run is harmless, or known to be done -/
def Fine (tasks : TaskMap) (P : Str → Prop) (K : Kn) (n : Str) : Prop := ∀ x, Leads tasks K n x → ¬ K x → ¬ P x

theorem fine_child {n d : Str} (h : Fine tasks P K n) (hn : ¬ K n) (hu : MayRun tasks n d) : Fine tasks P K d :=
  fun x hx => h x (Claim.leads_head hx hn hu)

/-! ## a goroutine that stays out of the way -/

theorem never_note (w : Watch c tasks A P) {e : Ev} {p : Prog} (h : Never A K p) : Never A K (.note e p) :=
  ⟨w.other (by intros; simp) (by simp) (by intros; simp), fun _ _ => h⟩

/-- the variables may be read without performing an action in `A` -/
def Quiet (A : Act → Prop) (v : VarEnv) : Prop := v = .global → ¬ A .globals

theorem never_readVars {v : VarEnv} {k : GoMap Str → Prog} (hv : Quiet A v) (h : ∀ m, Never A K (k m)) : Never A K (readVars v k) := by
  cases v with
  | own m => exact h m
  | global => exact ⟨hv rfl, fun x _ => h x⟩

theorem never_runProc (w : Watch c tasks A P) {tn : Str} (fr : Frame) (loc : Loc) (spec : ProcSpec) : Never A K (runProc tn fr loc spec) := by
  have hf : ∀ code, Never A K (Prog.act (.cancelled fr.ctx) fun (b : Bool) =>
        .ret (some (.wrap (.command tn spec.cmd) (if b then .canceled else .exit code)))) := by
    intro code
    exact ⟨w.other (by intros; simp) (by simp) (by intros; simp), fun _ _ => trivial⟩
  refine ⟨w.other (by intros; simp) (by simp) (by intros; simp), fun b _ => ?_⟩
  cases b with
  | false => exact hf 127
  | true =>
    refine ⟨w.other (by intros; simp) (by simp) (by intros; simp), fun r _ => ?_⟩
    cases r with
    | none => trivial
    | some code => exact hf code

theorem never_executeCommand (w : Watch c tasks A P) (T : Task) (fr : Frame) (loc : Loc) (v : CommandRun) {vars : VarEnv} (hv : Quiet A vars)
    (tenv : GoMap Str) : Never A K (executeCommand c T fr loc v vars tenv) := by
  unfold executeCommand
  split
  · trivial
  · refine never_readVars hv fun m => never_note w ?_
    cases hp : placed v.line (prepareCommand c T v tenv m) with
    | error e => trivial
    | ok x =>
      obtain ⟨text, env, dir⟩ := x
      dsimp only
      split
      · exact never_note w trivial
      · split
        · exact never_runProc w _ _ _
        · exact never_note w (never_runProc w _ _ _)

def RecNever (tasks : TaskMap) (A : Act → Prop) (P : Str → Prop) (K : Kn) (rec : Rec) : Prop :=
  ∀ fr b m, Fine tasks P K m → Never A K (rec fr b m)

theorem never_executeRunItem (w : Watch c tasks A P) {rec : Rec} (hrec : RecNever tasks A P K rec) (T : Task) (fr : Frame) (loc : Loc)
    (item : RunItem) {vars : VarEnv} (hv : Quiet A vars) (tenv : GoMap Str) (hk : ∀ t, item = .task t → Fine tasks P K t.task) :
    Never A K (executeRunItem c rec T fr loc item vars tenv) := by
  unfold executeRunItem
  split
  · exact never_executeCommand w _ _ _ _ hv _
  · next t =>
    split
    · exact never_note w trivial
    · exact hrec _ _ _ (hk t rfl)
  · next l =>
    refine never_readVars hv fun m => never_note w ?_
    cases hp : placed l.line (interpolate l.log ⟨m, c.env⟩) with
    | error e => trivial
    | ok text =>
      dsimp only
      split
      · exact never_note w trivial
      · exact never_note w trivial
  · trivial

theorem never_preDeps (w : Watch c tasks A P) {rec : Rec} (hrec : RecNever tasks A P K rec) (fr : Frame) (ds : List Str) (seen : List Str)
    (k : List Str → Prog) (hd : ∀ d ∈ ds, Fine tasks P K d) (hk : ∀ seen', Never A K (k seen')) : Never A K (preDeps rec fr ds seen k) := by
  induction ds generalizing seen with
  | nil => exact hk seen
  | cons d ds ih =>
    have hrest := fun seen => ih seen fun x hx => hd x (List.mem_cons_of_mem _ hx)
    unfold preDeps
    split
    · exact hrest seen
    · refine ⟨w.other (by intros; simp) (by simp) (by intros; simp), fun (x : Option Status) _ => ?_⟩
      dsimp only
      split
      · exact hrest _
      · refine never_bind (hrec _ _ _ (hd d List.mem_cons_self)) fun r => ?_
        cases r with
        | none => exact hrest _
        | some e => trivial

theorem never_preResolveDeps (w : Watch c tasks A P) {rec : Rec} (hrec : RecNever tasks A P K rec) (fr : Frame) (items : List RunItem)
    (seen : List Str) (k : Prog) (hd : ∀ d, Prior tasks items d → Fine tasks P K d) (hk : Never A K k) :
    Never A K (preResolveDeps tasks rec fr items seen k) := by
  induction items generalizing seen with
  | nil => exact hk
  | cons item items ih =>
    have hrest := fun seen => ih seen fun d ⟨t, T, h, h'⟩ => hd d ⟨t, T, List.mem_cons_of_mem _ h, h'⟩
    cases item with
    | task t =>
      unfold preResolveDeps
      cases hT : tasks.get? t.task with
      | none => trivial
      | some T => exact never_preDeps w hrec fr T.deps seen _ (fun d hdep => hd d ⟨t, T, List.mem_cons_self, hT, hdep⟩) hrest
    | command v => exact hrest _
    | log l => exact hrest _
    | prompt p => exact hrest _
    | parallel => exact hrest _

theorem never_item (w : Watch c tasks A P) {name : Str} {i j : Nat} {f : Err → Err} {p : Prog} (h : Never A K p) :
    Never A K (.note (.subStart name i j) (p.bind fun r => .note (.subEnd name i j r) (.ret (r.map f)))) :=
  never_note w (never_bind h fun _ => never_note w trivial)

theorem never_runBlock (w : Watch c tasks A P) (lim : Nat) (ctx : CtxPath) (name : Str) (i : Nat) (items : List RunItem) (labels : List Str)
    (child : Nat → RunItem → Prog) (hchild : ∀ j item, item ∈ items → Never A K (child j item)) :
    Never A K (runBlock lim ctx name i items labels child) := by
  unfold runBlock
  exact ⟨fun j => never_item w (hchild j _ (List.get_mem items j)), fun r => never_note w trivial⟩

theorem never_executeParallel (w : Watch c tasks A P) {rec : Rec} (hrec : RecNever tasks A P K rec) (name : Str) (T : Task) (fr : Frame) (i : Nat)
    (items : List RunItem) (labels : List Str) (mode : ParallelMode) (lim : Nat) (color silent output : Option Bool)
    (m tenv : GoMap Str) (hprior : ∀ d, Prior tasks items d → Fine tasks P K d) (hcall : ∀ t, .task t ∈ items → Fine tasks P K t.task) :
    Never A K (executeParallel c tasks rec name T fr i items labels mode lim color silent output m tenv) := by
  unfold executeParallel
  dsimp only
  refine never_preResolveDeps w hrec _ items [] _ hprior ?_
  have hblock : ∀ ctx (f : Nat → Frame), Never A K (runBlock lim ctx name i items labels fun j item =>
      executeRunItem c rec T (f j) ⟨name, i, some j⟩ item (.own m) tenv) := by
    intro ctx f
    refine never_runBlock w lim ctx name i items labels _ ?_
    intro j item hmem
    exact never_executeRunItem w hrec T (f j) _ item (fun h => by cases h) tenv fun t ht => hcall t (ht ▸ hmem)
  split
  · exact never_note w trivial
  · split
    · unfold executeParallelTUI
      dsimp only
      split
      · exact never_note w (hblock _ _)
      · refine ⟨w.other (by intros; simp) (by simp) (by intros; simp), fun id _ => ⟨w.other (by intros; simp) (by simp) (by intros; simp), fun ok _ => ?_⟩⟩
        cases ok with
        | true => exact never_note w (hblock _ _)
        | false => trivial
    · unfold executeParallelInterleaved
      exact never_note w (hblock _ _)

/-- an answer may be stored without performing an action in `A` -/
def Mute (A : Act → Prop) (v : VarEnv) : Prop := v = .global → ∀ k x, ¬ A (.setGlobal k x)

theorem never_executePrompt (w : Watch c tasks A P) {tn : Str} (loc : Loc) (p : PromptRun) (vars : VarEnv) (k : Option Err → VarEnv → Prog)
    (hv : Quiet A vars) (hm : Mute A vars) (hq : ∀ l p, ¬ A (.prompt l p))
    (hk : ∀ r vars', (vars' = .global → vars = .global) → Never A K (k r vars')) : Never A K (executePrompt c tn loc p vars k) := by
  unfold executePrompt
  refine never_readVars hv fun m => never_note w ?_
  cases hp : placed p.line (interpolatePrompt p ⟨m, c.env⟩) with
  | error e => exact hk _ _ id
  | ok p' =>
    dsimp only
    have hgot : ∀ r : Except Err Str, Never A K (match r with
          | .error e => k (some (.wrap (.prompt tn p.prompt) e)) vars
          | .ok ans => writeVar vars p.prompt ans (k none)) := by
      intro r
      cases r with
      | error e => exact hk _ _ id
      | ok ans =>
        cases vars with
        | own m => exact hk _ _ (fun h => by cases h)
        | global => exact ⟨hm rfl _ _, fun _ _ => hk _ _ id⟩
    split
    · exact never_note w (hk _ _ id)
    · split
      · exact ⟨hq _ _, fun r _ => hgot r⟩
      · exact never_note w (hgot _)

theorem never_executeItem (w : Watch c tasks A P) {rec : Rec} (hrec : RecNever tasks A P K rec) (name : Str) (T : Task) (fr : Frame) (i : Nat)
    (item : RunItem) (vars : VarEnv) (tenv : GoMap Str) (k : Option Err → VarEnv → Prog) (hT : tasks.get? name = some T)
    (hitem : item ∈ T.run) (hon : item.onPlatform c.platform = true) (hP : ¬ P name) (hv : vars = .global → T.vars = none)
    (hu : ∀ d, MayRun tasks name d → Fine tasks P K d)
    (hk : ∀ r vars', (vars' = .global → T.vars = none) → Never A K (k r vars')) :
    Never A K (executeItem c tasks rec name T fr i item vars tenv k) := by
  have hg : ¬ A .globals := w.reads name hP ⟨T, hT, Or.inr fun h => by rw [h] at hitem; cases hitem⟩
  have hcalls : ∀ t, item = .task t → Fine tasks P K t.task := by
    rintro t rfl
    exact hu _ (Or.inl ⟨T, hT, Or.inr (Claim.callsIn_of_mem hitem)⟩)
  unfold executeItem
  split
  · next p =>
    exact never_executePrompt w _ _ _ _ (fun _ => hg) (fun h => w.writes name hP ⟨T, p, hT, hv h, hitem, hon⟩)
      (w.asks name hP ⟨T, p, hT, hitem, hon⟩) fun r vars' hr => hk r vars' fun h => hv (hr h)
  · split
    · exact never_note w (hk _ _ hv)
    · refine never_readVars (fun _ => hg) fun m => never_bind (never_executeParallel w hrec name T fr i _ _ _ _ _ _ _ m tenv ?_ ?_) fun r => hk _ _ hv
      · intro d hd
        exact hu d (Or.inr ⟨T, _, _, _, _, _, _, _, _, _, _, hT, hitem, hd⟩)
      · intro t ht
        exact hu _ (Or.inl ⟨T, hT, Or.inr (Claim.callsIn_of_block hitem (Claim.callsIn_of_mem ht))⟩)
  · exact never_bind (never_executeRunItem w hrec T fr _ _ (fun _ => hg) tenv hcalls) fun r => hk _ _ hv

theorem never_executeItems (w : Watch c tasks A P) {rec : Rec} (hrec : RecNever tasks A P K rec) (name : Str) (T : Task) (fr : Frame)
    (tenv : GoMap Str) (hT : tasks.get? name = some T) (hP : ¬ P name) (hu : ∀ d, MayRun tasks name d → Fine tasks P K d)
    (items : List RunItem) (i : Nat) (vars : VarEnv) (ex sk : Nat) (hitems : ∀ x ∈ items, x ∈ T.run) (hv : vars = .global → T.vars = none) :
    Never A K (executeItems c tasks rec name T fr tenv items i vars ex sk) := by
  induction items generalizing i vars ex sk with
  | nil =>
    unfold executeItems
    split <;> trivial
  | cons item rest ih =>
    have hin := hitems item List.mem_cons_self
    have hg : ¬ A .globals := w.reads name hP ⟨T, hT, Or.inr fun h => by rw [h] at hin; cases hin⟩
    have hrest : ∀ x ∈ rest, x ∈ T.run := fun x hx => hitems x (List.mem_cons_of_mem _ hx)
    have hgo : ∀ w, item.onPlatform c.platform = true → Never A K (Prog.note (.itemStart name i w) <|
          executeItem c tasks rec name T fr i item vars tenv fun r vars' =>
            .note (.itemEnd name i r) <|
            match r with
            | some e => .ret (some e)
            | none => executeItems c tasks rec name T fr tenv rest (i + 1) vars' (ex + 1) sk) := by
      intro _ hon
      refine never_note w (never_executeItem w hrec name T fr i item vars tenv _ hT hin hon hP hv hu ?_)
      intro r vars' hr
      refine never_note w ?_
      cases r with
      | some e => trivial
      | none => exact ih _ _ _ _ hrest hr
    unfold executeItems
    refine ⟨w.other (by intros; simp) (by simp) (by intros; simp), fun b _ => ?_⟩
    cases b with
    | true => trivial
    | false =>
      dsimp only
      rw [if_neg (by simp)]
      split
      · exact never_note w (ih _ _ _ _ hrest hv)
      · next hon =>
        have hon : item.onPlatform c.platform = true := by simpa using hon
        split
        · exact hgo none hon
        · refine never_readVars (fun _ => hg) fun m => ?_
          cases he : placed item.line (evaluate item.cond ⟨m, c.env⟩) with
          | error e => trivial
          | ok b =>
            cases b with
            | false => exact never_note w (ih _ _ _ _ hrest hv)
            | true => exact hgo (some m) hon

theorem never_executeTask (w : Watch c tasks A P) {rec : Rec} (hrec : RecNever tasks A P K rec) (name : Str) (T : Task) (fr : Frame)
    (hT : tasks.get? name = some T) (hP : ¬ P name) (hrun : T.run ≠ []) (hu : ∀ d, MayRun tasks name d → Fine tasks P K d) :
    Never A K (executeTask c tasks rec name T fr) := by
  unfold executeTask
  refine ⟨w.reads name hP ⟨T, hT, Or.inr hrun⟩, fun g _ => ?_⟩
  dsimp only
  cases hm : placed T.line (resolveVars T.vars g c.env) with
  | error e => trivial
  | ok m =>
    refine never_note w ?_
    cases he : placed T.line (interpolateEnv ⟨m, c.env⟩ (mergeEnvMaps [c.globalEnv, T.env])) with
    | error e => trivial
    | ok tenv =>
      refine never_executeItems w hrec name T fr tenv hT hP hu _ _ _ _ _ (fun x h => h) ?_
      cases T.vars with
      | none => exact fun _ => rfl
      | some v => intro h; cases h

theorem never_runDeps (w : Watch c tasks A P) {rec : Rec} (hrec : RecNever tasks A P K rec) (name : Str) (fr : Frame) (k : Prog) (ds : List Str)
    (i : Nat) (hd : ∀ d ∈ ds, Fine tasks P K d) (hk : Never A K k) : Never A K (runDeps rec name fr k ds i) := by
  induction ds generalizing i with
  | nil => exact hk
  | cons d ds ih =>
    unfold runDeps
    refine never_bind (hrec _ _ _ (hd d List.mem_cons_self)) fun r => ?_
    cases r with
    | none => exact never_note w (ih _ fun x hx => hd x (List.mem_cons_of_mem _ hx))
    | some e => exact never_note w trivial

theorem never_runTaskBody (w : Watch c tasks A P) {rec : Rec} (hrec : RecNever tasks A P K rec) (fr : Frame) (isMain : Bool) (name : Str)
    (hP : ¬ P name) (hu : ∀ d, MayRun tasks name d → Fine tasks P K d) : Never A K (runTaskBody c tasks rec fr isMain name) := by
  unfold runTaskBody
  cases hT : tasks.get? name with
  | none => trivial
  | some T =>
    dsimp only
    have hfin : Never A K (Prog.act (.setDone name) fun _ => .ret none) :=
      ⟨w.other (by intros; simp) (by simp) (by intros; simp), fun _ _ => trivial⟩
    have hdeps : Never A K (runDeps rec name fr
          (if T.run = [] then Prog.act (.setDone name) fun _ => .ret none
           else (executeTask c tasks rec name T fr).bind fun
            | some e => .ret (some e)
            | none => Prog.act (.setDone name) fun _ => .ret none) T.deps 0) := by
      refine never_runDeps w hrec name fr _ _ _ (fun d hd => hu d (Or.inl ⟨T, hT, Or.inl hd⟩)) ?_
      split
      · exact hfin
      · next hrun =>
        refine never_bind (never_executeTask w hrec name T fr hT hP hrun hu) fun r => ?_
        cases r with
        | some e => trivial
        | none => exact hfin
    have hgo : Never A K (if !c.dry && !isSilent [fr.ovSilent, T.silent, c.globalSilent] then
          Prog.note (.echoTask name isMain fr.out) (runDeps rec name fr
            (if T.run = [] then Prog.act (.setDone name) fun _ => .ret none
             else (executeTask c tasks rec name T fr).bind fun
              | some e => .ret (some e)
              | none => Prog.act (.setDone name) fun _ => .ret none) T.deps 0)
        else runDeps rec name fr
            (if T.run = [] then Prog.act (.setDone name) fun _ => .ret none
             else (executeTask c tasks rec name T fr).bind fun
              | some e => .ret (some e)
              | none => Prog.act (.setDone name) fun _ => .ret none) T.deps 0) := by
      split
      · exact never_note w hdeps
      · exact hdeps
    split
    · exact hgo
    · next hc =>
      refine ⟨w.reads name hP ⟨T, hT, Or.inl hc⟩, fun g _ => ?_⟩
      dsimp only
      cases he : placed T.line (evaluate T.cond ⟨g, c.env⟩) with
      | error e => trivial
      | ok b =>
        cases b with
        | false => exact never_note w hfin
        | true => exact never_note w hgo

theorem never_runTask (w : Watch c tasks A P) (fuel : Nat) : RecNever tasks A P K (runTask c tasks fuel) := by
  induction fuel with
  | zero => exact fun _ _ _ _ => ⟨w.other (by intros; simp) (by simp) (by intros; simp), fun _ _ => trivial⟩
  | succ fuel ih =>
    intro fr b m hm
    unfold runTask
    refine ⟨w.other (by intros; simp) (by simp) (by intros; simp), fun x hx => ?_⟩
    have hx : K m → x = some .done := hx
    rcases x with _ | _ | _
    · have hk : ¬ K m := fun h => by cases hx h
      exact never_bind (never_runTaskBody w ih fr b m (hm m .self hk) fun d hd => fine_child hm hk hd) fun r => never_note w trivial
    · exact ⟨w.other (by intros; simp) (by simp) (by intros; simp), fun _ _ => trivial⟩
    · trivial

/-! ## the whole program -/

variable {main : Str}

/-- nothing is left to show -/
def Any : Post := fun _ _ => True

/-- what a call of `runTask` leaves behind -/
def DoneIfOk (n : Str) : Post := fun K r => r = none → K n

theorem mono_any : Mono Any := fun _ _ _ _ _ => trivial
theorem mono_done (n : Str) : Mono (DoneIfOk n) := fun _ _ _ h hq hr => h n (hq hr)

theorem calm_note {e : Ev} {p : Prog} {Q : Post} (hQ : Mono Q) (h : Calm A B s p K Q) : Calm A B s (.note e p) K Q :=
  fun _ _ => calm_mono hQ (fun _ h => Or.inl h) h

/-- an action that tells nothing about the tasks that are done -/
theorem calm_act {a : Act} {k : a.Resp → Prog} {Q : Post} (hQ : Mono Q) (h : ∀ x, Calm A B s (k x) K Q) : Calm A B s (.act a k) K Q :=
  fun x _ => calm_mono hQ (fun _ h => Or.inl h) (h x)

theorem calm_readVars {v : VarEnv} {k : GoMap Str → Prog} {Q : Post} (hQ : Mono Q) (h : ∀ m, Calm A B s (k m) K Q) : Calm A B s (readVars v k) K Q := by
  cases v with
  | own m => exact h m
  | global => exact calm_act hQ h

theorem calm_writeVar {v : VarEnv} {n x : Str} {k : VarEnv → Prog} {Q : Post} (hQ : Mono Q) (h : ∀ v, Calm A B s (k v) K Q) :
    Calm A B s (writeVar v n x k) K Q := by
  cases v with
  | own m => exact h _
  | global => exact calm_act hQ fun _ => h _

theorem calm_runProc {tn : Str} (fr : Frame) (loc : Loc) (spec : ProcSpec) : Calm A B s (runProc tn fr loc spec) K Any := by
  refine calm_act mono_any fun b => ?_
  cases b with
  | false => exact calm_act mono_any fun _ => trivial
  | true =>
    refine calm_act mono_any fun r => ?_
    cases r with
    | none => trivial
    | some code => exact calm_act mono_any fun _ => trivial

theorem calm_executeCommand (T : Task) (fr : Frame) (loc : Loc) (v : CommandRun) (vars : VarEnv) (tenv : GoMap Str) :
    Calm A B s (executeCommand c T fr loc v vars tenv) K Any := by
  unfold executeCommand
  split
  · trivial
  · refine calm_readVars mono_any fun m => calm_note mono_any ?_
    cases hp : placed v.line (prepareCommand c T v tenv m) with
    | error e => trivial
    | ok x =>
      obtain ⟨text, env, dir⟩ := x
      dsimp only
      split
      · exact calm_note mono_any trivial
      · split
        · exact calm_runProc _ _ _
        · exact calm_note mono_any (calm_runProc _ _ _)

/-- the recursive calls -/
structure RecCalm (tasks : TaskMap) (main : Str) (A B : Act → Prop) (P P' : Str → Prop) (s : Prop) (rec : Rec) : Prop where
  calm : ∀ fr b m K, Leads tasks (fun _ => False) main m → Calm A B s (rec fr b m) K (DoneIfOk m)
  neverA : ∀ K, RecNever tasks A P K rec
  neverB : ∀ K, RecNever tasks B P' K rec

/-- the items of blocks keep out of each other's way -/
def Blocks (tasks : TaskMap) (main : Str) (P P' : Str → Prop) (s : Prop) : Prop :=
  ∀ items, BlockOf tasks main items → ∀ (i j : Nat) (a b : RunItem), i ≠ j ∨ s → items[i]? = some a → items[j]? = some b →
    May tasks items P a → ¬ May tasks items P' b

theorem calm_executeRunItem {rec : Rec} (hrec : RecCalm tasks main A B P P' s rec) (T : Task) (fr : Frame) (loc : Loc)
    (item : RunItem) (vars : VarEnv) (tenv : GoMap Str) (hk : ∀ t, item = .task t → Leads tasks (fun _ => False) main t.task) :
    Calm A B s (executeRunItem c rec T fr loc item vars tenv) K Any := by
  unfold executeRunItem
  split
  · exact calm_executeCommand _ _ _ _ _ _
  · next t =>
    split
    · exact calm_note mono_any trivial
    · exact calm_post (hrec.calm _ _ _ _ (hk t rfl)) fun _ _ _ _ => trivial
  · next l =>
    refine calm_readVars mono_any fun m => calm_note mono_any ?_
    cases hp : placed l.line (interpolate l.log ⟨m, c.env⟩) with
    | error e => trivial
    | ok text =>
      dsimp only
      split
      · exact calm_note mono_any trivial
      · exact calm_note mono_any trivial
  · trivial

theorem calm_preDeps {rec : Rec} (hrec : RecCalm tasks main A B P P' s rec) (fr : Frame) (ds : List Str) (seen : List Str)
    (k : List Str → Prog) (hd : ∀ d ∈ ds, Leads tasks (fun _ => False) main d) (hs : ∀ d ∈ seen, K d)
    (hk : ∀ K' seen', (∀ x, K x → K' x) → (∀ d ∈ seen', K' d) → (∀ d ∈ ds, K' d) → Calm A B s (k seen') K' Any) :
    Calm A B s (preDeps rec fr ds seen k) K Any := by
  induction ds generalizing seen K with
  | nil => exact hk K seen (fun _ h => h) hs (by simp)
  | cons d ds ih =>
    have hrest : ∀ K1 : Kn, (∀ x, K x → K1 x) → K1 d → ∀ seen1 : List Str, (∀ x ∈ seen1, K1 x) → Calm A B s (preDeps rec fr ds seen1 k) K1 Any := by
      intro K1 h1 hK seen1 hs1
      refine ih seen1 (fun x hx => hd x (List.mem_cons_of_mem _ hx)) hs1 ?_
      intro K' seen' h2 h3 h4
      refine hk K' seen' (fun x hx => h2 x (h1 x hx)) h3 ?_
      intro x hx
      rcases List.mem_cons.mp hx with rfl | hx
      · exact h2 _ hK
      · exact h4 x hx
    have hseen : ∀ K1 : Kn, (∀ x, K x → K1 x) → K1 d → ∀ x ∈ d :: seen, K1 x := by
      intro K1 h1 hK x hx
      rcases List.mem_cons.mp hx with rfl | hx
      · exact hK
      · exact h1 x (hs x hx)
    unfold preDeps
    split
    · next hin => exact hrest K (fun _ h => h) (hs d hin) seen hs
    · intro x _
      have hx : ∀ y, K y → next K (.status d) x y := fun _ h => Or.inl h
      dsimp only
      split
      · next hdone =>
        have hK : next K (.status d) x d := Or.inr (by rw [hdone]; rfl)
        exact hrest _ hx hK _ (hseen _ hx hK)
      · unfold Prog.andThen
        refine calm_bind (hrec.calm _ _ _ _ (hd d List.mem_cons_self)) ?_
        intro K1 r h1 hpost
        cases r with
        | none =>
          have h2 : ∀ y, K y → K1 y := fun y hy => h1 y (hx y hy)
          exact hrest K1 h2 (hpost rfl) _ (hseen K1 h2 (hpost rfl))
        | some e => trivial

theorem calm_preResolveDeps {rec : Rec} (hrec : RecCalm tasks main A B P P' s rec) (fr : Frame) (items : List RunItem) (seen : List Str)
    (k : Prog) (hd : ∀ d, Prior tasks items d → Leads tasks (fun _ => False) main d) (hs : ∀ d ∈ seen, K d)
    (hk : ∀ K', (∀ x, K x → K' x) → (∀ d, Prior tasks items d → K' d) → Calm A B s k K' Any) :
    Calm A B s (preResolveDeps tasks rec fr items seen k) K Any := by
  induction items generalizing seen K with
  | nil =>
    refine hk K (fun _ h => h) ?_
    rintro d ⟨t, T, h, _⟩
    cases h
  | cons item items ih =>
    have hskip : (∀ t, item ≠ .task t) → Calm A B s (preResolveDeps tasks rec fr items seen k) K Any := by
      intro hne
      refine ih seen (fun d ⟨t, T, h, h'⟩ => hd d ⟨t, T, List.mem_cons_of_mem _ h, h'⟩) hs ?_
      intro K' h1 hp
      refine hk K' h1 ?_
      rintro d ⟨t, T, h, h'⟩
      rcases List.mem_cons.mp h with h | h
      · exact absurd h.symm (hne t)
      · exact hp d ⟨t, T, h, h'⟩
    cases item with
    | task t =>
      unfold preResolveDeps
      cases hT : tasks.get? t.task with
      | none => trivial
      | some T =>
        refine calm_preDeps hrec fr T.deps seen _ (fun d hdep => hd d ⟨t, T, List.mem_cons_self, hT, hdep⟩) hs ?_
        intro K1 seen1 h1 hseen hall
        refine ih seen1 (fun d ⟨u, U, h, h'⟩ => hd d ⟨u, U, List.mem_cons_of_mem _ h, h'⟩) hseen ?_
        intro K' h2 hp
        refine hk K' (fun x hx => h2 x (h1 x hx)) ?_
        rintro d ⟨u, U, h, hU, hdep⟩
        rcases List.mem_cons.mp h with h | h
        · cases h
          rw [hT] at hU; cases hU
          exact h2 d (hall d hdep)
        · exact hp d ⟨u, U, h, hU, hdep⟩
    | command v => exact hskip (by intro t h; cases h)
    | log l => exact hskip (by intro t h; cases h)
    | prompt p => exact hskip (by intro t h; cases h)
    | parallel => exact hskip (by intro t h; cases h)

theorem fine_of_not_may {items : List RunItem} {t : TaskRun} (hK : ∀ d, Prior tasks items d → K d) (h : ¬ May tasks items P (.task t)) :
    Fine tasks P K t.task :=
  fun x hx hn hP => h ⟨t, x, rfl, Claim.leads_mono hx hK, fun hp => hn (hK x hp), hP⟩

theorem calm_runBlock (wA : Watch c tasks A P) (wB : Watch c tasks B P') {rec : Rec} (hrec : RecCalm tasks main A B P P' s rec)
    (hb : Blocks tasks main P P' s) (lim : Nat) (ctx : CtxPath) (name : Str) (T : Task) (i : Nat) (items : List RunItem) (labels : List Str)
    (f : Nat → Frame) (m tenv : GoMap Str) (hbl : BlockOf tasks main items) (hprior : ∀ d, Prior tasks items d → K d)
    (hcall : ∀ t, .task t ∈ items → Leads tasks (fun _ => False) main t.task) :
    Calm A B s (runBlock lim ctx name i items labels fun j item =>
      executeRunItem c rec T (f j) ⟨name, i, some j⟩ item (.own m) tenv) K Any := by
  classical
  unfold runBlock
  have hfine : ∀ (C : Act → Prop) (R : Str → Prop), Watch c tasks C R → RecNever tasks C R K rec → ∀ j : Fin items.length,
      ¬ May tasks items R (items.get j) → Never C K (.note (.subStart name i j)
        ((executeRunItem c rec T (f j) ⟨name, i, some ↑j⟩ (items.get j) (.own m) tenv).bind fun r =>
          .note (.subEnd name i j r) (.ret (r.map (.wrap (.item (itemLabel items labels j))))))) := by
    intro C R wC hC j hj
    refine never_item wC (never_executeRunItem wC hC T (f j) _ _ (fun h => by cases h) tenv ?_)
    intro t ht
    rw [ht] at hj
    exact fine_of_not_may hprior hj
  refine ⟨fun j l hjl => ?_, fun j => ?_, fun r => calm_note mono_any trivial⟩
  · by_cases hP : May tasks items P (items.get j)
    · refine Or.inr (hfine B P' wB (hrec.neverB K) l (hb items hbl j l _ _ ?_ (List.getElem?_eq_getElem j.2) (List.getElem?_eq_getElem l.2) hP))
      exact hjl.imp (fun h e => h (Fin.ext e)) id
    · exact Or.inl (hfine A P wA (hrec.neverA K) j hP)
  · refine calm_note mono_any (calm_bind (calm_executeRunItem hrec T (f j) _ _ _ tenv ?_) fun K' r _ _ => calm_note mono_any trivial)
    intro t ht
    exact hcall t (ht ▸ List.get_mem items j)

theorem calm_executeParallel (wA : Watch c tasks A P) (wB : Watch c tasks B P') {rec : Rec} (hrec : RecCalm tasks main A B P P' s rec)
    (hb : Blocks tasks main P P' s) (name : Str) (T : Task) (fr : Frame) (i : Nat)
    (items : List RunItem) (labels : List Str) (mode : ParallelMode) (lim : Nat) (color silent output : Option Bool)
    (m tenv : GoMap Str) (hbl : BlockOf tasks main items) (hprior : ∀ d, Prior tasks items d → Leads tasks (fun _ => False) main d)
    (hcall : ∀ t, .task t ∈ items → Leads tasks (fun _ => False) main t.task) :
    Calm A B s (executeParallel c tasks rec name T fr i items labels mode lim color silent output m tenv) K Any := by
  unfold executeParallel
  dsimp only
  refine calm_preResolveDeps hrec _ items [] _ hprior (by simp) ?_
  intro K1 _ hdone
  split
  · exact calm_note mono_any trivial
  · split
    · unfold executeParallelTUI
      dsimp only
      split
      · exact calm_note mono_any (calm_runBlock wA wB hrec hb _ _ _ _ _ _ _ _ _ _ hbl hdone hcall)
      · refine calm_act mono_any fun id => calm_act mono_any fun ok => ?_
        cases ok with
        | true => exact calm_note mono_any (calm_runBlock wA wB hrec hb _ _ _ _ _ _ _ _ _ _ hbl hdone hcall)
        | false => trivial
    · unfold executeParallelInterleaved
      exact calm_note mono_any (calm_runBlock wA wB hrec hb _ _ _ _ _ _ _ _ _ _ hbl hdone hcall)

theorem calm_executePrompt {tn : Str} (loc : Loc) (p : PromptRun) (vars : VarEnv) (k : Option Err → VarEnv → Prog)
    (hk : ∀ r vars', Calm A B s (k r vars') K Any) : Calm A B s (executePrompt c tn loc p vars k) K Any := by
  unfold executePrompt
  refine calm_readVars mono_any fun m => calm_note mono_any ?_
  cases hp : placed p.line (interpolatePrompt p ⟨m, c.env⟩) with
  | error e => exact hk _ _
  | ok p' =>
    dsimp only
    have hgot : ∀ r : Except Err Str, Calm A B s (match r with
          | .error e => k (some (.wrap (.prompt tn p.prompt) e)) vars
          | .ok ans => writeVar vars p.prompt ans (k none)) K Any := by
      intro r
      cases r with
      | error e => exact hk _ _
      | ok ans => exact calm_writeVar mono_any fun v => hk _ _
    split
    · exact calm_note mono_any (hk _ _)
    · split
      · exact calm_act mono_any fun r => hgot r
      · exact calm_note mono_any (hgot _)

theorem leads_child {n d : Str} (hm : Leads tasks (fun _ => False) main n) (hu : MayRun tasks n d) : Leads tasks (fun _ => False) main d :=
  .step hm (fun h => h) hu

theorem calm_executeItem (wA : Watch c tasks A P) (wB : Watch c tasks B P') {rec : Rec} (hrec : RecCalm tasks main A B P P' s rec)
    (hb : Blocks tasks main P P' s) (name : Str) (T : Task) (fr : Frame) (i : Nat) (item : RunItem) (vars : VarEnv) (tenv : GoMap Str)
    (k : Option Err → VarEnv → Prog) (hT : tasks.get? name = some T) (hitem : item ∈ T.run) (hm : Leads tasks (fun _ => False) main name)
    (hk : ∀ r vars' (K' : Kn), Calm A B s (k r vars') K' Any) :
    Calm A B s (executeItem c tasks rec name T fr i item vars tenv k) K Any := by
  unfold executeItem
  split
  · exact calm_executePrompt _ _ _ _ fun r vars' => hk r vars' _
  · split
    · exact calm_note mono_any (hk _ _ _)
    · refine calm_readVars mono_any fun m => calm_bind
        (calm_executeParallel wA wB hrec hb name T fr i _ _ _ _ _ _ _ m tenv ⟨name, T, _, _, _, _, _, _, _, _, _, hm, hT, hitem⟩ ?_ ?_)
        fun K' r _ _ => hk _ _ _
      · intro d hd
        exact leads_child hm (Or.inr ⟨T, _, _, _, _, _, _, _, _, _, _, hT, hitem, hd⟩)
      · intro t ht
        exact leads_child hm (Or.inl ⟨T, hT, Or.inr (Claim.callsIn_of_block hitem (Claim.callsIn_of_mem ht))⟩)
  · refine calm_bind (calm_executeRunItem hrec T fr _ _ vars tenv ?_) fun K' r _ _ => hk _ _ _
    rintro t rfl
    exact leads_child hm (Or.inl ⟨T, hT, Or.inr (Claim.callsIn_of_mem hitem)⟩)

theorem calm_executeItems (wA : Watch c tasks A P) (wB : Watch c tasks B P') {rec : Rec} (hrec : RecCalm tasks main A B P P' s rec)
    (hb : Blocks tasks main P P' s) (name : Str) (T : Task) (fr : Frame) (tenv : GoMap Str) (hT : tasks.get? name = some T)
    (hm : Leads tasks (fun _ => False) main name) (items : List RunItem) (i : Nat) (vars : VarEnv) (ex sk : Nat) (hitems : ∀ x ∈ items, x ∈ T.run) :
    Calm A B s (executeItems c tasks rec name T fr tenv items i vars ex sk) K Any := by
  induction items generalizing i vars ex sk K with
  | nil =>
    unfold executeItems
    split <;> trivial
  | cons item rest ih =>
    have hrest : ∀ x ∈ rest, x ∈ T.run := fun x hx => hitems x (List.mem_cons_of_mem _ hx)
    have hgo : ∀ w, Calm A B s (Prog.note (.itemStart name i w) <|
          executeItem c tasks rec name T fr i item vars tenv fun r vars' =>
            .note (.itemEnd name i r) <|
            match r with
            | some e => .ret (some e)
            | none => executeItems c tasks rec name T fr tenv rest (i + 1) vars' (ex + 1) sk) K Any := by
      intro _
      refine calm_note mono_any (calm_executeItem wA wB hrec hb name T fr i item vars tenv _ hT (hitems item List.mem_cons_self) hm ?_)
      intro r vars' K'
      refine calm_note mono_any ?_
      cases r with
      | some e => trivial
      | none => exact ih _ _ _ _ hrest
    unfold executeItems
    refine calm_act mono_any fun b => ?_
    cases b with
    | true => trivial
    | false =>
      dsimp only
      rw [if_neg (by simp)]
      split
      · exact calm_note mono_any (ih _ _ _ _ hrest)
      · split
        · exact hgo none
        · refine calm_readVars mono_any fun m => ?_
          cases he : placed item.line (evaluate item.cond ⟨m, c.env⟩) with
          | error e => trivial
          | ok b =>
            cases b with
            | false => exact calm_note mono_any (ih _ _ _ _ hrest)
            | true => exact hgo (some m)

theorem calm_executeTask (wA : Watch c tasks A P) (wB : Watch c tasks B P') {rec : Rec} (hrec : RecCalm tasks main A B P P' s rec)
    (hb : Blocks tasks main P P' s) (name : Str) (T : Task) (fr : Frame) (hT : tasks.get? name = some T)
    (hm : Leads tasks (fun _ => False) main name) : Calm A B s (executeTask c tasks rec name T fr) K Any := by
  unfold executeTask
  refine calm_act mono_any fun g => ?_
  cases hr : placed T.line (resolveVars T.vars g c.env) with
  | error e => trivial
  | ok m =>
    refine calm_note mono_any ?_
    cases he : placed T.line (interpolateEnv ⟨m, c.env⟩ (mergeEnvMaps [c.globalEnv, T.env])) with
    | error e => trivial
    | ok tenv => exact calm_executeItems wA wB hrec hb name T fr tenv hT hm _ _ _ _ _ (fun x h => h)

theorem calm_runDeps {rec : Rec} (hrec : RecCalm tasks main A B P P' s rec) (name : Str) (fr : Frame) (k : Prog) (ds : List Str) (i : Nat)
    {Q : Post} (hQ : Mono Q) (he : ∀ K e, Q K (some e)) (hd : ∀ d ∈ ds, Leads tasks (fun _ => False) main d) (hk : ∀ K', Calm A B s k K' Q) :
    Calm A B s (runDeps rec name fr k ds i) K Q := by
  induction ds generalizing i K with
  | nil => exact hk K
  | cons d ds ih =>
    unfold runDeps
    refine calm_bind (hrec.calm _ _ _ _ (hd d List.mem_cons_self)) fun K' r _ _ => ?_
    cases r with
    | none => exact calm_note hQ (ih _ fun x hx => hd x (List.mem_cons_of_mem _ hx))
    | some e => exact calm_note hQ (he _ _)

theorem calm_runTaskBody (wA : Watch c tasks A P) (wB : Watch c tasks B P') {rec : Rec} (hrec : RecCalm tasks main A B P P' s rec)
    (hb : Blocks tasks main P P' s) (fr : Frame) (isMain : Bool) (name : Str) (hm : Leads tasks (fun _ => False) main name) :
    Calm A B s (runTaskBody c tasks rec fr isMain name) K (DoneIfOk name) := by
  have hQ := mono_done name
  have herr : ∀ K e, DoneIfOk name K (some e) := fun K e h => by cases h
  unfold runTaskBody
  cases hT : tasks.get? name with
  | none => exact herr _ _
  | some T =>
    dsimp only
    have hfin : ∀ K', Calm A B s (Prog.act (.setDone name) fun _ => .ret none) K' (DoneIfOk name) := fun K' _ _ _ => Or.inr rfl
    have hdeps : ∀ K', Calm A B s (runDeps rec name fr
          (if T.run = [] then Prog.act (.setDone name) fun _ => .ret none
           else (executeTask c tasks rec name T fr).bind fun
            | some e => .ret (some e)
            | none => Prog.act (.setDone name) fun _ => .ret none) T.deps 0) K' (DoneIfOk name) := by
      intro K'
      refine calm_runDeps hrec name fr _ _ _ hQ herr (fun d hd => leads_child hm (Or.inl ⟨T, hT, Or.inl hd⟩)) ?_
      intro K''
      split
      · exact hfin K''
      · refine calm_bind (calm_executeTask wA wB hrec hb name T fr hT hm) fun K3 r _ _ => ?_
        cases r with
        | some e => exact herr _ _
        | none => exact hfin _
    have hgo : ∀ K', Calm A B s (if !c.dry && !isSilent [fr.ovSilent, T.silent, c.globalSilent] then
          Prog.note (.echoTask name isMain fr.out) (runDeps rec name fr
            (if T.run = [] then Prog.act (.setDone name) fun _ => .ret none
             else (executeTask c tasks rec name T fr).bind fun
              | some e => .ret (some e)
              | none => Prog.act (.setDone name) fun _ => .ret none) T.deps 0)
        else runDeps rec name fr
            (if T.run = [] then Prog.act (.setDone name) fun _ => .ret none
             else (executeTask c tasks rec name T fr).bind fun
              | some e => .ret (some e)
              | none => Prog.act (.setDone name) fun _ => .ret none) T.deps 0) K' (DoneIfOk name) := by
      intro K'
      split
      · exact calm_note hQ (hdeps _)
      · exact hdeps _
    split
    · exact hgo _
    · refine calm_act hQ fun g => ?_
      cases he : placed T.line (evaluate T.cond ⟨g, c.env⟩) with
      | error e => exact herr _ _
      | ok b =>
        cases b with
        | false => exact calm_note hQ (hfin _)
        | true => exact calm_note hQ (hgo _)

theorem calm_runTask (wA : Watch c tasks A P) (wB : Watch c tasks B P') (hb : Blocks tasks main P P' s) (fuel : Nat) :
    RecCalm tasks main A B P P' s (runTask c tasks fuel) := by
  induction fuel with
  | zero => exact ⟨fun _ _ m K _ _ _ h => (by cases h), fun K => never_runTask wA 0, fun K => never_runTask wB 0⟩
  | succ fuel ih =>
    refine ⟨?_, fun K => never_runTask wA _, fun K => never_runTask wB _⟩
    intro fr b m K hm
    unfold runTask
    intro x _
    rcases x with _ | _ | _
    · refine calm_bind (calm_runTaskBody wA wB ih hb fr b m hm) fun K' r _ hpost => ?_
      exact calm_note (mono_done m) hpost
    · exact calm_act (mono_done m) fun _ h => by cases h
    · exact fun _ => Or.inr rfl

/-- all states of an invocation -/
theorem calm_run (wA : Watch c tasks A P) (wB : Watch c tasks B P') (hb : Blocks tasks main P P' s) {gvars : GoMap Str} {st : State}
    (h : Reach (start c tasks gvars main) st) : ∃ K, Calm A B s st.prog K (DoneIfOk main) := by
  obtain ⟨K, -, h2⟩ := calm_reach h (mono_done main) (K := fun _ => False) (fun _ h => h.elim)
    ((calm_runTask wA wB hb (tasks.length + 2)).calm {} true main _ .self)
  exact ⟨K, h2⟩

theorem watch_questions : Watch c tasks IsQuestion (Asks c.platform tasks) where
  kind _ h := Or.inl h
  asks _ h h' := (h h').elim
  writes _ _ _ _ _ h := by obtain ⟨_, _, h⟩ := h; cases h
  reads _ _ _ h := by obtain ⟨_, _, h⟩ := h; cases h

theorem watch_writes : Watch c tasks IsWrite (Writes c.platform tasks) where
  kind _ h := Or.inr (Or.inr h)
  asks _ _ _ _ _ h := by obtain ⟨_, _, h⟩ := h; cases h
  writes _ h h' := (h h').elim
  reads _ _ _ h := by obtain ⟨_, _, h⟩ := h; cases h

theorem reads_of_writes {n : Str} (h : Writes c.platform tasks n) : UsesVars tasks n := by
  obtain ⟨T, p, h1, -, h2, -⟩ := h
  exact ⟨T, h1, Or.inr fun e => by rw [e] at h2; cases h2⟩

theorem watch_accesses : Watch c tasks IsAccess (UsesVars tasks) where
  kind _ h := Or.inr h
  asks _ _ _ _ _ h := by
    rcases h with h | ⟨_, _, h⟩ <;> cases h
  writes _ h h' := (h (reads_of_writes (c := c) h')).elim
  reads _ h h' := (h h').elim

end
end Bab.Race
