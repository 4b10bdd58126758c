import Verif.Proof.SafeRun
import Verif.Spec.Confine
/-
Programs that are equal except where the recursion bound of the model ends them, and whose events
all satisfy a condition. The programs of two task maps that agree on what the main task needs are
related in this way.
-/

namespace Bab
open Spec

namespace Sim

/-- the two programs are equal up to places where the recursion bound is hit; their events satisfy `φ` -/
inductive Rel (φ : Ev → Prop) : Prog → Prog → Prop
  | ret (r : Option Err) : Rel φ (.ret r) (.ret r)
  | act (a : Act) {k k' : a.Resp → Prog} (he : ∀ x, ∀ e ∈ a.evs x, φ e) (h : ∀ x, Rel φ (k x) (k' x)) :
      Rel φ (.act a k) (.act a k')
  | par {lim ctx t it n st} {ps ps' : Fin n → Prog} {k k' : Option Err → Prog}
      (he : ∀ j : Fin n, φ (.subAbort t it j)) (hp : ∀ i, Rel φ (ps i) (ps' i)) (h : ∀ r, Rel φ (k r) (k' r)) :
      Rel φ (.par lim ctx t it n st ps k) (.par lim ctx t it n st ps' k')
  | left {k q} : Rel φ (.act .fuel k) q
  | right {p k} : Rel φ p (.act .fuel k)

/-- the recursion bound is hit somewhere -/
def Pending : Prog → Prop
  | .ret _ => False
  | .act .fuel _ => True
  | .act _ _ => False
  | .par _ _ _ _ _ _ ps _ => ∃ i, Pending (ps i)

theorem not_pending {c : Cfg} {tasks : TaskMap} {main : Str} {gvars : GoMap Str} {p : Prog} {P : Safe.Post} {F O : Safe.Facts}
    (h : Safe.Safe (Safe.rq c tasks main gvars) (GlobalsOk tasks gvars) p P F O) : ¬ Pending p := by
  induction p generalizing P O with
  | ret r => exact id
  | act a k _ =>
    cases a with
    | fuel => exact fun _ => (h () trivial).2.1
    | _ => exact id
  | par lim ctx t it n st ps k ihp _ =>
    obtain ⟨G, B, Oi, _, hs, _⟩ := h
    rintro ⟨i, hi⟩
    exact ihp i (hs i) hi

/-- in no state of an invocation is the recursion bound hit -/
theorem reach_not_pending {c : Cfg} {tasks : TaskMap} {main : Str} {gvars : GoMap Str} {s : State}
    (h : Reach (start c tasks gvars main) s) : ¬ Pending s.prog := by
  obtain ⟨_, _, _, O, _, hs⟩ := Safe.runner_safe h
  exact not_pending hs

theorem upd_rel {φ : Ev → Prop} {n : Nat} {ps ps' : Fin n → Prog} (hp : ∀ i, Rel φ (ps i) (ps' i)) {i : Fin n} {p p' : Prog}
    (h : Rel φ p p') : ∀ j, Rel φ (upd ps i p j) (upd ps' i p' j) := by
  intro j
  unfold upd
  split
  · exact h
  · exact hp j

/-- a step of one program can be made by the other one -/
theorem step {φ : Ev → Prop} {p q : Prog} (hr : Rel φ p q) {σ σ' : Shared} {p' : Prog} (h : Step p σ p' σ')
    (hp : ¬ Pending p) (hq : ¬ Pending q) :
    ∃ q', Step q σ q' σ' ∧ Rel φ p' q' ∧ ∃ es, σ'.trace = σ.trace ++ es ∧ ∀ e ∈ es, φ e := by
  induction h generalizing q with
  | @act a k σ x hx =>
    cases hr with
    | act _ he h => exact ⟨_, .act x hx, h x, _, rfl, he x⟩
    | left => exact absurd trivial hp
    | right => exact absurd trivial hq
  | acquire i h hs =>
    cases hr with
    | par he hps hk => exact ⟨_, .acquire i h hs, .par he hps hk, [], by simp, by simp⟩
    | right => exact absurd trivial hq
  | abort i h hl hc =>
    cases hr with
    | par he hps hk => exact ⟨_, .abort i h hl hc, .par he hps hk, _, rfl, by simpa using he i⟩
    | right => exact absurd trivial hq
  | child i h hs ih =>
    cases hr with
    | par he hps hk =>
      obtain ⟨q', h1, h2, h3⟩ := ih (hps i) (fun hh => hp ⟨i, hh⟩) (fun hh => hq ⟨i, hh⟩)
      exact ⟨_, .child i h h1, .par he (upd_rel hps h2) hk, h3⟩
    | right => exact absurd trivial hq
  | finish i h hret =>
    cases hr with
    | @par _ _ _ _ _ _ _ ps' _ _ he hps hk =>
      have hi := hps i
      rw [hret] at hi
      cases hi' : ps' i with
      | ret r' =>
        rw [hi'] at hi
        cases hi with
        | ret => exact ⟨_, .finish i h hi', .par he hps hk, [], by simp, by simp⟩
      | act a k =>
        rw [hi'] at hi
        cases hi with
        | right => exact (hq ⟨i, by rw [hi']; trivial⟩).elim
      | par lim ctx t it n st ps k =>
        rw [hi'] at hi
        cases hi
    | right => exact absurd trivial hq
  | release i h =>
    cases hr with
    | par he hps hk => exact ⟨_, .release i h, .par he hps hk, [], by simp, by simp⟩
    | right => exact absurd trivial hq
  | wgDone i h =>
    cases hr with
    | par he hps hk => exact ⟨_, .wgDone i h, .par he hps hk, [], by simp, by simp⟩
    | right => exact absurd trivial hq
  | join h =>
    cases hr with
    | par he hps hk => exact ⟨_, .join h, hk _, [], by simp, by simp⟩
    | right => exact absurd trivial hq

/-! ### the functions of the runner -/

section
variable {φ : Ev → Prop}

theorem note {e : Ev} {p q : Prog} (he : φ e) (h : Rel φ p q) : Rel φ (.note e p) (.note e q) :=
  .act _ (fun _ e' he' => by simp only [Act.evs, List.mem_singleton] at he'; exact he' ▸ he) (fun _ => h)

theorem silent {a : Act} {k k' : a.Resp → Prog} (he : ∀ x, a.evs x = []) (h : ∀ x, Rel φ (k x) (k' x)) :
    Rel φ (.act a k) (.act a k') :=
  .act a (fun x e h => by rw [he x] at h; cases h) h

theorem bind {p q : Prog} {f g : Option Err → Prog} (h : Rel φ p q) (hf : ∀ r, Rel φ (f r) (g r)) :
    Rel φ (p.bind f) (q.bind g) := by
  induction h with
  | ret r => exact hf r
  | act a he _ ih => exact .act a he ih
  | par he hp _ _ ih => exact .par he hp ih
  | left => exact .left
  | right => exact .right

theorem andThen {p q : Prog} {w : Err → Err} {f g : Prog} (h : Rel φ p q) (hf : Rel φ f g) :
    Rel φ (p.andThen w f) (q.andThen w g) :=
  bind h fun r => by cases r; exact hf; exact .ret _

theorem readVars {v : VarEnv} {k k' : GoMap Str → Prog} (h : ∀ m, Rel φ (k m) (k' m)) :
    Rel φ (readVars v k) (readVars v k') := by
  cases v with
  | own m => exact h m
  | global => exact silent (fun _ => rfl) h

theorem writeVar {v : VarEnv} {n x : Str} {k k' : VarEnv → Prog} (h : ∀ m, Rel φ (k m) (k' m)) :
    Rel φ (writeVar v n x k) (writeVar v n x k') := by
  cases v with
  | own m => exact h _
  | global => exact silent (fun _ => rfl) (fun _ => h _)

end

/-- the event is about an acceptable task -/
def On (good : Str → Prop) (e : Ev) : Prop := ∀ n, about e = some n → good n

/-- related recursive calls -/
def RecRel (good : Str → Prop) (rec rec' : Rec) : Prop := ∀ fr b n, good n → Rel (On good) (rec fr b n) (rec' fr b n)

section
variable {good : Str → Prop}

theorem on_of {e : Ev} {n : Str} (h : about e = some n) (hn : good n) : On good e := by
  intro m hm
  rw [h] at hm
  cases hm
  exact hn

local notation "R" => Rel (On good)

theorem runProc {tn : Str} {fr : Frame} {loc : Loc} {spec : ProcSpec} (hg : good loc.task) :
    R (Bab.runProc tn fr loc spec) (Bab.runProc tn fr loc spec) := by
  have hf : ∀ code : Nat, R (.act (.cancelled fr.ctx) fun (b : Bool) =>
        .ret (some (.wrap (.command tn spec.cmd) (if b then .canceled else .exit code))))
      (.act (.cancelled fr.ctx) fun (b : Bool) =>
        .ret (some (.wrap (.command tn spec.cmd) (if b then .canceled else .exit code)))) :=
    fun code => silent (fun _ => rfl) (fun _ => .ret _)
  refine .act _ ?_ (fun started => ?_)
  · intro x e he
    cases x <;> (simp only [Act.evs, List.mem_singleton] at he; subst he; exact on_of rfl hg)
  · cases started with
    | true =>
      refine .act _ ?_ (fun r => ?_)
      · intro x e he
        simp only [Act.evs, List.mem_singleton] at he; subst he; exact on_of rfl hg
      · cases r with
        | none => exact .ret _
        | some code => exact hf code
    | false => exact hf 127

theorem executeCommand {c : Cfg} {T : Task} {fr : Frame} {loc : Loc} {v : CommandRun} {vars : VarEnv} {tenv : GoMap Str}
    (hg : good loc.task) :
    R (Bab.executeCommand c T fr loc v vars tenv) (Bab.executeCommand c T fr loc v vars tenv) := by
  unfold Bab.executeCommand
  split
  · exact .ret _
  · refine readVars fun m => note (on_of rfl hg) ?_
    split
    · exact .ret _
    · split
      · exact note (on_of rfl hg) (.ret _)
      · simp only
        split
        · exact runProc hg
        · exact note (on_of rfl hg) (runProc hg)

variable {rec rec' : Rec} (hrec : RecRel good rec rec')
include hrec

theorem executeRunItem {c : Cfg} {T : Task} {fr : Frame} {loc : Loc} {item : RunItem} {vars : VarEnv} {tenv : GoMap Str}
    (hg : good loc.task) (hi : ∀ t, item = .task t → good t.task) :
    R (Bab.executeRunItem c rec T fr loc item vars tenv) (Bab.executeRunItem c rec' T fr loc item vars tenv) := by
  unfold Bab.executeRunItem
  cases item with
  | command v => exact executeCommand hg
  | task t =>
    simp only
    split
    · exact note (on_of rfl hg) (.ret _)
    · exact hrec _ _ _ (hi t rfl)
  | log l =>
    refine readVars fun m => note (on_of rfl hg) ?_
    split
    · exact .ret _
    · split <;> exact note (on_of rfl hg) (.ret _)
  | prompt p => exact .ret _
  | parallel => exact .ret _

theorem preDeps {fr : Frame} {ds seen : List Str} {k k' : List Str → Prog} (hd : ∀ d ∈ ds, good d)
    (hk : ∀ s, R (k s) (k' s)) : R (preDeps rec fr ds seen k) (preDeps rec' fr ds seen k') := by
  induction ds generalizing seen with
  | nil => exact hk seen
  | cons d ds ih =>
    have ih := fun seen => ih (seen := seen) (fun x hx => hd x (List.mem_cons_of_mem _ hx))
    unfold Bab.preDeps
    split
    · exact ih _
    · refine silent (fun _ => rfl) fun s => ?_
      split
      · exact ih _
      · exact andThen (hrec _ _ _ (hd d List.mem_cons_self)) (ih _)

theorem preResolveDeps {tasks tasks' : TaskMap} (hag : ∀ n, good n → tasks.get? n = tasks'.get? n)
    (hcl : ∀ n T d, good n → tasks.get? n = some T → d ∈ T.deps → good d)
    {fr : Frame} {items : List RunItem} {seen : List Str} {k k' : Prog} (hi : ∀ t, .task t ∈ items → good t.task)
    (hk : R k k') : R (preResolveDeps tasks rec fr items seen k) (preResolveDeps tasks' rec' fr items seen k') := by
  induction items generalizing seen with
  | nil => exact hk
  | cons item items ih =>
    have ih := fun seen => ih (seen := seen) (fun t ht => hi t (List.mem_cons_of_mem _ ht))
    cases item with
    | task t =>
      have ht := hi t List.mem_cons_self
      unfold Bab.preResolveDeps
      rw [← hag _ ht]
      cases hT : tasks.get? t.task with
      | none => exact .ret _
      | some T => exact preDeps hrec (fun d hd => hcl _ _ _ ht hT hd) (fun s => ih s)
    | _ => exact ih seen

omit hrec in
theorem runBlock {lim : Nat} {ctx : CtxPath} {name : Str} {i : Nat} {items : List RunItem} {labels : List Str}
    {child child' : Nat → RunItem → Prog} (hg : good name)
    (h : ∀ (j : Nat) item, item ∈ items → R (child j item) (child' j item)) :
    R (Bab.runBlock lim ctx name i items labels child) (Bab.runBlock lim ctx name i items labels child') := by
  refine .par (fun j => on_of rfl hg) (fun j => ?_) (fun r => note (on_of rfl hg) (.ret _))
  exact note (on_of rfl hg) (bind (h j _ (List.get_mem _ _)) fun r => note (on_of rfl hg) (.ret _))

theorem executeParallel {tasks tasks' : TaskMap} (hag : ∀ n, good n → tasks.get? n = tasks'.get? n)
    (hcl : ∀ n T d, good n → tasks.get? n = some T → d ∈ T.deps → good d)
    {c : Cfg} {name : Str} {T : Task} {fr : Frame} {i : Nat} {items : List RunItem} {labels : List Str} {mode : ParallelMode}
    {lim : Nat} {color silent output : Option Bool} {m tenv : GoMap Str} (hg : good name)
    (hi : ∀ t, .task t ∈ items → good t.task) :
    R (executeParallel c tasks rec name T fr i items labels mode lim color silent output m tenv)
      (executeParallel c tasks' rec' name T fr i items labels mode lim color silent output m tenv) := by
  unfold Bab.executeParallel
  refine preResolveDeps hrec hag hcl hi ?_
  have hchild : ∀ (fr : Frame) (j : Nat) (item : RunItem), item ∈ items →
      R (Bab.executeRunItem c rec T fr ⟨name, i, some j⟩ item (.own m) tenv)
        (Bab.executeRunItem c rec' T fr ⟨name, i, some j⟩ item (.own m) tenv) :=
    fun fr j item hm => executeRunItem hrec hg (fun t ht => hi t (ht ▸ hm))
  have htui : ∀ fr : Frame, R (executeParallelTUI c rec name T fr i items labels lim m tenv)
      (executeParallelTUI c rec' name T fr i items labels lim m tenv) := by
    intro fr
    unfold executeParallelTUI
    simp only
    split
    · exact note (on_of rfl hg) (runBlock hg (fun j item hm => hchild _ j item hm))
    · refine Sim.silent (fun _ => rfl) fun id => ?_
      refine .act _ ?_ fun ok => ?_
      · intro x e he
        simp only [Act.evs, List.mem_singleton] at he; subst he
        intro n hn; cases hn
      · split
        · exact note (on_of rfl hg) (runBlock hg (fun j item hm => hchild _ j item hm))
        · exact .ret _
  have hint : ∀ fr : Frame, R (executeParallelInterleaved c rec name T fr i items labels lim m tenv)
      (executeParallelInterleaved c rec' name T fr i items labels lim m tenv) := by
    intro fr
    exact note (on_of rfl hg) (runBlock hg (fun j item hm => hchild _ j item hm))
  cases c.dry with
  | true => exact note (on_of rfl hg) (.ret _)
  | false =>
    simp only [Bool.false_eq_true, if_false]
    split
    · exact htui _
    · exact hint _

omit hrec in
theorem executePrompt {tn : Str} {c : Cfg} {loc : Loc} {p : PromptRun} {vars : VarEnv} {k k' : Option Err → VarEnv → Prog}
    (hg : good loc.task) (hk : ∀ r v, R (k r v) (k' r v)) :
    R (executePrompt c tn loc p vars k) (executePrompt c tn loc p vars k') := by
  unfold Bab.executePrompt
  refine readVars fun m => note (on_of rfl hg) ?_
  cases placed p.line (interpolatePrompt p ⟨m, c.env⟩) with
  | error e => exact hk _ _
  | ok p' =>
    simp only
    have hgot : ∀ r : Except Err Str,
        R (match r with
          | .error e => k (some (.wrap (.prompt tn p.prompt) e)) vars
          | .ok ans => Bab.writeVar vars p.prompt ans (k none))
        (match r with
          | .error e => k' (some (.wrap (.prompt tn p.prompt) e)) vars
          | .ok ans => Bab.writeVar vars p.prompt ans (k' none)) := by
      intro r
      cases r with
      | error e => exact hk _ _
      | ok a => exact writeVar (fun m => hk _ _)
    split
    · exact note (on_of rfl hg) (hk _ _)
    · split
      · refine .act _ ?_ hgot
        intro x e he
        simp only [Act.evs, List.mem_singleton] at he; subst he; exact on_of rfl hg
      · exact note (on_of rfl hg) (hgot _)

theorem executeItem {tasks tasks' : TaskMap} (hag : ∀ n, good n → tasks.get? n = tasks'.get? n)
    (hcl : ∀ n T d, good n → tasks.get? n = some T → d ∈ T.deps → good d)
    {c : Cfg} {name : Str} {T : Task} {fr : Frame} {i : Nat} {item : RunItem} {vars : VarEnv} {tenv : GoMap Str}
    {k k' : Option Err → VarEnv → Prog} (hg : good name) (hi : ∀ d, CallsIn d [item] → good d)
    (hk : ∀ r v, R (k r v) (k' r v)) :
    R (executeItem c tasks rec name T fr i item vars tenv k) (executeItem c tasks' rec' name T fr i item vars tenv k') := by
  unfold Bab.executeItem
  cases item with
  | prompt p => exact executePrompt hg hk
  | parallel items labels mode lim color silent output pl w ln =>
    simp only
    split
    · exact note (on_of rfl hg) (hk _ _)
    · refine readVars fun m => bind (executeParallel hrec hag hcl hg fun t ht => ?_) fun r => hk _ _
      refine hi _ (.block ?_)
      clear hi
      induction items with
      | nil => cases ht
      | cons a l ih =>
        rcases List.mem_cons.mp ht with rfl | ht
        · exact .here rfl
        · exact .later (ih ht)
  | command v => exact bind (executeRunItem hrec hg (fun t ht => by cases ht)) fun r => hk _ _
  | log l => exact bind (executeRunItem hrec hg (fun t ht => by cases ht)) fun r => hk _ _
  | task t => exact bind (executeRunItem hrec hg (fun t ht => by cases ht; exact hi _ (.here rfl))) fun r => hk _ _

theorem executeItems {tasks tasks' : TaskMap} (hag : ∀ n, good n → tasks.get? n = tasks'.get? n)
    (hcl : ∀ n T d, good n → tasks.get? n = some T → d ∈ T.deps → good d)
    {c : Cfg} {name : Str} {T : Task} {fr : Frame} {tenv : GoMap Str} {items : List RunItem} {i : Nat} {vars : VarEnv}
    {ex sk : Nat} (hg : good name) (hi : ∀ d, CallsIn d items → good d) :
    R (executeItems c tasks rec name T fr tenv items i vars ex sk)
      (executeItems c tasks' rec' name T fr tenv items i vars ex sk) := by
  induction items generalizing i vars ex sk with
  | nil =>
    unfold Bab.executeItems
    split <;> exact .ret _
  | cons item rest ih =>
    have ih := fun i vars ex sk => ih (i := i) (vars := vars) (ex := ex) (sk := sk) (fun d hd => hi d (.later hd))
    unfold Bab.executeItems
    refine silent (fun _ => rfl) fun b => ?_
    simp only
    have hgo : ∀ w : Option (GoMap Str),
        R (.note (.itemStart name i w) <|
          Bab.executeItem c tasks rec name T fr i item vars tenv fun r vars' =>
            .note (.itemEnd name i r) <|
            match r with
            | some e => .ret (some e)
            | none => Bab.executeItems c tasks rec name T fr tenv rest (i + 1) vars' (ex + 1) sk)
        (.note (.itemStart name i w) <|
          Bab.executeItem c tasks' rec' name T fr i item vars tenv fun r vars' =>
            .note (.itemEnd name i r) <|
            match r with
            | some e => .ret (some e)
            | none => Bab.executeItems c tasks' rec' name T fr tenv rest (i + 1) vars' (ex + 1) sk) := by
      intro w
      refine note (on_of rfl hg) (executeItem hrec hag hcl hg ?_ fun r v => note (on_of rfl hg) ?_)
      · intro d hd
        cases hd with
        | here h => exact hi _ (.here h)
        | block h => exact hi _ (.block h)
        | later h => cases h
      · cases r with
        | some e => exact .ret _
        | none => exact ih _ _ _ _
    split
    · exact .ret _
    · split
      · exact note (on_of rfl hg) (ih _ _ _ _)
      · split
        · exact hgo none
        · refine readVars fun m => ?_
          split
          · exact .ret _
          · exact note (on_of rfl hg) (ih _ _ _ _)
          · exact hgo _

theorem runDeps {name : Str} {fr : Frame} {k k' : Prog} {ds : List Str} {i : Nat} (hg : good name)
    (hd : ∀ d ∈ ds, good d) (hk : R k k') : R (runDeps rec name fr k ds i) (runDeps rec' name fr k' ds i) := by
  induction ds generalizing i with
  | nil => exact hk
  | cons d ds ih =>
    unfold Bab.runDeps
    refine bind (hrec _ _ _ (hd d List.mem_cons_self)) fun r => ?_
    cases r with
    | none => exact note (on_of rfl hg) (ih (fun x hx => hd x (List.mem_cons_of_mem _ hx)))
    | some e => exact note (on_of rfl hg) (.ret _)

theorem runTaskBody {tasks tasks' : TaskMap} (hag : ∀ n, good n → tasks.get? n = tasks'.get? n)
    (hcl : ∀ n T d, good n → tasks.get? n = some T → d ∈ T.deps ∨ CallsIn d T.run → good d)
    {c : Cfg} {fr : Frame} {isMain : Bool} {name : Str} (hg : good name) :
    R (runTaskBody c tasks rec fr isMain name) (runTaskBody c tasks' rec' fr isMain name) := by
  unfold Bab.runTaskBody
  rw [← hag _ hg]
  cases hT : tasks.get? name with
  | none => exact .ret _
  | some T =>
    simp only
    have hfin : R (.act (.setDone name) fun _ => .ret none) (.act (.setDone name) fun _ => .ret none) := by
      refine .act _ ?_ fun _ => .ret _
      intro x e he
      simp only [Act.evs, List.mem_singleton] at he; subst he; exact on_of rfl hg
    have hdeps : R
        (Bab.runDeps rec name fr
          (if T.run = [] then .act (.setDone name) fun _ => .ret none
           else (Bab.executeTask c tasks rec name T fr).bind fun
            | some e => .ret (some e)
            | none => .act (.setDone name) fun _ => .ret none) T.deps 0)
        (Bab.runDeps rec' name fr
          (if T.run = [] then .act (.setDone name) fun _ => .ret none
           else (Bab.executeTask c tasks' rec' name T fr).bind fun
            | some e => .ret (some e)
            | none => .act (.setDone name) fun _ => .ret none) T.deps 0) := by
      refine runDeps hrec hg (fun d hd => hcl _ _ _ hg hT (Or.inl hd)) ?_
      split
      · exact hfin
      · refine bind ?_ fun r => by cases r; exact hfin; exact .ret _
        unfold Bab.executeTask
        refine silent (fun _ => rfl) fun g => ?_
        cases placed T.line (resolveVars T.vars g c.env) with
        | error e => exact .ret _
        | ok m =>
          refine note (on_of rfl hg) ?_
          split
          · exact .ret _
          · exact executeItems hrec hag (fun n T d h1 h2 h3 => hcl n T d h1 h2 (Or.inl h3)) hg
              (fun d hd => hcl _ _ _ hg hT (Or.inr hd))
    have hgo : ∀ {A B : Prog}, R A B →
        R (if !c.dry && !isSilent [fr.ovSilent, T.silent, c.globalSilent] then .note (.echoTask name isMain fr.out) A else A)
          (if !c.dry && !isSilent [fr.ovSilent, T.silent, c.globalSilent] then .note (.echoTask name isMain fr.out) B else B) := by
      intro A B h
      split
      · exact note (on_of rfl hg) h
      · exact h
    split
    · exact hgo hdeps
    · refine silent (fun _ => rfl) fun g => ?_
      split
      · exact .ret _
      · exact note (on_of rfl hg) hfin
      · exact note (on_of rfl hg) (hgo hdeps)

end

end Sim
end Bab
