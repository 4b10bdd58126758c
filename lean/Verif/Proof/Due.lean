import Verif.Spec.Due
import Verif.Proof.Plan
import Verif.Proof.SafeRun
/-
Proof that only what is due happens (C78).
-/

namespace Bab
namespace Due
open Spec

/-- a program that does not change the global variables `g` and whose events all satisfy `E` -/
inductive Only (g : GoMap Str) (E : Ev → Prop) : Prog → Prop
  | ret {r : Option Err} : Only g E (.ret r)
  | globals {k : GoMap Str → Prog} : Only g E (k g) → Only g E (.act .globals k)
  | act {a : Act} {k : a.Resp → Prog} : (∀ x v, a ≠ .setGlobal x v) → (∀ x, ∀ e ∈ a.evs x, E e) → (∀ x, Only g E (k x)) → Only g E (.act a k)
  | par {lim : Nat} {ctx : CtxPath} {t : Str} {it n : Nat} {st : BState n} {ps : Fin n → Prog} {k : Option Err → Prog} :
      (∀ i, Only g E (ps i)) → (∀ r, Only g E (k r)) → Only g E (.par lim ctx t it n st ps k)

variable {g : GoMap Str} {E : Ev → Prop} {p : Prog}

theorem Only.bind {f : Option Err → Prog} (h : Only g E p) (hf : ∀ r, Only g E (f r)) : Only g E (p.bind f) := by
  induction h with
  | ret => exact hf _
  | globals _ ih => exact .globals ih
  | act h1 h2 _ ih => exact .act h1 h2 ih
  | par h1 _ _ ih => exact .par h1 ih

theorem Only.note {e : Ev} (he : E e) (h : Only g E p) : Only g E (.note e p) :=
  .act (fun _ _ h => by cases h) (fun x e' h => by simp only [Act.evs, List.mem_singleton] at h; subst h; exact he) (fun _ => h)

/-- an action without events that leaves the global variables alone -/
theorem Only.silent {a : Act} {k : a.Resp → Prog} (h : ∀ x v, a ≠ .setGlobal x v) (he : ∀ x, a.evs x = []) (hk : ∀ x, Only g E (k x)) :
    Only g E (.act a k) := .act h (fun x e h => by rw [he x] at h; cases h) hk

theorem Only.step {p p' : Prog} {σ σ' : Shared} (habort : ∀ t i j, E (.subAbort t i j)) (h : Only g E p) (hs : Step p σ p' σ')
    (hσ : σ.gvars = g) (ht : ∀ e ∈ σ.trace, E e) : Only g E p' ∧ σ'.gvars = g ∧ ∀ e ∈ σ'.trace, E e := by
  induction hs with
  | @act a k σ x hx =>
    cases h with
    | globals h =>
      have hx' : x = g := by rw [← hσ]; exact hx
      subst hx'
      exact ⟨h, hσ, by simpa [Act.apply, Act.evs, Act.effect] using ht⟩
    | act h1 h2 h3 =>
      refine ⟨h3 x, ?_, ?_⟩
      · cases a with
        | setGlobal y v => exact absurd rfl (h1 y v)
        | claim n => cases x <;> exact hσ
        | _ => exact hσ
      · have hm : (Act.apply σ a x).trace = σ.trace ++ a.evs x := rfl
        intro e he
        rw [hm, List.mem_append] at he
        rcases he with he | he
        · exact ht e he
        · exact h2 x e he
  | acquire i _ _ =>
    cases h with
    | par h1 h2 => exact ⟨.par h1 h2, hσ, ht⟩
  | abort i _ _ _ =>
    cases h with
    | par h1 h2 =>
      refine ⟨.par h1 h2, hσ, ?_⟩
      intro e he
      simp only [List.mem_append, List.mem_singleton] at he
      rcases he with he | rfl
      · exact ht e he
      · exact habort _ _ _
  | @child lim ctx t it n st ps k σ p' σ' i _ _ ih =>
    cases h with
    | par h1 h2 =>
      obtain ⟨h3, h4, h5⟩ := ih (h1 i) hσ ht
      refine ⟨.par ?_ h2, h4, h5⟩
      intro j
      unfold upd
      split
      · exact h3
      · exact h1 j
  | _ =>
    cases h with
    | par h1 h2 => first | exact ⟨.par h1 h2, hσ, ht⟩ | exact ⟨h2 _, hσ, ht⟩

theorem Only.sound {s0 s : State} (hcancel : ∀ id, E (.cancel id)) (habort : ∀ t i j, E (.subAbort t i j)) (h : Only g E s0.prog)
    (hσ : s0.sh.gvars = g) (ht : s0.sh.trace = []) (hr : Reach s0 s) : Only g E s.prog ∧ s.sh.gvars = g ∧ ∀ e ∈ s.sh.trace, E e := by
  induction hr with
  | refl => exact ⟨h, hσ, by simp [ht]⟩
  | step _ hs ih =>
    obtain ⟨h1, h2, h3⟩ := ih
    cases hs with
    | prog hst => exact h1.step habort hst h2 h3
    | cancel id _ =>
      refine ⟨h1, h2, ?_⟩
      intro e he
      simp only [List.mem_append, List.mem_singleton] at he
      rcases he with he | rfl
      · exact h3 e he
      · exact hcancel id

/-! ### the runner -/

/-- the process is that of a command that is due -/
def ProcDue (c : Cfg) (tasks : TaskMap) (g : GoMap Str) (main : Str) (loc : Loc) (spec : ProcSpec) : Prop :=
  ∃ T v m tenv text env dir fr, tasks.get? loc.task = some T ∧ Spec.Due c tasks g main (.item loc (.command v) m) ∧
    interpolateEnv ⟨m, c.env⟩ (mergeEnvMaps [c.globalEnv, T.env]) = .ok tenv ∧
    prepareCommand c T v tenv m = .ok (text, env, dir) ∧ spec = procSpec c fr T v text env dir

/-- what the events of a run are -/
def EvDue (c : Cfg) (tasks : TaskMap) (g : GoMap Str) (main : Str) : Ev → Prop
  | .taskSkip _ g' => g' = g
  | .itemSkip n _ (.cond m) => ∃ T, tasks.get? n = some T ∧ resolveVars T.vars g c.env = .ok m
  | .procStart loc spec => ProcDue c tasks g main loc spec
  | .logged loc text level _ => DueEntry c tasks g main (.log loc text level)
  | .wouldRun _ _ => False
  | .wouldLog _ _ _ => False
  | .wouldTask _ _ => False
  | _ => True

section
variable {c : Cfg} {tasks : TaskMap} {main : Str}

local notation "O" => Only g (EvDue c tasks g main)

theorem o_readVars {v : VarEnv} {m : GoMap Str} {k : GoMap Str → Prog} (h : Plan.Reads g v m) (hk : O (k m)) : O (readVars v k) := by
  rcases h with rfl | ⟨rfl, rfl⟩
  · exact hk
  · exact .globals hk

theorem o_runProc {tn : Str} {fr : Frame} {loc : Loc} {spec : ProcSpec} (h : ProcDue c tasks g main loc spec) :
    O (runProc tn fr loc spec) := by
  have hfail : ∀ code, O (.act (.cancelled fr.ctx) fun (b : Bool) =>
      .ret (some (.wrap (.command tn spec.cmd) (if b then .canceled else .exit code)))) := fun code =>
    .silent (fun _ _ h => by cases h) (fun _ => rfl) (fun _ => .ret)
  refine .act (fun _ _ h => by cases h) ?_ ?_
  · intro x e he
    cases x <;> simp only [Act.evs, List.mem_singleton] at he <;> subst he
    · trivial
    · exact h
  · intro x
    cases x with
    | false => exact hfail _
    | true =>
      refine .act (fun _ _ h => by cases h) ?_ ?_
      · intro x e he
        simp only [Act.evs, List.mem_singleton] at he; subst he; trivial
      · intro x
        cases x with
        | none => exact .ret
        | some code => exact hfail _

/-- calls of tasks that are due do only what is due -/
def RecDue (c : Cfg) (tasks : TaskMap) (g : GoMap Str) (main : Str) (rec : Rec) : Prop :=
  ∀ fr b n, Spec.Due c tasks g main (.task n) → Only g (EvDue c tasks g main) (rec fr b n)

variable {rec : Rec} {T : Task} {n : Str} {fr : Frame} {loc : Loc} {vars : VarEnv} {m tenv : GoMap Str}

theorem o_executeCommand {v : CommandRun} (hd : c.dry = false) (hT : tasks.get? loc.task = some T)
    (hdue : Spec.Due c tasks g main (.item loc (.command v) m)) (hm : Plan.Reads g vars m)
    (he : interpolateEnv ⟨m, c.env⟩ (mergeEnvMaps [c.globalEnv, T.env]) = .ok tenv) :
    O (executeCommand c T fr loc v vars tenv) := by
  unfold executeCommand
  split
  · exact .ret
  · refine o_readVars hm (.note trivial ?_)
    cases hp : placed v.line (prepareCommand c T v tenv m) with
    | error e => exact .ret
    | ok r =>
      obtain ⟨text, env, dir⟩ := r
      replace hp := of_placed_ok hp
      simp only [hd, Bool.false_eq_true, if_false]
      have hrun := o_runProc (tn := T.name) (fr := fr) (loc := loc) (spec := procSpec c fr T v text env dir) (c := c) (tasks := tasks) (g := g) (main := main)
        ⟨T, v, m, tenv, text, env, dir, fr, hT, hdue, he, hp, rfl⟩
      split
      · exact hrun
      · exact .note trivial hrun

theorem o_executeRunItem {it : RunItem} (hrec : RecDue c tasks g main rec) (hd : c.dry = false) (hT : tasks.get? loc.task = some T)
    (hdue : Spec.Due c tasks g main (.item loc it m)) (hm : Plan.Reads g vars m)
    (he : interpolateEnv ⟨m, c.env⟩ (mergeEnvMaps [c.globalEnv, T.env]) = .ok tenv) :
    O (executeRunItem c rec T fr loc it vars tenv) := by
  unfold executeRunItem
  split
  · exact o_executeCommand hd hT hdue hm he
  · rw [hd]
    exact hrec _ _ _ (.call hdue)
  · rename_i l
    refine o_readVars hm (.note trivial ?_)
    cases hp : placed l.line (interpolate l.log ⟨m, c.env⟩) with
    | error e => exact .ret
    | ok text =>
      replace hp := of_placed_ok hp
      simp only [hd, Bool.false_eq_true, if_false]
      exact .note (.log hdue hp) .ret
  · exact .ret

theorem o_andThen {q : Prog} {w : Err → Err} (hp : O p) (hq : O q) : O (p.andThen w q) :=
  hp.bind fun r => by
    cases r with
    | none => exact hq
    | some e => exact .ret

theorem o_preDeps (hrec : RecDue c tasks g main rec) {ds seen : List Str} {k : List Str → Prog}
    (hds : ∀ d ∈ ds, Spec.Due c tasks g main (.task d)) (hk : ∀ s, O (k s)) : O (preDeps rec fr ds seen k) := by
  induction ds generalizing seen with
  | nil => exact hk _
  | cons d ds ih =>
    have ih' := fun {seen} => ih (seen := seen) (fun d hd => hds d (List.mem_cons_of_mem _ hd))
    unfold preDeps
    split
    · exact ih'
    · refine .silent (fun _ _ h => by cases h) (fun _ => rfl) ?_
      intro (s : Option Status)
      split
      · exact ih'
      · exact o_andThen (hrec _ _ _ (hds d List.mem_cons_self)) ih'

theorem o_preResolveDeps (hrec : RecDue c tasks g main rec) {items : List RunItem} {seen : List Str} {k : Prog}
    (hds : ∀ t T d, .task t ∈ items → tasks.get? t.task = some T → d ∈ T.deps → Spec.Due c tasks g main (.task d)) (hk : O k) :
    O (preResolveDeps tasks rec fr items seen k) := by
  induction items generalizing seen with
  | nil => exact hk
  | cons it items ih =>
    have ih' := fun {seen} => ih (seen := seen) (fun t T d h => hds t T d (List.mem_cons_of_mem _ h))
    cases it with
    | task t =>
      unfold preResolveDeps
      split
      · exact .ret
      · rename_i T hT
        exact o_preDeps hrec (fun d hd => hds t T d List.mem_cons_self hT hd) (fun s => ih')
    | command _ => exact ih'
    | log _ => exact ih'
    | prompt _ => exact ih'
    | parallel _ _ _ _ _ _ _ _ _ _ => exact ih'

theorem o_runBlock {lim : Nat} {ctx : CtxPath} {i : Nat} {items : List RunItem} {labels : List Str} {child : Nat → RunItem → Prog}
    (h : ∀ j it, items[j]? = some it → O (child j it)) : O (runBlock lim ctx n i items labels child) := by
  unfold runBlock
  refine .par ?_ (fun r => .note trivial .ret)
  intro j
  refine .note trivial ((h j _ ?_).bind fun r => .note trivial .ret)
  simp

theorem o_executeParallel {i : Nat} {items : List RunItem} {labels : List Str} {mode : ParallelMode} {lim : Nat} {color bs bo : Option Bool}
    {pl : List Str} {w : Str} {ln : Nat} (hrec : RecDue c tasks g main rec) (hd : c.dry = false) (hT : tasks.get? n = some T)
    (hdue : Spec.Due c tasks g main (.item ⟨n, i, none⟩ (.parallel items labels mode lim color bs bo pl w ln) m))
    (he : interpolateEnv ⟨m, c.env⟩ (mergeEnvMaps [c.globalEnv, T.env]) = .ok tenv) :
    O (executeParallel c tasks rec n T fr i items labels mode lim color bs bo m tenv) := by
  unfold executeParallel
  simp only
  refine o_preResolveDeps hrec ?_ ?_
  · intro t T' d ht hT' hd'
    obtain ⟨j, hj⟩ := List.mem_iff_getElem?.mp ht
    exact .ahead (.sub hdue hj) hT' hd'
  · simp only [hd, Bool.false_eq_true, if_false]
    have hchild : ∀ (frj : Nat → Frame) j it, items[j]? = some it → O (executeRunItem c rec T (frj j) ⟨n, i, some j⟩ it (.own m) tenv) :=
      fun frj j it hj => o_executeRunItem hrec hd hT (.sub hdue hj) (.inl rfl) he
    split
    · unfold executeParallelTUI
      simp only
      split
      · exact .note trivial (o_runBlock (hchild _))
      · refine .silent (fun _ _ h => by cases h) (fun _ => rfl) fun id => ?_
        refine .act (fun _ _ h => by cases h) ?_ ?_
        · intro x e he
          simp only [Act.evs, List.mem_singleton] at he; subst he; trivial
        · intro ok
          cases ok with
          | true => exact .note trivial (o_runBlock (hchild _))
          | false => exact .ret
    · exact .note trivial (o_runBlock (hchild _))

theorem o_executeItems (hrec : RecDue c tasks g main rec) (hd : c.dry = false) (hT : tasks.get? n = some T)
    (hn : Spec.Due c tasks g main (.task n)) (hc : CondTrue c T.cond g) (hv : resolveVars T.vars g c.env = .ok m)
    (he : interpolateEnv ⟨m, c.env⟩ (mergeEnvMaps [c.globalEnv, T.env]) = .ok tenv) (hm : Plan.Reads g vars m)
    (hask : ∀ p, .prompt p ∉ T.run) {its : List RunItem} {i ex sk : Nat} (hits : T.run.drop i = its) :
    O (executeItems c tasks rec n T fr tenv its i vars ex sk) := by
  induction its generalizing i ex sk with
  | nil =>
    unfold executeItems
    split <;> exact .ret
  | cons it its ih =>
    have hi : T.run[i]? = some it := by
      have := congrArg (·[0]?) hits
      simpa using this
    have hnext : T.run.drop (i + 1) = its := by
      have := congrArg (List.drop 1) hits
      simpa [List.drop_drop, Nat.add_comm] using this
    unfold executeItems
    refine .silent (fun _ _ h => by cases h) (fun _ => rfl) ?_
    intro (b : Bool)
    cases b with
    | true => exact .ret
    | false =>
      simp only [Bool.false_eq_true, if_false]
      split
      · exact .note trivial (ih hnext)
      · next hp =>
        have hp : it.onPlatform c.platform = true := by simpa using hp
        have go : ∀ w, CondTrue c it.cond m → O (Prog.note (.itemStart n i w) <|
            executeItem c tasks rec n T fr i it vars tenv fun r vars' =>
              .note (.itemEnd n i r) <|
              match r with
              | some e => .ret (some e)
              | none => executeItems c tasks rec n T fr tenv its (i + 1) vars' (ex + 1) sk) := by
          intro w hct
          refine .note trivial ?_
          have hdue : Spec.Due c tasks g main (.item ⟨n, i, none⟩ it m) := .item hn hT hc hv hi hp hct
          have hk : ∀ r, O (Prog.note (.itemEnd n i r) <|
              match r with
              | some e => .ret (some e)
              | none => executeItems c tasks rec n T fr tenv its (i + 1) vars (ex + 1) sk) := by
            intro r
            refine .note trivial ?_
            cases r with
            | none => exact ih hnext
            | some e => exact .ret
          unfold executeItem
          split
          · exact absurd (List.mem_of_getElem? hi) (hask _)
          · simp only [hd, Bool.false_eq_true, if_false]
            exact o_readVars hm ((o_executeParallel hrec hd hT hdue he).bind hk)
          · exact (o_executeRunItem hrec hd hT hdue hm he).bind hk
        split
        · next h =>
          refine go _ ?_
          rw [h]; rfl
        · refine o_readVars hm ?_
          cases hev : placed it.line (evaluate it.cond ⟨m, c.env⟩) with
          | error e => exact .ret
          | ok b =>
            replace hev := of_placed_ok hev
            cases b with
            | false => exact .note ⟨T, hT, hv⟩ (ih hnext)
            | true => exact go _ hev

theorem o_runDeps (hrec : RecDue c tasks g main rec) {ds : List Str} {i : Nat} {k : Prog}
    (hds : ∀ d ∈ ds, Spec.Due c tasks g main (.task d)) (hk : O k) : O (runDeps rec n fr k ds i) := by
  induction ds generalizing i with
  | nil => exact hk
  | cons d ds ih =>
    unfold runDeps
    refine (hrec _ _ _ (hds d List.mem_cons_self)).bind fun r => ?_
    cases r with
    | none => exact .note trivial (ih fun d hd => hds d (List.mem_cons_of_mem _ hd))
    | some e => exact .note trivial .ret

theorem o_runTask (hd : c.dry = false) (hask : Unasked c tasks g main) (fuel : Nat) : RecDue c tasks g main (runTask c tasks fuel) := by
  induction fuel with
  | zero => exact fun fr b n _ => .silent (fun _ _ h => by cases h) (fun _ => rfl) (fun _ => .ret)
  | succ fuel hrec =>
    intro fr b n hn
    unfold runTask
    refine .act (fun _ _ h => by cases h) ?_ ?_
    · intro x e he
      cases x with
      | none => simp only [Act.evs, List.mem_singleton] at he; subst he; trivial
      | some s => cases he
    · intro (s : Option Status)
      match s with
      | some .done => exact .ret
      | some .running => exact .silent (fun _ _ h => by cases h) (fun _ => rfl) (fun _ => .ret)
      | none =>
        refine Only.bind ?_ (fun r => .note trivial .ret)
        unfold runTaskBody
        split
        · exact .ret
        · rename_i T hT
          have hfin : O (.act (.setDone n) fun _ => .ret none) := by
            refine .act (fun _ _ h => by cases h) ?_ (fun _ => .ret)
            intro x e he
            simp only [Act.evs, List.mem_singleton] at he; subst he; trivial
          have hgo : CondTrue c T.cond g → ∀ q, q = runDeps (runTask c tasks fuel) n fr
              (if T.run = [] then .act (.setDone n) fun _ => .ret none
               else (executeTask c tasks (runTask c tasks fuel) n T fr).bind fun
                | some e => .ret (some e)
                | none => .act (.setDone n) fun _ => .ret none) T.deps 0 →
              O (if (!c.dry && !isSilent [fr.ovSilent, T.silent, c.globalSilent]) = true then Prog.note (.echoTask n b fr.out) q else q) := by
            rintro hc q rfl
            have hdeps : O (runDeps (runTask c tasks fuel) n fr
              (if T.run = [] then .act (.setDone n) fun _ => .ret none
               else (executeTask c tasks (runTask c tasks fuel) n T fr).bind fun
                | some e => .ret (some e)
                | none => .act (.setDone n) fun _ => .ret none) T.deps 0) := by
              refine o_runDeps hrec (fun d hd => .dep hn hT hc hd) ?_
              split
              · exact hfin
              · refine Only.bind ?_ (fun r => ?_)
                · unfold executeTask
                  refine .globals ?_
                  cases hv : placed T.line (resolveVars T.vars g c.env) with
                  | error e => exact .ret
                  | ok m =>
                    replace hv := of_placed_ok hv
                    refine .note trivial ?_
                    cases he : placed T.line (interpolateEnv ⟨m, c.env⟩ (mergeEnvMaps [c.globalEnv, T.env])) with
                    | error e => exact .ret
                    | ok tenv =>
                      replace he := of_placed_ok he
                      refine o_executeItems hrec hd hT hn hc hv he ?_ (fun p => hask n T p hn hT) rfl
                      cases hTv : T.vars with
                      | none => rw [hTv] at hv; cases hv; exact .inr ⟨rfl, rfl⟩
                      | some vs => exact .inl rfl
                · cases r with
                  | none => exact hfin
                  | some e => exact .ret
            split
            · exact .note trivial hdeps
            · exact hdeps
          simp only
          split
          · next h => exact hgo (by rw [h]; rfl) _ rfl
          · refine .globals ?_
            cases hev : placed T.line (evaluate T.cond ⟨g, c.env⟩) with
            | error e => exact .ret
            | ok b =>
              replace hev := of_placed_ok hev
              cases b with
              | false => exact .note rfl hfin
              | true => exact .note trivial (hgo hev _ rfl)

/-- all events of a run are what is due -/
theorem events (hd : c.dry = false) (hask : Unasked c tasks g main) {s : State} (hr : Reach (start c tasks g main) s) :
    ∀ e ∈ s.sh.trace, EvDue c tasks g main e :=
  (Only.sound (s0 := start c tasks g main) (fun _ => trivial) (fun _ _ _ => trivial) (o_runTask hd hask _ _ _ _ .main) rfl rfl hr).2.2

end

end Due
end Bab
