import Verif.Proof.Own
import Verif.Spec.Life
/-
The programs of Model/Runner follow the life cycles of Spec/Life.
-/

namespace Bab
open Spec Own

/-- the key of the events at a place -/
def Loc.key (l : Loc) : Str × Option (Nat × Nat) := (l.task, l.sub.map (l.item, ·))

/-- closure properties shared by `Quiet` and `Unclaimed` -/
structure Closed (n : Str) (mine : Ev → Bool) (X : Prog → Prop) : Prop where
  ret : ∀ r, X (.ret r)
  act : ∀ (a : Act) (k : a.Resp → Prog), (∀ x, claims n a x = false) →
    (∀ x, ∀ e ∈ a.evs x, mine e = false) → (∀ x, X (k x)) → X (.act a k)
  par : ∀ lim ctx t it m st (ps : Fin m → Prog) k, (∀ j : Fin m, mine (.subAbort t it j) = false) →
    (∀ i, X (ps i)) → (∀ r, X (k r)) → X (.par lim ctx t it m st ps k)
  bind : ∀ p f, X p → (∀ r, X (f r)) → X (p.bind f)

theorem closed_quiet (n : Str) (mine : Ev → Bool) : Closed n mine (Quiet n mine) where
  ret _ := trivial
  act _ _ _ h2 h3 := fun x _ => ⟨h2 x, h3 x⟩
  par _ _ _ _ _ _ _ _ h1 h2 h3 := ⟨h1, h2, h3⟩
  bind _ _ h1 h2 := quiet_bind h1 h2

theorem closed_unclaimed {Q : Type} (n : Str) (mine : Ev → Bool) (δ : Q → Ev → Q → Prop) (q0 : Q) :
    Closed n mine (Unclaimed n mine δ q0) where
  ret _ := trivial
  act _ _ h1 h2 h3 := fun x => ⟨h2 x, fun hc => (by rw [h1 x] at hc; cases hc), fun _ => h3 x⟩
  par _ _ _ _ _ _ _ _ h1 h2 h3 := ⟨h1, h2, h3⟩
  bind _ _ h1 h2 := unclaimed_bind h1 h2

section closed
variable {n : Str} {mine : Ev → Bool} {X : Prog → Prop} (hX : Closed n mine X)
  (h0 : ∀ e, key e = none → mine e = false)
include hX

theorem Closed.note {e : Ev} {p : Prog} (he : mine e = false) (hp : X p) : X (.note e p) := by
  refine hX.act _ _ (fun _ => rfl) ?_ (fun _ => hp)
  intro x e' he'
  have : e' = e := by simpa [Act.evs] using he'
  rw [this]; exact he

theorem Closed.readVars {v : VarEnv} {k : GoMap Str → Prog} (hk : ∀ m, X (k m)) : X (readVars v k) := by
  cases v with
  | own m => exact hk m
  | global => exact hX.act _ _ (fun _ => rfl) (by intro x e he; simp [Act.evs] at he) hk

theorem Closed.writeVar {v : VarEnv} {a b : Str} {k : VarEnv → Prog} (hk : ∀ v, X (k v)) :
    X (writeVar v a b k) := by
  cases v with
  | own m => exact hk _
  | global => exact hX.act _ _ (fun _ => rfl) (by intro x e he; simp [Act.evs] at he) (fun _ => hk _)

theorem Closed.silentAct {a : Act} {k : a.Resp → Prog} (hc : ∀ x, claims n a x = false)
    (he : ∀ x, a.evs x = []) (hk : ∀ x, X (k x)) : X (.act a k) :=
  hX.act _ _ hc (by intro x e h; rw [he x] at h; cases h) hk

theorem Closed.runProc {tn : Str} {fr : Frame} {loc : Loc} {spec : ProcSpec}
    (hl : ∀ e, Spec.key e = some loc.key → mine e = false) : X (runProc tn fr loc spec) := by
  refine hX.act _ _ (fun _ => rfl) ?_ ?_
  · intro x e he
    cases x <;> simp [Act.evs] at he <;> subst he <;> exact hl _ rfl
  · intro x
    have hfail : ∀ code, X (.act (.cancelled fr.ctx) fun (b : Bool) =>
        .ret (some (.wrap (.command tn spec.cmd) (if b then .canceled else .exit code)))) := fun code =>
      hX.silentAct (fun _ => rfl) (fun _ => rfl) (fun _ => hX.ret _)
    cases x with
    | false => exact hfail _
    | true =>
      refine hX.act _ _ (fun _ => rfl) ?_ ?_
      · intro x e he
        simp [Act.evs] at he; subst he; exact hl _ rfl
      · intro x
        cases x with
        | none => exact hX.ret _
        | some code => exact hfail _

theorem Closed.executeCommand {c : Cfg} {T : Task} {fr : Frame} {loc : Loc} {v : CommandRun}
    {vars : VarEnv} {tenv : GoMap Str} (hl : ∀ e, Spec.key e = some loc.key → mine e = false) :
    X (executeCommand c T fr loc v vars tenv) := by
  unfold Bab.executeCommand
  split
  · exact hX.ret _
  · refine hX.readVars (fun m => hX.note (hl _ rfl) ?_)
    split
    · exact hX.ret _
    · split
      · exact hX.note (hl _ rfl) (hX.ret _)
      · dsimp only
        split
        · exact hX.runProc hl
        · exact hX.note (hl _ rfl) (hX.runProc hl)

theorem Closed.executeRunItem {c : Cfg} {rec : Rec} {T : Task} {fr : Frame} {loc : Loc}
    {item : RunItem} {vars : VarEnv} {tenv : GoMap Str} (hr : ∀ fr b m, X (rec fr b m))
    (hl : ∀ e, Spec.key e = some loc.key → mine e = false) :
    X (executeRunItem c rec T fr loc item vars tenv) := by
  unfold Bab.executeRunItem
  split
  · exact hX.executeCommand hl
  · split
    · exact hX.note (hl _ rfl) (hX.ret _)
    · exact hr _ _ _
  · refine hX.readVars (fun m => hX.note (hl _ rfl) ?_)
    split
    · exact hX.ret _
    · split
      · exact hX.note (hl _ rfl) (hX.ret _)
      · exact hX.note (hl _ rfl) (hX.ret _)
  · exact hX.ret _

theorem Closed.andThen {p q : Prog} {w : Err → Err} (hp : X p) (hq : X q) : X (p.andThen w q) := by
  refine hX.bind _ _ hp ?_
  intro r
  cases r with
  | none => exact hq
  | some e => exact hX.ret _

theorem Closed.preDeps {rec : Rec} {fr : Frame} {ds seen : List Str} {k : List Str → Prog}
    (hr : ∀ fr b m, X (rec fr b m)) (hk : ∀ s, X (k s)) : X (preDeps rec fr ds seen k) := by
  induction ds generalizing seen with
  | nil => exact hk _
  | cons d ds ih =>
    unfold Bab.preDeps
    split
    · exact ih
    · refine hX.silentAct (fun _ => rfl) (fun _ => rfl) (fun (s : Option Status) => ?_)
      show X (if s = some Status.done then _ else _)
      split
      · exact ih
      · exact hX.andThen (hr _ _ _) ih

theorem Closed.preResolveDeps {tasks : TaskMap} {rec : Rec} {fr : Frame} {items : List RunItem}
    {seen : List Str} {k : Prog} (hr : ∀ fr b m, X (rec fr b m)) (hk : X k) :
    X (preResolveDeps tasks rec fr items seen k) := by
  induction items generalizing seen with
  | nil => exact hk
  | cons item items ih =>
    cases item with
    | task t =>
      unfold Bab.preResolveDeps
      split
      · exact hX.ret _
      · exact hX.preDeps hr (fun s => ih)
    | command _ => exact ih
    | log _ => exact ih
    | prompt _ => exact ih
    | parallel _ _ _ _ _ _ _ _ _ _ => exact ih

theorem Closed.runBlock {lim : Nat} {ctx : CtxPath} {name : Str} {i : Nat} {items : List RunItem}
    {labels : List Str} {child : Nat → RunItem → Prog} (hc : ∀ j item, X (child j item))
    (hl : ∀ e k, Spec.key e = some (name, k) → (∀ p, k = some p → p.1 = i) → mine e = false) :
    X (runBlock lim ctx name i items labels child) := by
  refine hX.par _ _ _ _ _ _ _ _ (fun j => hl _ _ rfl (by simp)) ?_ ?_
  · intro j
    refine hX.note (hl _ _ rfl (by simp)) (hX.bind _ _ (hc _ _) (fun r => hX.note (hl _ _ rfl (by simp)) (hX.ret _)))
  · intro r
    exact hX.note (hl _ _ rfl (by simp)) (hX.ret _)

theorem Closed.executeParallelInterleaved {c : Cfg} {rec : Rec} {name : Str} {T : Task} {fr : Frame}
    {i : Nat} {items : List RunItem} {labels : List Str} {lim : Nat} {m tenv : GoMap Str}
    (hr : ∀ fr b m, X (rec fr b m)) (hl : ∀ e k, Spec.key e = some (name, k) → (∀ p, k = some p → p.1 = i) → mine e = false) :
    X (executeParallelInterleaved c rec name T fr i items labels lim m tenv) := by
  unfold Bab.executeParallelInterleaved
  refine hX.note (hl _ _ rfl (by simp)) (hX.runBlock (fun j item => hX.executeRunItem hr (fun e he => hl _ _ he (by simp))) hl)

include h0

theorem Closed.executeParallelTUI {c : Cfg} {rec : Rec} {name : Str} {T : Task} {fr : Frame}
    {i : Nat} {items : List RunItem} {labels : List Str} {lim : Nat} {m tenv : GoMap Str}
    (hr : ∀ fr b m, X (rec fr b m)) (hl : ∀ e k, Spec.key e = some (name, k) → (∀ p, k = some p → p.1 = i) → mine e = false) :
    X (executeParallelTUI c rec name T fr i items labels lim m tenv) := by
  unfold Bab.executeParallelTUI
  dsimp only
  split
  · refine hX.note (hl _ _ rfl (by simp)) (hX.runBlock (fun j item => hX.executeRunItem hr (fun e he => hl _ _ he (by simp))) hl)
  · refine hX.silentAct (fun _ => rfl) (fun _ => rfl) (fun id => ?_)
    refine hX.act _ _ (fun _ => rfl) ?_ ?_
    · intro x e he
      simp [Act.evs] at he; subst he; exact h0 _ rfl
    · intro ok
      cases ok with
      | true =>
        refine hX.note (hl _ _ rfl (by simp)) (hX.runBlock (fun j item => hX.executeRunItem hr (fun e he => hl _ _ he (by simp))) hl)
      | false => exact hX.ret _

theorem Closed.executeParallel {c : Cfg} {tasks : TaskMap} {rec : Rec} {name : Str} {T : Task} {fr : Frame}
    {i : Nat} {items : List RunItem} {labels : List Str} {mode : ParallelMode} {lim : Nat}
    {color silent output : Option Bool} {m tenv : GoMap Str}
    (hr : ∀ fr b m, X (rec fr b m)) (hl : ∀ e k, Spec.key e = some (name, k) → (∀ p, k = some p → p.1 = i) → mine e = false) :
    X (executeParallel c tasks rec name T fr i items labels mode lim color silent output m tenv) := by
  unfold Bab.executeParallel
  dsimp only
  refine hX.preResolveDeps hr ?_
  split
  · exact hX.note (hl _ _ rfl (by simp)) (hX.ret _)
  · split
    · exact hX.executeParallelTUI h0 hr hl
    · exact hX.executeParallelInterleaved hr hl

omit h0 in
theorem Closed.executePrompt {tn : Str} {c : Cfg} {loc : Loc} {p : PromptRun} {vars : VarEnv}
    {k : Option Err → VarEnv → Prog} (hk : ∀ r v, X (k r v))
    (hl : ∀ e, Spec.key e = some loc.key → mine e = false) : X (executePrompt c tn loc p vars k) := by
  unfold Bab.executePrompt
  refine hX.readVars (fun m => hX.note (hl _ rfl) ?_)
  split
  · exact hk _ _
  · split
    · exact hX.note (hl _ rfl) (hk _ _)
    · dsimp only
      have hgot : ∀ r : Except Err Str, X (match r with
          | .error e => k (some (.wrap (.prompt tn p.prompt) e)) vars
          | .ok ans => Bab.writeVar vars p.prompt ans (k none)) := by
        intro r
        cases r with
        | error e => exact hk _ _
        | ok ans => exact hX.writeVar (fun v => hk _ _)
      split
      · refine hX.act _ _ (fun _ => rfl) ?_ hgot
        intro x e he
        simp [Act.evs] at he; subst he; exact hl _ rfl
      · exact hX.note (hl _ rfl) (hgot _)

theorem Closed.executeItem {c : Cfg} {tasks : TaskMap} {rec : Rec} {name : Str} {T : Task} {fr : Frame}
    {i : Nat} {item : RunItem} {vars : VarEnv} {tenv : GoMap Str} {k : Option Err → VarEnv → Prog}
    (hr : ∀ fr b m, X (rec fr b m)) (hl : ∀ e k, Spec.key e = some (name, k) → (∀ p, k = some p → p.1 = i) → mine e = false)
    (hk : ∀ r v, X (k r v)) :
    X (executeItem c tasks rec name T fr i item vars tenv k) := by
  unfold Bab.executeItem
  split
  · exact hX.executePrompt hk (fun e he => hl _ _ he (by simp))
  · split
    · exact hX.note (hl _ _ rfl (by simp)) (hk _ _)
    · exact hX.readVars (fun m => hX.bind _ _ (hX.executeParallel h0 hr hl) (fun r => hk _ _))
  · exact hX.bind _ _ (hX.executeRunItem hr (fun e he => hl _ _ he (by simp))) (fun r => hk _ _)

theorem Closed.executeItems {c : Cfg} {tasks : TaskMap} {rec : Rec} {name : Str} {T : Task} {fr : Frame}
    {tenv : GoMap Str} {items : List RunItem} {i : Nat} {vars : VarEnv} {ex sk : Nat}
    (hr : ∀ fr b m, X (rec fr b m)) (hl : ∀ e k, Spec.key e = some (name, k) → (∀ p, k = some p → i ≤ p.1) → mine e = false) :
    X (executeItems c tasks rec name T fr tenv items i vars ex sk) := by
  induction items generalizing i vars ex sk with
  | nil => unfold Bab.executeItems; split <;> exact hX.ret _
  | cons item rest ih =>
    have hl' : ∀ e k, Spec.key e = some (name, k) → (∀ p, k = some p → i + 1 ≤ p.1) → mine e = false :=
      fun e k he hp => hl e k he (fun p h => Nat.le_of_succ_le (hp p h))
    unfold Bab.executeItems
    refine hX.silentAct (fun _ => rfl) (fun _ => rfl) (fun b => ?_)
    cases b with
    | true => exact hX.ret _
    | false =>
      rw [if_neg (by simp)]
      split
      · exact hX.note (hl _ _ rfl (by simp)) (ih hl')
      · dsimp only
        have hgo : ∀ w, X (.note (.itemStart name i w) <|
            Bab.executeItem c tasks rec name T fr i item vars tenv fun r vars' =>
            .note (.itemEnd name i r) <|
            match r with
            | some e => .ret (some e)
            | none => Bab.executeItems c tasks rec name T fr tenv rest (i + 1) vars' (ex + 1) sk) := by
          intro w
          refine hX.note (hl _ _ rfl (by simp)) (hX.executeItem h0 hr (fun e k he hp => hl e k he (fun p h => Nat.le_of_eq (hp p h).symm)) ?_)
          intro r v
          refine hX.note (hl _ _ rfl (by simp)) ?_
          cases r with
          | none => exact ih hl'
          | some e => exact hX.ret _
        split
        · exact hgo _
        · refine hX.readVars (fun m => ?_)
          split
          · exact hX.ret _
          · exact hX.note (hl _ _ rfl (by simp)) (ih hl')
          · exact hgo _

theorem Closed.executeTask {c : Cfg} {tasks : TaskMap} {rec : Rec} {name : Str} {T : Task} {fr : Frame}
    (hr : ∀ fr b m, X (rec fr b m)) (hl : ∀ e k, Spec.key e = some (name, k) → mine e = false) :
    X (executeTask c tasks rec name T fr) := by
  unfold Bab.executeTask
  refine hX.silentAct (fun _ => rfl) (fun _ => rfl) (fun g => ?_)
  split
  · exact hX.ret _
  · refine hX.note (hl _ _ rfl) ?_
    split
    · exact hX.ret _
    · exact hX.executeItems h0 hr (fun e k he _ => hl e k he)

omit h0 in
theorem Closed.runDeps {rec : Rec} {name : Str} {fr : Frame} {k : Prog} {ds : List Str} {i : Nat}
    (hr : ∀ fr b m, X (rec fr b m)) (hl : ∀ e k, Spec.key e = some (name, k) → mine e = false)
    (hk : X k) : X (runDeps rec name fr k ds i) := by
  induction ds generalizing i with
  | nil => exact hk
  | cons d ds ih =>
    unfold Bab.runDeps
    refine hX.bind _ _ (hr _ _ _) (fun r => ?_)
    cases r with
    | none => exact hX.note (hl _ _ rfl) ih
    | some e => exact hX.note (hl _ _ rfl) (hX.ret _)

theorem Closed.runTaskBody {c : Cfg} {tasks : TaskMap} {rec : Rec} {fr : Frame} {b : Bool} {name : Str}
    (hr : ∀ fr b m, X (rec fr b m)) (hl : ∀ e k, Spec.key e = some (name, k) → mine e = false) :
    X (runTaskBody c tasks rec fr b name) := by
  unfold Bab.runTaskBody
  split
  · exact hX.ret _
  · rename_i T hT
    dsimp only
    have hfin : X (.act (.setDone name) fun _ => .ret none) := by
      refine hX.act _ _ (fun _ => rfl) ?_ (fun _ => hX.ret _)
      intro x e he
      simp [Act.evs] at he; subst he; exact hl _ _ rfl
    have hdeps : X (Bab.runDeps rec name fr
        (if T.run = [] then .act (.setDone name) fun _ => .ret none
         else (Bab.executeTask c tasks rec name T fr).bind fun
          | some e => .ret (some e)
          | none => .act (.setDone name) fun _ => .ret none)
        T.deps 0) := by
      refine hX.runDeps hr hl ?_
      split
      · exact hfin
      · refine hX.bind _ _ (hX.executeTask h0 hr hl) (fun r => ?_)
        cases r with
        | none => exact hfin
        | some e => exact hX.ret _
    have hgo : X (if (!c.dry && !isSilent [fr.ovSilent, T.silent, c.globalSilent]) = true then
        .note (.echoTask name b fr.out) (Bab.runDeps rec name fr
        (if T.run = [] then .act (.setDone name) fun _ => .ret none
         else (Bab.executeTask c tasks rec name T fr).bind fun
          | some e => .ret (some e)
          | none => .act (.setDone name) fun _ => .ret none)
        T.deps 0) else Bab.runDeps rec name fr
        (if T.run = [] then .act (.setDone name) fun _ => .ret none
         else (Bab.executeTask c tasks rec name T fr).bind fun
          | some e => .ret (some e)
          | none => .act (.setDone name) fun _ => .ret none)
        T.deps 0) := by
      split
      · exact hX.note (hl _ _ rfl) hdeps
      · exact hdeps
    split
    · exact hgo
    · refine hX.silentAct (fun _ => rfl) (fun _ => rfl) (fun g => ?_)
      split
      · exact hX.ret _
      · exact hX.note (hl _ _ rfl) hfin
      · exact hX.note (hl _ _ rfl) hgo

end closed

/-- Any life cycle whose owner part is established for the body of `runTask n` holds for `runTask`. -/
theorem unclaimed_runTask {Q : Type} {n : Str} {mine : Ev → Bool} {δ : Q → Ev → Q → Prop} {q0 : Q}
    (h0 : ∀ e, key e = none → mine e = false)
    (hn : ∀ e m k, key e = some (m, k) → m ≠ n → mine e = false)
    {c : Cfg} {tasks : TaskMap}
    (hown : ∀ rec : Rec, (∀ fr b m, Quiet n mine (rec fr b m)) → ∀ fr b,
      Owner n mine δ (fun _ _ => True) q0 ((runTaskBody c tasks rec fr b n).bind fun r =>
          .note (.taskEnd n r) (.ret r)))
    (fuel : Nat) (fr : Frame) (b : Bool) (name : Str) :
    Unclaimed n mine δ q0 (runTask c tasks fuel fr b name) := by
  have hX := closed_unclaimed n mine δ q0
  induction fuel generalizing fr b name with
  | zero =>
    refine hX.silentAct (fun _ => rfl) (fun _ => rfl) (fun _ => hX.ret _)
  | succ fuel ih =>
    intro x
    refine ⟨?_, ?_, ?_⟩
    · intro e he
      cases x with
      | none => simp [Act.evs] at he; subst he; exact h0 _ rfl
      | some s => simp [Act.evs] at he
    · intro hc
      cases x with
      | some s => simp [claims] at hc
      | none =>
        simp only [claims, decide_eq_true_eq] at hc
        subst hc
        exact hown _ (fun fr b m => quiet_of_unclaimed (ih fr b m)) fr b
    · intro hc
      cases x with
      | some s =>
        cases s with
        | done => exact hX.ret _
        | running => exact hX.silentAct (fun _ => rfl) (fun _ => rfl) (fun _ => hX.ret _)
      | none =>
        simp only [claims, decide_eq_false_iff_not] at hc
        refine hX.bind _ _ (hX.runTaskBody h0 ih (fun e k he => hn _ _ _ he hc)) (fun r => ?_)
        exact hX.note (hn _ _ _ rfl hc) (hX.ret _)

end Bab
