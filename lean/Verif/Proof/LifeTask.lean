import Verif.Proof.Life
import Verif.Proof.Errs
/-
`runTask n` follows the life cycle `Spec.LifeStep` of the task `n`.
-/

namespace Bab
open Spec Own

namespace Own
section
variable {Q : Type} {n : Str} {mine : Ev → Bool} {δ : Q → Ev → Q → Prop} {P : Q → Option Err → Prop}

theorem owner_note {q q' : Q} {e : Ev} {p : Prog} (hm : mine e = true) (hd : δ q e q')
    (h : Owner n mine δ P q' p) : Owner n mine δ P q (.note e p) :=
  fun _ _ => ⟨q', run_one hm hd, h⟩

theorem owner_note_quiet {q : Q} {e : Ev} {p : Prog} (hm : mine e = false)
    (h : Owner n mine δ P q p) : Owner n mine δ P q (.note e p) :=
  fun _ _ => ⟨q, run_quiet (by intro e' he'; have : e' = e := by simpa [Act.evs] using he'
                               rw [this]; exact hm), h⟩

theorem owner_silent {q : Q} {a : Act} {k : a.Resp → Prog} (he : ∀ x, a.evs x = [])
    (h : ∀ x, Owner n mine δ P q (k x)) : Owner n mine δ P q (.act a k) :=
  fun x _ => ⟨q, by rw [he x]; rfl, h x⟩

theorem owner_of_quiet_at {q : Q} {p : Prog} (h : Quiet n mine p) (hP : ∀ r, P q r) :
    Owner n mine δ P q p := by
  induction p with
  | ret r => exact hP r
  | act a k ih =>
    intro x hx
    obtain ⟨h1, h2⟩ := h x hx
    exact ⟨q, run_quiet h1, ih x h2⟩
  | par lim ctx t it m st ps k ih1 ih2 => exact Or.inl ⟨h.1, Or.inl ⟨h.2.1, fun r => ih2 r (h.2.2 r)⟩⟩

/-- what `readVars` may answer is consistent with `own` -/
def VarsOk (vars : VarEnv) (own : Option (GoMap Str)) : Prop :=
  match vars with
  | .own m => OwnVars own m
  | .global => own = none

theorem owner_readVars {q : Q} {vars : VarEnv} {own : Option (GoMap Str)} {k : GoMap Str → Prog}
    (hv : VarsOk vars own) (h : ∀ m, OwnVars own m → Owner n mine δ P q (k m)) :
    Owner n mine δ P q (readVars vars k) := by
  cases vars with
  | own m => exact h m hv
  | global =>
    refine owner_silent (fun _ => rfl) (fun m => h m ?_)
    have : own = none := hv
    intro o ho; rw [this] at ho; cases ho

theorem other_wrap (x : Where) (e : Err) : Other (.wrap x e) := by intro t h; cases h

theorem endBefore {item : RunItem} {e : Err} (h : Other e) : MayEndBad item .before e := Or.inl ⟨Or.inl rfl, Or.inl h⟩
theorem endSaw {item : RunItem} {e : Err} (h : Other e) : MayEndBad item .saw e :=
  Or.inl ⟨Or.inr (Or.inl rfl), Or.inl h⟩
theorem endBad {item : RunItem} {e : Err} (h : Other e) : MayEndBad item .bad e :=
  Or.inl ⟨Or.inr (Or.inr rfl), Or.inl h⟩

/-- how an item may have ended -/
def ItemPost (c : Cfg) (item : RunItem) (emb : Phase → Q) (q : Q) (r : Option Err) : Prop :=
  ∃ ph, q = emb ph ∧ ((r = none ∧ MayEndOk c item ph) ∨ ∃ e, r = some e ∧ MayEndBad item ph e)

section item
variable {emb : Phase → Q} {loc : Loc} {own : Option (GoMap Str)} {c : Cfg}
  (hmine : ∀ e, Spec.key e = some loc.key → mine e = true)
  (hemb : ∀ ph e ph', PhaseStep loc ph own e ph' own → δ (emb ph) e (emb ph'))
include hmine hemb

theorem owner_runProc {tn : Str} {fr : Frame} {spec : ProcSpec} {item : RunItem} :
    Owner n mine δ (ItemPost c item emb) (emb .saw) (runProc tn fr loc spec) := by
  have hfail : ∀ code, Owner n mine δ (ItemPost c item emb) (emb .bad)
      (.act (.cancelled fr.ctx) fun (b : Bool) =>
        .ret (some (.wrap (.command tn spec.cmd) (if b then .canceled else .exit code)))) := fun code =>
    owner_silent (fun _ => rfl) (fun b => ⟨.bad, rfl, Or.inr ⟨_, rfl, endBad (other_wrap _ _)⟩⟩)
  intro x _
  cases x with
  | false =>
    exact ⟨emb .bad, run_one (hmine _ rfl) (hemb _ _ _ .startFail), hfail _⟩
  | true =>
    refine ⟨emb .running, run_one (hmine _ rfl) (hemb _ _ _ (.start spec)), ?_⟩
    intro x _
    cases x with
    | none =>
      exact ⟨emb .ok, run_one (hmine _ rfl) (hemb _ _ _ .exit0), ⟨.ok, rfl, Or.inl ⟨rfl, Or.inl rfl⟩⟩⟩
    | some code =>
      exact ⟨emb .bad, run_one (hmine _ rfl) (hemb _ _ _ (.exit code)), hfail _⟩

theorem owner_executeCommand {T : Task} {fr : Frame} {v : CommandRun} {vars : VarEnv}
    {tenv : GoMap Str} {item : RunItem} (hv : VarsOk vars own) :
    Owner n mine δ (ItemPost c item emb) (emb .before) (executeCommand c T fr loc v vars tenv) := by
  unfold Bab.executeCommand
  split
  · exact ⟨.before, rfl, Or.inr ⟨_, rfl, endBefore (by intro t h; cases h)⟩⟩
  · refine owner_readVars hv (fun m hm => owner_note (hmine _ rfl) (hemb _ _ _ (.sees m hm)) ?_)
    split
    · rename_i he
      exact ⟨.saw, rfl, Or.inr ⟨_, rfl, endSaw (placed_local he prepareCommand_local).ne⟩⟩
    · split
      · exact owner_note (hmine _ rfl) (hemb _ _ _ (.wouldRun _)) ⟨.ok, rfl, Or.inl ⟨rfl, Or.inl rfl⟩⟩
      · dsimp only
        split
        · exact owner_runProc hmine hemb
        · exact owner_note (hmine _ rfl) (hemb _ _ _ (.echo _ _)) (owner_runProc hmine hemb)

theorem owner_executeRunItem {rec : Rec} {T : Task} {fr : Frame} {item : RunItem} {vars : VarEnv}
    {tenv : GoMap Str} (hr : ∀ fr b m, Quiet n mine (rec fr b m)) (hv : VarsOk vars own) :
    Owner n mine δ (ItemPost c item emb) (emb .before) (executeRunItem c rec T fr loc item vars tenv) := by
  unfold Bab.executeRunItem
  split
  · exact owner_executeCommand hmine hemb hv
  · rename_i t
    by_cases hd : c.dry = true
    · rw [if_pos hd]
      exact owner_note (hmine _ rfl) (hemb _ _ _ (.wouldTask _)) ⟨.ok, rfl, Or.inl ⟨rfl, Or.inl rfl⟩⟩
    · rw [if_neg hd]
      refine owner_of_quiet_at (hr _ _ _) (fun r => ⟨.before, rfl, ?_⟩)
      cases r with
      | none => exact Or.inl ⟨rfl, Or.inr ⟨rfl, by simpa using hd, t, rfl⟩⟩
      | some e => exact Or.inr ⟨e, rfl, Or.inl ⟨Or.inl rfl, Or.inr ⟨t, rfl⟩⟩⟩
  · refine owner_readVars hv (fun m hm => owner_note (hmine _ rfl) (hemb _ _ _ (.sees m hm)) ?_)
    split
    · rename_i he
      exact ⟨.saw, rfl, Or.inr ⟨_, rfl, endSaw (placed_local he interpolate_local).ne⟩⟩
    · split
      · exact owner_note (hmine _ rfl) (hemb _ _ _ (.wouldLog _ _)) ⟨.ok, rfl, Or.inl ⟨rfl, Or.inl rfl⟩⟩
      · exact owner_note (hmine _ rfl) (hemb _ _ _ (.log _ _ _)) ⟨.ok, rfl, Or.inl ⟨rfl, Or.inl rfl⟩⟩
  · exact ⟨.before, rfl, Or.inr ⟨_, rfl, endBefore (by intro t h; cases h)⟩⟩

end item

theorem owner_andThen_quiet {p r : Prog} {w : Err → Err} {q : Q} (hp : Quiet n mine p)
    (hbad : ∀ e, P q (some (w e))) (hr : Owner n mine δ P q r) : Owner n mine δ P q (p.andThen w r) := by
  refine owner_quiet_bind hp (fun x => ?_)
  cases x with
  | none => exact hr
  | some e => exact hbad _

theorem owner_preDeps {rec : Rec} {fr : Frame} {ds seen : List Str} {k : List Str → Prog} {q : Q}
    (hr : ∀ fr b m, Quiet n mine (rec fr b m)) (hbad : ∀ e, Other e → P q (some e))
    (hk : ∀ s, Owner n mine δ P q (k s)) : Owner n mine δ P q (preDeps rec fr ds seen k) := by
  induction ds generalizing seen with
  | nil => exact hk _
  | cons d ds ih =>
    unfold Bab.preDeps
    split
    · exact ih
    · refine owner_silent (fun _ => rfl) (fun (s : Option Status) => ?_)
      by_cases hs : s = some Status.done
      · rw [if_pos hs]; exact ih
      · rw [if_neg hs]; exact owner_andThen_quiet (hr _ _ _) (fun e => hbad _ (other_wrap _ _)) ih

theorem owner_preResolveDeps {tasks : TaskMap} {rec : Rec} {fr : Frame} {items : List RunItem}
    {seen : List Str} {k : Prog} {q : Q} (hr : ∀ fr b m, Quiet n mine (rec fr b m))
    (hbad : ∀ e, Other e → P q (some e)) (hk : Owner n mine δ P q k) :
    Owner n mine δ P q (preResolveDeps tasks rec fr items seen k) := by
  induction items generalizing seen with
  | nil => exact hk
  | cons item items ih =>
    cases item with
    | task t =>
      unfold Bab.preResolveDeps
      split
      · exact hbad _ (by intro t h; cases h)
      · exact owner_preDeps hr hbad (fun s => ih)
    | command _ => exact ih
    | log _ => exact ih
    | prompt _ => exact ih
    | parallel _ _ _ _ _ _ _ _ _ _ => exact ih

end
end Own

/-- the events of the task itself, those inside parallel blocks excluded -/
def mineTask (n : Str) (e : Ev) : Bool := decide (key e = some (n, none))

/-- the variables a task has of its own -/
def ownOf : VarEnv → Option (GoMap Str)
  | .own m => some m
  | .global => none

theorem varsOk_ownOf (v : VarEnv) : VarsOk v (ownOf v) := by
  cases v with
  | own m => intro o ho; cases ho; rfl
  | global => rfl

theorem interpolatePrompt_prompt {p p' : PromptRun} {ctx : Ctx} (h : interpolatePrompt p ctx = .ok p') :
    p'.prompt = p.prompt := by
  unfold interpolatePrompt at h
  simp only [bind, Except.bind, pure, Except.pure] at h
  repeat (split at h <;> try (cases h))
  rfl

section task
variable {c : Cfg} {n : Str}

local notation "Own1" => Owner n (mineTask n)

theorem mineTask_task {loc : Loc} (h1 : loc.task = n) (h2 : loc.sub = none) :
    ∀ e, Spec.key e = some loc.key → mineTask n e = true := by
  intro e he
  simp [mineTask, he, Loc.key, h1, h2]

theorem mineTask_sub {i j : Nat} :
    ∀ e, Spec.key e = some (Loc.key ⟨n, i, some j⟩) → mineTask n e = false := by
  intro e he
  simp [mineTask, he, Loc.key]

theorem owner_block {T : Task} {i ex sk : Nat} {own : Option (GoMap Str)} {rec : Rec}
    (hr : ∀ fr b m, Quiet n (mineTask n) (rec fr b m)) {item : RunItem}
    {fr : Nat → Frame} {T' : Task} {ctx : CtxPath} {items : List RunItem} {labels : List Str} {lim : Nat}
    {m m' tenv : GoMap Str} (hm : OwnVars own m) :
    Own1 (LifeStep c n (some T)) (ItemPost c item (Life.inItem i ex sk own)) (.inItem i ex sk own .before)
      (.note (.parBegin n i m) <| runBlock lim ctx n i items labels fun j item =>
        executeRunItem c rec T' (fr j) ⟨n, i, some j⟩ item (.own m') tenv) := by
  refine owner_note (by simp [mineTask, Spec.key]) (.inner _ (.parBegin (loc := ⟨n, i, none⟩) m hm)) ?_
  refine Or.inl ⟨fun j => by simp [mineTask, Spec.key], Or.inl ⟨?_, ?_⟩⟩
  · intro j
    have hX := closed_quiet n (mineTask n)
    refine hX.note (by simp [mineTask, Spec.key]) (hX.bind _ _ (hX.executeRunItem hr mineTask_sub) ?_)
    intro r
    exact hX.note (by simp [mineTask, Spec.key]) (hX.ret _)
  · intro r
    cases r with
    | none =>
      exact owner_note (by simp [mineTask, Spec.key]) (.inner _ (.parOk (loc := ⟨n, i, none⟩)))
        ⟨.ok, rfl, Or.inl ⟨rfl, Or.inl rfl⟩⟩
    | some e =>
      exact owner_note (by simp [mineTask, Spec.key]) (.inner _ (.parBad (loc := ⟨n, i, none⟩) e))
        ⟨.parBad e, rfl, Or.inr ⟨_, rfl, Or.inr rfl⟩⟩

theorem owner_executeParallel {tasks : TaskMap} {T : Task} {i ex sk : Nat} {own : Option (GoMap Str)}
    {rec : Rec} (hr : ∀ fr b m, Quiet n (mineTask n) (rec fr b m)) {item : RunItem}
    {fr : Frame} {items : List RunItem} {labels : List Str} {mode : ParallelMode} {lim : Nat}
    {color silent output : Option Bool} {m tenv : GoMap Str} (hm : OwnVars own m) :
    Own1 (LifeStep c n (some T)) (ItemPost c item (Life.inItem i ex sk own)) (.inItem i ex sk own .before)
      (executeParallel c tasks rec n T fr i items labels mode lim color silent output m tenv) := by
  unfold Bab.executeParallel
  dsimp only
  have hbad : ∀ e, Other e → ItemPost c item (Life.inItem i ex sk own) (.inItem i ex sk own .before) (some e) :=
    fun e he => ⟨.before, rfl, Or.inr ⟨e, rfl, endBefore he⟩⟩
  refine owner_preResolveDeps hr hbad ?_
  split
  · exact owner_note (by simp [mineTask, Spec.key]) (.inner _ .wouldParallel) ⟨.ok, rfl, Or.inl ⟨rfl, Or.inl rfl⟩⟩
  · split
    · unfold executeParallelTUI
      dsimp only
      split
      · exact owner_block hr hm
      · refine owner_silent (fun _ => rfl) (fun id => ?_)
        intro ok _
        refine ⟨.inItem i ex sk own .before, run_quiet (by intro e he; simp [Act.evs] at he; subst he; simp [mineTask, Spec.key]), ?_⟩
        cases ok with
        | true => exact owner_block hr hm
        | false => exact hbad _ (other_wrap _ _)
    · unfold executeParallelInterleaved
      exact owner_block hr hm

theorem owner_executePrompt {tn : Str} {T : Task} {i ex sk : Nat} {p : PromptRun} {vars : VarEnv}
    {k : Option Err → VarEnv → Prog} {P : Life → Option Err → Prop}
    (hok : ∀ v, Own1 (LifeStep c n (some T)) P (.inItem i ex sk (ownOf v) .ok) (k none v))
    (hbad : ∀ e v ph, MayEndBad (.prompt p) ph e → Own1 (LifeStep c n (some T)) P (.inItem i ex sk (ownOf v) ph) (k (some e) v)) :
    Own1 (LifeStep c n (some T)) P (.inItem i ex sk (ownOf vars) .before)
      (executePrompt c tn ⟨n, i, none⟩ p vars k) := by
  have hmine : ∀ e, Spec.key e = some (Loc.key ⟨n, i, none⟩) → mineTask n e = true := mineTask_task rfl rfl
  unfold Bab.executePrompt
  refine owner_readVars (varsOk_ownOf vars) (fun m hm => owner_note (hmine _ rfl) (.inner _ (.sees m hm)) ?_)
  split
  · rename_i he
    exact hbad _ _ _ (endSaw (placed_local he interpolatePrompt_local).ne)
  · rename_i p' hp'
    have hpn := interpolatePrompt_prompt (of_placed_ok hp')
    split
    · exact owner_note (hmine _ rfl) (.inner _ (.wouldPrompt _)) (hok _)
    · dsimp only
      have hgot : ∀ ans, Own1 (LifeStep c n (some T)) P
          (.inItem i ex sk ((ownOf vars).map (fun m => m.set p'.prompt ans)) .ok)
          (writeVar vars p.prompt ans (k none)) := by
        intro ans
        rw [hpn]
        cases vars with
        | own m => exact hok (.own (m.set p.prompt ans))
        | global => exact owner_silent (fun _ => rfl) (fun _ => hok .global)
      split
      · intro r _
        cases r with
        | error e =>
          exact ⟨_, run_one (hmine _ rfl) (.inner _ (.noAnswer _ e)), hbad _ _ _ (endBad (other_wrap _ _))⟩
        | ok ans => exact ⟨_, run_one (hmine _ rfl) (.inner _ (.answer _ ans)), hgot ans⟩
      · generalize handleNonInteractive p' = r
        cases r with
        | error e =>
          exact owner_note (hmine _ rfl) (.inner _ (.noAnswer _ e)) (hbad _ _ _ (endBad (other_wrap _ _)))
        | ok ans => exact owner_note (hmine _ rfl) (.inner _ (.answer _ ans)) (hgot ans)

theorem owner_executeItem {tasks : TaskMap} {T : Task} {i ex sk : Nat} {rec : Rec} {fr : Frame}
    {item : RunItem} {vars : VarEnv} {tenv : GoMap Str} {k : Option Err → VarEnv → Prog}
    {P : Life → Option Err → Prop} (hr : ∀ fr b m, Quiet n (mineTask n) (rec fr b m))
    (hok : ∀ v ph, MayEndOk c item ph → Own1 (LifeStep c n (some T)) P (.inItem i ex sk (ownOf v) ph) (k none v))
    (hbad : ∀ e v ph, MayEndBad item ph e → Own1 (LifeStep c n (some T)) P (.inItem i ex sk (ownOf v) ph) (k (some e) v)) :
    Own1 (LifeStep c n (some T)) P (.inItem i ex sk (ownOf vars) .before)
      (executeItem c tasks rec n T fr i item vars tenv k) := by
  have hmine : ∀ e, Spec.key e = some (Loc.key ⟨n, i, none⟩) → mineTask n e = true := mineTask_task rfl rfl
  have hpost : ∀ q r, ItemPost c item (Life.inItem i ex sk (ownOf vars)) q r →
      Own1 (LifeStep c n (some T)) P q (k r vars) := by
    rintro q r ⟨ph, rfl, ⟨rfl, h⟩ | ⟨e, rfl, h⟩⟩
    · exact hok _ _ h
    · exact hbad _ _ _ h
  unfold Bab.executeItem
  split
  · exact owner_executePrompt (fun v => hok v _ (Or.inl rfl)) hbad
  · split
    · exact owner_note (hmine _ rfl) (.inner _ .wouldParallel) (hok _ _ (Or.inl rfl))
    · refine owner_readVars (varsOk_ownOf vars) (fun m hm => ?_)
      exact owner_bind (owner_executeParallel hr hm) hpost
  · refine owner_bind (owner_executeRunItem (emb := Life.inItem i ex sk (ownOf vars))
      (own := ownOf vars) hmine (fun ph e ph' h => .inner _ h) hr (varsOk_ownOf vars)) hpost

/-- how the items of a task may have ended -/
def ItemsPost (c : Cfg) (n : Str) (T : Task) (q : Life) (r : Option Err) : Prop :=
  (r = none ∧ LifeStep c n (some T) q (.done n) .marked) ∨
  (∃ e, r = some e ∧ LifeStep c n (some T) q (.taskEnd n (some e)) .ended)

theorem owner_executeItems {tasks : TaskMap} {T : Task} {rec : Rec} {fr : Frame} {tenv : GoMap Str}
    (hr : ∀ fr b m, Quiet n (mineTask n) (rec fr b m)) (items : List RunItem) (i : Nat) (vars : VarEnv)
    (ex sk : Nat) (hi : T.run.drop i = items) (hle : i ≤ T.run.length) :
    Own1 (LifeStep c n (some T)) (ItemsPost c n T) (.items i ex sk (ownOf vars))
      (executeItems c tasks rec n T fr tenv items i vars ex sk) := by
  induction items generalizing i vars ex sk with
  | nil =>
    have hlen : i = T.run.length := by
      have := List.drop_eq_nil_iff.mp hi
      omega
    subst hlen
    unfold Bab.executeItems
    by_cases h : ex = 0 ∧ sk = 0
    · rw [if_pos h]
      obtain ⟨rfl, rfl⟩ := h
      exact Or.inr ⟨_, rfl, .nothing⟩
    · rw [if_neg h]
      exact Or.inl ⟨rfl, .complete (by omega)⟩
  | cons item rest ih =>
    have hlt : i < T.run.length := by
      rcases Nat.lt_or_ge i T.run.length with h | h
      · exact h
      · rw [List.drop_eq_nil_of_le h] at hi; cases hi
    have hget : T.run[i]? = some item := by
      have := List.drop_eq_getElem_cons hlt
      rw [hi] at this
      simp only [List.cons.injEq] at this
      rw [List.getElem?_eq_getElem hlt, this.1]
    have hrest : T.run.drop (i + 1) = rest := by
      have := List.drop_eq_getElem_cons hlt
      rw [hi] at this
      simp only [List.cons.injEq] at this
      exact this.2.symm
    have ih' := fun vars ex sk => ih (i + 1) vars ex sk hrest hlt
    unfold Bab.executeItems
    refine owner_silent (fun _ => rfl) (fun b => ?_)
    cases b with
    | true => exact Or.inr ⟨_, rfl, .stop _ hlt (Or.inl rfl) (other_wrap _ _)⟩
    | false =>
      rw [if_neg (by simp)]
      split
      · rename_i hp
        exact owner_note (by simp [mineTask, Spec.key]) (.skipPlatform item hget hp) (ih' _ _ _)
      · rename_i hp
        have hp : item.onPlatform c.platform = true := by simpa using hp
        dsimp only
        have hgo : ∀ w, MayStart c item (ownOf vars) w →
            Own1 (LifeStep c n (some T)) (ItemsPost c n T) (.items i ex sk (ownOf vars))
            (.note (.itemStart n i w) <|
            Bab.executeItem c tasks rec n T fr i item vars tenv fun r vars' =>
            .note (.itemEnd n i r) <|
            match r with
            | some e => .ret (some e)
            | none => Bab.executeItems c tasks rec n T fr tenv rest (i + 1) vars' (ex + 1) sk) := by
          intro w hw
          refine owner_note (by simp [mineTask, Spec.key]) (.start item w hget hw) (owner_executeItem hr ?_ ?_)
          · intro v ph hph
            exact owner_note (by simp [mineTask, Spec.key]) (.itemOk item hget hph) (ih' _ _ _)
          · intro e v ph hph
            exact owner_note (by simp [mineTask, Spec.key]) (.itemErr item e hget hph) (Or.inr ⟨e, rfl, .fail e⟩)
        split
        · rename_i hc
          exact hgo none ⟨hp, Or.inl ⟨hc, rfl⟩⟩
        · rename_i hc
          refine owner_readVars (varsOk_ownOf vars) (fun m hm => ?_)
          cases he : placed item.line (evaluate item.cond ⟨m, c.env⟩) with
          | error e =>
            exact Or.inr ⟨_, rfl, .stop _ hlt
              (Or.inr (Or.inr ⟨item, m, e, hget, hp, hc, hm, he, rfl⟩)) (other_wrap _ _)⟩
          | ok b =>
            replace he := of_placed_ok he
            cases b with
            | false =>
              exact owner_note (by simp [mineTask, Spec.key]) (.skipCond item m hget hp hc he hm) (ih' _ _ _)
            | true => exact hgo (some m) ⟨hp, Or.inr ⟨hc, m, rfl, he, hm⟩⟩

theorem owner_executeTask {tasks : TaskMap} {T : Task} {t : Bool} {rec : Rec} {fr : Frame}
    (hr : ∀ fr b m, Quiet n (mineTask n) (rec fr b m)) (hrun : T.run ≠ []) :
    Own1 (LifeStep c n (some T)) (ItemsPost c n T) (.deps T.deps.length t)
      (executeTask c tasks rec n T fr) := by
  unfold Bab.executeTask
  refine owner_silent (fun _ => rfl) (fun g => ?_)
  split
  · rename_i he
    exact Or.inr ⟨_, rfl, .varsErr _ _ hrun (placed_local he resolveVars_local).ne⟩
  · rename_i m hm
    refine owner_note (by simp [mineTask, Spec.key]) (.vars _ g m _ hrun (of_placed_ok hm)) ?_
    cases he : placed T.line (interpolateEnv ⟨m, c.env⟩ (mergeEnvMaps [c.globalEnv, T.env])) with
    | error e =>
      refine Or.inr ⟨_, rfl, .stop _ (List.length_pos_iff.mpr hrun)
        (Or.inr (Or.inl ⟨rfl, m, ?_, he⟩)) (placed_local he interpolateEnv_local).ne⟩
      intro o ho
      split at ho
      · cases ho
      · cases ho; rfl
    | ok tenv =>
      replace he := of_placed_ok he
      have h := owner_executeItems (c := c) (n := n) (tasks := tasks) (T := T) (fr := fr) (tenv := tenv) hr
        T.run 0 (if T.vars.isNone = true then .global else .own m) 0 0 rfl (Nat.zero_le _)
      have ho : ownOf (if T.vars.isNone = true then .global else .own m)
          = (if T.vars.isNone then none else some m) := by
        cases T.vars <;> rfl
      rw [ho] at h
      exact h

/-- how the body of `runTask` may have ended -/
def BodyPost (c : Cfg) (n : Str) (T : Option Task) (q : Life) (r : Option Err) : Prop :=
  (r = none ∧ q = .marked ∧ ∃ T', T = some T') ∨ (∃ e, r = some e ∧ LifeStep c n T q (.taskEnd n (some e)) .ended)

theorem owner_runDeps {T : Task} {t : Bool} {rec : Rec} {fr : Frame} {k : Prog}
    (hr : ∀ fr b m, Quiet n (mineTask n) (rec fr b m))
    (hk : Own1 (LifeStep c n (some T)) (BodyPost c n (some T)) (.deps T.deps.length t) k)
    (ds : List Str) (i : Nat) (hi : i + ds.length = T.deps.length) (hd : T.deps.drop i = ds) :
    Own1 (LifeStep c n (some T)) (BodyPost c n (some T)) (.deps i t) (runDeps rec n fr k ds i) := by
  induction ds generalizing i with
  | nil =>
    have : i = T.deps.length := by simpa using hi
    subst this; exact hk
  | cons d ds ih =>
    unfold Bab.runDeps
    simp only [List.length_cons] at hi
    have hi' : i < T.deps.length := by omega
    rw [List.drop_eq_getElem_cons hi'] at hd
    obtain ⟨hd, hd'⟩ := List.cons.inj hd
    refine owner_quiet_bind (hr _ _ _) (fun r => ?_)
    cases r with
    | none =>
      exact owner_note (by simp [mineTask, Spec.key]) (.depOk i _ (by omega)) (ih (i + 1) (by omega) hd')
    | some e =>
      exact owner_note (by simp [mineTask, Spec.key]) (.depFail i _ e (by omega)) (by rw [← hd]; exact Or.inr ⟨_, rfl, .fail _⟩)

theorem owner_runTaskBody {tasks : TaskMap} {rec : Rec} {fr : Frame} {b : Bool}
    (hr : ∀ fr b m, Quiet n (mineTask n) (rec fr b m)) :
    Own1 (LifeStep c n (tasks.get? n)) (BodyPost c n (tasks.get? n)) (lifeStart (tasks.get? n))
      (runTaskBody c tasks rec fr b n) := by
  unfold Bab.runTaskBody
  cases hT : tasks.get? n with
  | none => exact Or.inr ⟨_, rfl, .unknown⟩
  | some T =>
    dsimp only
    have hdone : ∀ q, LifeStep c n (some T) q (.done n) .marked →
        Own1 (LifeStep c n (some T)) (BodyPost c n (some T)) q (.act (.setDone n) fun _ => .ret none) := by
      intro q hq x _
      exact ⟨.marked, run_one (by simp [mineTask, Spec.key]) hq, Or.inl ⟨rfl, rfl, T, rfl⟩⟩
    have hdeps : ∀ t, Own1 (LifeStep c n (some T)) (BodyPost c n (some T)) (.deps 0 t) (Bab.runDeps rec n fr
        (if T.run = [] then .act (.setDone n) fun _ => .ret none
         else (Bab.executeTask c tasks rec n T fr).bind fun
          | some e => .ret (some e)
          | none => .act (.setDone n) fun _ => .ret none)
        T.deps 0) := by
      intro t
      refine owner_runDeps hr ?_ _ _ (by simp) rfl
      split
      · rename_i h
        exact hdone _ (.noRun _ h)
      · rename_i h
        refine owner_bind (owner_executeTask hr h) ?_
        rintro q r (⟨rfl, hq⟩ | ⟨e, rfl, hq⟩)
        · exact hdone _ hq
        · exact Or.inr ⟨e, rfl, hq⟩
    have hgo : Own1 (LifeStep c n (some T)) (BodyPost c n (some T)) (.deps 0 false)
        (if (!c.dry && !isSilent [fr.ovSilent, T.silent, c.globalSilent]) = true then
        .note (.echoTask n b fr.out) (Bab.runDeps rec n fr
        (if T.run = [] then .act (.setDone n) fun _ => .ret none
         else (Bab.executeTask c tasks rec n T fr).bind fun
          | some e => .ret (some e)
          | none => .act (.setDone n) fun _ => .ret none)
        T.deps 0) else Bab.runDeps rec n fr
        (if T.run = [] then .act (.setDone n) fun _ => .ret none
         else (Bab.executeTask c tasks rec n T fr).bind fun
          | some e => .ret (some e)
          | none => .act (.setDone n) fun _ => .ret none)
        T.deps 0) := by
      split
      · exact owner_note (by simp [mineTask, Spec.key]) (.echo b _) (hdeps true)
      · exact hdeps false
    unfold lifeStart
    by_cases hc : T.cond = []
    · simp only [if_pos hc]
      exact hgo
    · simp only [if_neg hc]
      refine owner_silent (fun _ => rfl) (fun g => ?_)
      cases he : placed T.line (evaluate T.cond ⟨g, c.env⟩) with
      | error e =>
        exact Or.inr ⟨_, rfl, .condErr _ hc (other_wrap _ _)⟩
      | ok v =>
        replace he := of_placed_ok he
        cases v with
        | false => exact owner_note (by simp [mineTask, Spec.key]) (.skip g hc he) (hdone _ .skipDone)
        | true => exact owner_note (by simp [mineTask, Spec.key]) (.runs g hc he) hgo

/-- how a whole call of `runTask n` may have ended -/
theorem owner_runTask {tasks : TaskMap} {rec : Rec} {fr : Frame} {b : Bool}
    (hr : ∀ fr b m, Quiet n (mineTask n) (rec fr b m)) :
    Own1 (LifeStep c n (tasks.get? n)) (fun _ _ => True) (lifeStart (tasks.get? n))
      ((runTaskBody c tasks rec fr b n).bind fun r => .note (.taskEnd n r) (.ret r)) := by
  refine owner_bind (owner_runTaskBody hr) ?_
  rintro q r (⟨rfl, rfl, T, hT⟩ | ⟨e, rfl, hq⟩)
  · have hfin : LifeStep c n (tasks.get? n) .marked (.taskEnd n none) .ended := by
      rw [hT]; exact .finish
    exact owner_note (by simp [mineTask, Spec.key]) hfin trivial
  · exact owner_note (by simp [mineTask, Spec.key]) hq trivial

end task

/-- In every reachable state of an invocation the events of a task so far are a run of its life
cycle. -/
theorem life_of_reach (c : Cfg) (tasks : TaskMap) (gvars : GoMap Str) (main n : Str) {s : State}
    (h : Reach (start c tasks gvars main) s) :
    ∃ q, Run (mineTask n) (LifeStep c n (tasks.get? n)) (lifeStart (tasks.get? n)) s.sh.trace q := by
  have hu : Unclaimed n (mineTask n) (LifeStep c n (tasks.get? n)) (lifeStart (tasks.get? n))
      (runWithTasks c tasks main) :=
    unclaimed_runTask (by intro e he; simp [mineTask, he])
      (by intro e m k he hm; simp [mineTask, he, hm]) (fun rec hr fr b => owner_runTask hr) _ _ _ _
  rcases reach_run hu rfl rfl (fun id => by simp [mineTask, Spec.key]) h with ⟨_, h2, _⟩ | ⟨_, q, h2, _⟩
  · exact ⟨_, run_quiet h2⟩
  · exact ⟨q, h2⟩

end Bab
