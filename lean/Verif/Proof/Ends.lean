import Verif.Model.Runner
import Verif.Proof.Safe
import Verif.Spec.Ends
/-
What has begun is owed its end: a program that emits the beginning of something emits the end of it
before it returns, whatever answers it gets and whichever goroutine moves.
-/

namespace Bab
open Spec

namespace Ends

/-- an event satisfying `P` is emitted before the program returns; a goroutine counts only while it
runs its item (before that it may be dropped) -/
def Owes (P : Ev → Bool) : Prog → Prop
  | .ret _ => False
  | .act a k => ∀ x, (∃ e ∈ a.evs x, P e = true) ∨ Owes P (k x)
  | .par _ _ _ _ _ st ps k => (∃ i, st.tag i = .running ∧ Owes P (ps i)) ∨ ∀ r, Owes P (k r)

/-- whatever the program begins it owes the end of -/
def Disc : Prog → Prop
  | .ret _ => True
  | .act a k => ∀ x, (∀ e ∈ a.evs x, begins e = true → Owes (endsIt e) (k x)) ∧ Disc (k x)
  | .par _ _ _ _ _ st ps k =>
      st.wg = Safe.cnt (fun t => t ≠ .done) st.tag ∧ (∀ i, Disc (ps i)) ∧ ∀ r, Disc (k r)

theorem step_trace {p p' : Prog} {σ σ' : Shared} (hs : Step p σ p' σ') : ∃ es, σ'.trace = σ.trace ++ es := by
  induction hs with
  | act x h => exact ⟨_, rfl⟩
  | abort i h1 h2 h3 => exact ⟨_, rfl⟩
  | child i h1 h2 ih => exact ih
  | _ => exact ⟨[], by simp⟩

/-- a step of a program that owes something pays or still owes -/
theorem owes_step {P : Ev → Bool} {p p' : Prog} {σ σ' : Shared} (hs : Step p σ p' σ') (hd : Disc p)
    (ho : Owes P p) : ∃ es, σ'.trace = σ.trace ++ es ∧ ((∃ e ∈ es, P e = true) ∨ Owes P p') := by
  induction hs with
  | @act a k σ x h => exact ⟨a.evs x, rfl, ho x⟩
  | @acquire lim ctx t it n st ps k σ i h1 h2 =>
    refine ⟨[], by simp, Or.inr ?_⟩
    rcases ho with ⟨j, hj, ho⟩ | ho
    · refine Or.inl ⟨j, ?_, ho⟩
      simp only [upd]; split
      · rfl
      · exact hj
    · exact Or.inr ho
  | @abort lim ctx t it n st ps k σ i h1 h2 h3 =>
    refine ⟨_, rfl, Or.inr ?_⟩
    rcases ho with ⟨j, hj, ho⟩ | ho
    · refine Or.inl ⟨j, ?_, ho⟩
      have hji : j ≠ i := by rintro rfl; rw [h1] at hj; cases hj
      simpa only [upd, hji, if_false] using hj
    · exact Or.inr ho
  | @child lim ctx t it n st ps k σ p' σ' i h1 h2 ih =>
    rcases ho with ⟨j, hj, ho⟩ | ho
    · by_cases hji : j = i
      · subst hji
        obtain ⟨es, he, h⟩ := ih (hd.2.1 j) ho
        refine ⟨es, he, h.imp id fun h => Or.inl ⟨j, hj, ?_⟩⟩
        simpa only [upd, if_true] using h
      · obtain ⟨es, he⟩ : ∃ es, σ'.trace = σ.trace ++ es := step_trace h2
        refine ⟨es, he, Or.inr (Or.inl ⟨j, hj, ?_⟩)⟩
        simpa only [upd, hji, if_false] using ho
    · obtain ⟨es, he⟩ : ∃ es, σ'.trace = σ.trace ++ es := step_trace h2
      exact ⟨es, he, Or.inr (Or.inr ho)⟩
  | @finish lim ctx t it n st ps k σ r i h1 h2 =>
    refine ⟨[], by simp, Or.inr ?_⟩
    rcases ho with ⟨j, hj, ho⟩ | ho
    · have hji : j ≠ i := by rintro rfl; rw [h2] at ho; exact ho
      refine Or.inl ⟨j, ?_, ho⟩
      simpa only [upd, hji, if_false] using hj
    · exact Or.inr ho
  | @release lim ctx t it n st ps k σ i h1 =>
    refine ⟨[], by simp, Or.inr ?_⟩
    rcases ho with ⟨j, hj, ho⟩ | ho
    · have hji : j ≠ i := by rintro rfl; rw [h1] at hj; cases hj
      refine Or.inl ⟨j, ?_, ho⟩
      simpa only [upd, hji, if_false] using hj
    · exact Or.inr ho
  | @wgDone lim ctx t it n st ps k σ i h1 =>
    refine ⟨[], by simp, Or.inr ?_⟩
    rcases ho with ⟨j, hj, ho⟩ | ho
    · have hji : j ≠ i := by rintro rfl; rw [h1] at hj; cases hj
      refine Or.inl ⟨j, ?_, ho⟩
      simpa only [upd, hji, if_false] using hj
    · exact Or.inr ho
  | @join lim ctx t it n st ps k σ h1 =>
    refine ⟨[], by simp, Or.inr ?_⟩
    rcases ho with ⟨j, hj, -⟩ | ho
    · have := Safe.cnt_zero (hd.1.symm.trans h1) j
      rw [hj] at this
      simp at this
    · exact ho _

/-- a step keeps the discipline, and what it begins is owed -/
theorem disc_step {p p' : Prog} {σ σ' : Shared} (hs : Step p σ p' σ') (hd : Disc p) :
    Disc p' ∧ ∃ es, σ'.trace = σ.trace ++ es ∧ es.length ≤ 1 ∧
      ∀ e ∈ es, begins e = true → Owes (endsIt e) p' := by
  induction hs with
  | @act a k σ x h =>
    refine ⟨(hd x).2, a.evs x, rfl, ?_, (hd x).1⟩
    cases a <;> (try cases x) <;> simp [Act.evs]
  | @acquire lim ctx t it n st ps k σ i h1 h2 =>
    refine ⟨⟨?_, hd.2⟩, [], by simp, by simp, by simp⟩
    have hw := Safe.cnt_upd (fun t => t ≠ .done) st.tag i .running
    simp only [h1] at hw
    rw [hd.1]; simpa using hw.symm
  | @abort lim ctx t it n st ps k σ i h1 h2 h3 =>
    refine ⟨⟨?_, hd.2⟩, _, rfl, by simp, by simp [begins]⟩
    have hw := Safe.cnt_upd (fun t => t ≠ .done) st.tag i .done
    simp only [h1] at hw
    simp only [hd.1]
    simp at hw
    simp only [ne_eq, decide_not] at hw ⊢
    omega
  | @child lim ctx t it n st ps k σ p' σ' i h1 h2 ih =>
    obtain ⟨g1, es, g2, g3, g4⟩ := ih (hd.2.1 i)
    refine ⟨⟨hd.1, fun j => ?_, hd.2.2⟩, es, g2, g3, fun e he hb => Or.inl ⟨i, h1, ?_⟩⟩
    · simp only [upd]; split
      · exact g1
      · exact hd.2.1 j
    · simpa only [upd, if_true] using g4 e he hb
  | @finish lim ctx t it n st ps k σ r i h1 h2 =>
    refine ⟨⟨?_, hd.2⟩, [], by simp, by simp, by simp⟩
    have hw := Safe.cnt_upd (fun t => t ≠ .done) st.tag i .returned
    simp only [h1] at hw
    rw [hd.1]; simpa using hw.symm
  | @release lim ctx t it n st ps k σ i h1 =>
    refine ⟨⟨?_, hd.2⟩, [], by simp, by simp, by simp⟩
    have hw := Safe.cnt_upd (fun t => t ≠ .done) st.tag i .released
    simp only [h1] at hw
    rw [hd.1]; simpa using hw.symm
  | @wgDone lim ctx t it n st ps k σ i h1 =>
    refine ⟨⟨?_, hd.2⟩, [], by simp, by simp, by simp⟩
    have hw := Safe.cnt_upd (fun t => t ≠ .done) st.tag i .done
    simp only [h1] at hw
    simp only [hd.1]
    simp at hw
    simp only [ne_eq, decide_not] at hw ⊢
    omega
  | @join lim ctx t it n st ps k σ h1 => exact ⟨hd.2.2 _, [], by simp, by simp, by simp⟩

/-- in every reachable state what has begun has ended or is owed its end -/
theorem reach {p : Prog} {σ : Shared} {s : State} (hp : Disc p) (hσ : σ.trace = []) (h : Reach ⟨p, σ⟩ s) :
    Disc s.prog ∧ ∀ a e b, s.sh.trace = a ++ e :: b → begins e = true →
      (∃ e' ∈ b, endsIt e e' = true) ∨ Owes (endsIt e) s.prog := by
  induction h with
  | refl => exact ⟨hp, fun a e b h => by rw [hσ] at h; simp at h⟩
  | @step t u h hs ih =>
    obtain ⟨i1, i2⟩ := ih
    cases hs with
    | @prog p σ p' σ' hs =>
      obtain ⟨g1, es, g2, g3, g4⟩ := disc_step hs i1
      refine ⟨g1, fun a e b ht hb => ?_⟩
      simp only at ht
      rw [g2] at ht
      match es, g3, g4, g2, ht with
      | [], _, _, g2, ht =>
        rw [List.append_nil] at ht
        rcases i2 a e b ht hb with h | h
        · exact Or.inl h
        · obtain ⟨es, k1, k2⟩ := owes_step hs i1 h
          have : es = [] := by rw [g2] at k1; simpa using k1.symm
          subst this
          exact k2.elim (fun ⟨_, h, _⟩ => by cases h) Or.inr
      | [e1], _, g4, g2, ht =>
        rcases List.eq_nil_or_concat b with rfl | ⟨b', e2, rfl⟩
        · have := List.append_inj_right' ht (by simp)
          cases this
          exact Or.inr (g4 e (by simp) hb)
        · have ht' : σ.trace ++ [e1] = (a ++ e :: b') ++ [e2] := by rw [ht]; simp
          obtain ⟨h5, h6⟩ := List.append_inj' ht' rfl
          cases h6
          rcases i2 a e b' h5 hb with ⟨e', h1, h2⟩ | h
          · exact Or.inl ⟨e', by simp [h1], h2⟩
          · obtain ⟨es, k1, k2⟩ := owes_step hs i1 h
            have : es = [e1] := by rw [g2] at k1; simpa using k1.symm
            subst this
            rcases k2 with ⟨e', h1, h2⟩ | h
            · exact Or.inl ⟨e', by simp at h1; simp [h1], h2⟩
            · exact Or.inr h
    | @cancel p σ id hid =>
      refine ⟨i1, fun a e b ht hb => ?_⟩
      simp only at ht
      rcases List.eq_nil_or_concat b with rfl | ⟨b', e2, rfl⟩
      · have := List.append_inj_right' ht (by simp)
        cases this
        cases hb
      · have ht' : σ.trace ++ [.cancel id] = (a ++ e :: b') ++ [e2] := by rw [ht]; simp
        obtain ⟨h5, h6⟩ := List.append_inj' ht' rfl
        cases h6
        rcases i2 a e b' h5 hb with ⟨e', h1, h2⟩ | h
        · exact Or.inl ⟨e', by simp [h1], h2⟩
        · exact Or.inr h

/-! ### The programs of the runner -/

theorem owes_bind {P : Ev → Bool} (p : Prog) {f : Option Err → Prog} (hf : ∀ r, Owes P (f r)) : Owes P (p.bind f) := by
  induction p with
  | ret r => exact hf r
  | act a k ih => exact fun x => Or.inr (ih x)
  | par lim ctx t it m st ps k _ ih2 => exact Or.inr fun r => ih2 r

theorem owes_left {P : Ev → Bool} {p : Prog} (h : Owes P p) (f : Option Err → Prog) : Owes P (p.bind f) := by
  induction p with
  | ret r => exact h.elim
  | act a k ih => exact fun x => (h x).imp id (ih x)
  | par lim ctx t it m st ps k _ ih2 => exact h.imp id fun h r => ih2 r (h r)

theorem disc_bind {p : Prog} {f : Option Err → Prog} (h : Disc p) (hf : ∀ r, Disc (f r)) : Disc (p.bind f) := by
  induction p with
  | ret r => exact hf r
  | act a k ih => exact fun x => ⟨fun e he hb => owes_left ((h x).1 e he hb) f, ih x (h x).2⟩
  | par lim ctx t it m st ps k _ ih2 => exact ⟨h.1, h.2.1, fun r => ih2 r (h.2.2 r)⟩

section
variable {P : Ev → Bool}

theorem owes_pay {e : Ev} (p : Prog) (h : P e = true) : Owes P (.note e p) :=
  fun _ => Or.inl ⟨e, by simp [Act.evs], h⟩

theorem owes_note {e : Ev} {p : Prog} (h : Owes P p) : Owes P (.note e p) := fun _ => Or.inr h

theorem owes_act {a : Act} {k : a.Resp → Prog} (h : ∀ x, Owes P (k x)) : Owes P (.act a k) := fun x => Or.inr (h x)

theorem owes_readVars {v : VarEnv} {k : GoMap Str → Prog} (hk : ∀ m, Owes P (k m)) : Owes P (readVars v k) := by
  cases v with
  | own m => exact hk m
  | global => exact owes_act hk

theorem owes_writeVar {v : VarEnv} {a b : Str} {k : VarEnv → Prog} (hk : ∀ v, Owes P (k v)) :
    Owes P (writeVar v a b k) := by
  cases v with
  | own m => exact hk _
  | global => exact owes_act fun _ => hk _

theorem owes_executePrompt {tn : Str} {c : Cfg} {loc : Loc} {p : PromptRun} {vars : VarEnv}
    {k : Option Err → VarEnv → Prog} (hk : ∀ r v, Owes P (k r v)) : Owes P (executePrompt c tn loc p vars k) := by
  unfold executePrompt
  refine owes_readVars fun m => owes_note ?_
  split
  · exact hk _ _
  · split
    · exact owes_note (hk _ _)
    · dsimp only
      have hgot : ∀ r : Except Err Str, Owes P (match r with
          | .error e => k (some (.wrap (.prompt tn p.prompt) e)) vars
          | .ok ans => writeVar vars p.prompt ans (k none)) := by
        intro r
        cases r with
        | error e => exact hk _ _
        | ok ans => exact owes_writeVar fun v => hk _ _
      split
      · exact owes_act hgot
      · exact owes_note (hgot _)

theorem owes_executeItem {c : Cfg} {tasks : TaskMap} {rec : Rec} {name : Str} {T : Task} {fr : Frame}
    {i : Nat} {item : RunItem} {vars : VarEnv} {tenv : GoMap Str} {k : Option Err → VarEnv → Prog}
    (hk : ∀ r v, Owes P (k r v)) : Owes P (executeItem c tasks rec name T fr i item vars tenv k) := by
  unfold executeItem
  split
  · exact owes_executePrompt hk
  · split
    · exact owes_note (hk _ _)
    · exact owes_readVars fun m => owes_bind _ fun r => hk _ _
  · exact owes_bind _ fun r => hk _ _

end

theorem disc_note {e : Ev} {p : Prog} (he : begins e = true → Owes (endsIt e) p) (hp : Disc p) : Disc (.note e p) := by
  intro x
  refine ⟨fun e' he' hb => ?_, hp⟩
  have : e' = e := by simpa [Act.evs] using he'
  subst this
  exact he hb

theorem disc_silent {a : Act} {k : a.Resp → Prog} (ha : ∀ x, ∀ e ∈ a.evs x, begins e = false)
    (hk : ∀ x, Disc (k x)) : Disc (.act a k) :=
  fun x => ⟨fun e he hb => absurd hb (by simp [ha x e he]), hk x⟩

theorem disc_readVars {v : VarEnv} {k : GoMap Str → Prog} (hk : ∀ m, Disc (k m)) : Disc (readVars v k) := by
  cases v with
  | own m => exact hk m
  | global => exact disc_silent (by intro x e he; simp [Act.evs] at he) hk

theorem disc_writeVar {v : VarEnv} {a b : Str} {k : VarEnv → Prog} (hk : ∀ v, Disc (k v)) :
    Disc (writeVar v a b k) := by
  cases v with
  | own m => exact hk _
  | global => exact disc_silent (by intro x e he; simp [Act.evs] at he) fun _ => hk _

theorem disc_plain {e : Ev} {p : Prog} (he : begins e = false) (hp : Disc p) : Disc (.note e p) :=
  disc_note (fun h => by rw [he] at h; cases h) hp

theorem disc_runProc {tn : Str} {fr : Frame} {loc : Loc} {spec : ProcSpec} : Disc (runProc tn fr loc spec) := by
  have hfail : ∀ code, Disc (.act (.cancelled fr.ctx) fun (b : Bool) =>
      .ret (some (.wrap (.command tn spec.cmd) (if b then .canceled else .exit code)))) := fun code =>
    disc_silent (by intro x e he; simp [Act.evs] at he) fun _ => trivial
  intro x
  cases x with
  | false => exact ⟨fun e he hb => absurd hb (by simp [Act.evs] at he; subst he; simp [begins]), hfail _⟩
  | true =>
    refine ⟨fun e he _ => ?_, disc_silent (fun x e he => by simp [Act.evs] at he; subst he; rfl) fun x => ?_⟩
    · simp [Act.evs] at he; subst he
      exact fun x => Or.inl ⟨.procEnd loc x, by simp [Act.evs], by simp [endsIt]⟩
    · cases x with
      | none => trivial
      | some code => exact hfail _

theorem disc_executeCommand {c : Cfg} {T : Task} {fr : Frame} {loc : Loc} {v : CommandRun}
    {vars : VarEnv} {tenv : GoMap Str} : Disc (executeCommand c T fr loc v vars tenv) := by
  unfold executeCommand
  split
  · trivial
  · refine disc_readVars fun m => disc_plain rfl ?_
    split
    · trivial
    · split
      · exact disc_plain rfl trivial
      · dsimp only
        split
        · exact disc_runProc
        · exact disc_plain rfl disc_runProc

section
variable {rec : Rec} (hr : ∀ fr b m, Disc (rec fr b m))
include hr

theorem disc_executeRunItem {c : Cfg} {T : Task} {fr : Frame} {loc : Loc}
    {item : RunItem} {vars : VarEnv} {tenv : GoMap Str} :
    Disc (executeRunItem c rec T fr loc item vars tenv) := by
  unfold executeRunItem
  split
  · exact disc_executeCommand
  · split
    · exact disc_plain rfl trivial
    · exact hr _ _ _
  · refine disc_readVars fun m => disc_plain rfl ?_
    split
    · trivial
    · split
      · exact disc_plain rfl trivial
      · exact disc_plain rfl trivial
  · trivial

theorem disc_preDeps {fr : Frame} {ds seen : List Str} {k : List Str → Prog}
    (hk : ∀ s, Disc (k s)) : Disc (preDeps rec fr ds seen k) := by
  induction ds generalizing seen with
  | nil => exact hk _
  | cons d ds ih =>
    unfold preDeps
    split
    · exact ih
    · refine disc_silent (by intro x e he; simp [Act.evs] at he) (fun (s : Option Status) => ?_)
      show Disc (if s = some Status.done then _ else _)
      split
      · exact ih
      · refine disc_bind (hr _ _ _) fun r => ?_
        cases r with
        | none => exact ih
        | some e => trivial

theorem disc_preResolveDeps {tasks : TaskMap} {fr : Frame} {items : List RunItem}
    {seen : List Str} {k : Prog} (hk : Disc k) : Disc (preResolveDeps tasks rec fr items seen k) := by
  induction items generalizing seen with
  | nil => exact hk
  | cons item items ih =>
    cases item with
    | task t =>
      unfold preResolveDeps
      split
      · trivial
      · exact disc_preDeps hr fun s => ih
    | command _ => exact ih
    | log _ => exact ih
    | prompt _ => exact ih
    | parallel _ _ _ _ _ _ _ _ _ _ => exact ih

omit hr in
theorem disc_runBlock {lim : Nat} {ctx : CtxPath} {name : Str} {i : Nat} {items : List RunItem}
    {labels : List Str} {child : Nat → RunItem → Prog} (hc : ∀ j item, Disc (child j item)) :
    Disc (runBlock lim ctx name i items labels child) := by
  refine ⟨?_, fun j => ?_, fun r => disc_plain rfl trivial⟩
  · simp [Safe.cnt_const]
  · exact disc_note (fun _ => owes_bind _ fun r => owes_pay _ (by simp [endsIt]))
      (disc_bind (hc _ _) fun r => disc_plain rfl trivial)

omit hr in
theorem disc_begin {lim : Nat} {ctx : CtxPath} {name : Str} {i : Nat} {items : List RunItem}
    {labels : List Str} {child : Nat → RunItem → Prog} {m : GoMap Str} (hc : ∀ j item, Disc (child j item)) :
    Disc (.note (.parBegin name i m) (runBlock lim ctx name i items labels child)) :=
  disc_note (fun _ => Or.inr fun r => owes_pay _ (by simp [endsIt])) (disc_runBlock hc)

theorem disc_executeParallel {c : Cfg} {tasks : TaskMap} {name : Str} {T : Task} {fr : Frame}
    {i : Nat} {items : List RunItem} {labels : List Str} {mode : ParallelMode} {lim : Nat}
    {color silent output : Option Bool} {m tenv : GoMap Str} :
    Disc (executeParallel c tasks rec name T fr i items labels mode lim color silent output m tenv) := by
  unfold executeParallel
  dsimp only
  refine disc_preResolveDeps hr ?_
  split
  · exact disc_plain rfl trivial
  · split
    · unfold executeParallelTUI
      dsimp only
      split
      · exact disc_begin fun j item => disc_executeRunItem hr
      · refine disc_silent (by intro x e he; simp [Act.evs] at he) fun id => ?_
        refine disc_silent (by intro x e he; simp [Act.evs] at he; subst he; rfl) fun ok => ?_
        cases ok with
        | true => exact disc_begin fun j item => disc_executeRunItem hr
        | false => trivial
    · exact disc_begin fun j item => disc_executeRunItem hr

omit hr in
theorem disc_executePrompt {tn : Str} {c : Cfg} {loc : Loc} {p : PromptRun} {vars : VarEnv}
    {k : Option Err → VarEnv → Prog} (hk : ∀ r v, Disc (k r v)) : Disc (executePrompt c tn loc p vars k) := by
  unfold executePrompt
  refine disc_readVars fun m => disc_plain rfl ?_
  split
  · exact hk _ _
  · split
    · exact disc_plain rfl (hk _ _)
    · dsimp only
      have hgot : ∀ r : Except Err Str, Disc (match r with
          | .error e => k (some (.wrap (.prompt tn p.prompt) e)) vars
          | .ok ans => writeVar vars p.prompt ans (k none)) := by
        intro r
        cases r with
        | error e => exact hk _ _
        | ok ans => exact disc_writeVar fun v => hk _ _
      split
      · exact disc_silent (by intro x e he; simp [Act.evs] at he; subst he; rfl) hgot
      · exact disc_plain rfl (hgot _)

theorem disc_executeItem {c : Cfg} {tasks : TaskMap} {name : Str} {T : Task} {fr : Frame}
    {i : Nat} {item : RunItem} {vars : VarEnv} {tenv : GoMap Str} {k : Option Err → VarEnv → Prog}
    (hk : ∀ r v, Disc (k r v)) : Disc (executeItem c tasks rec name T fr i item vars tenv k) := by
  unfold executeItem
  split
  · exact disc_executePrompt hk
  · split
    · exact disc_plain rfl (hk _ _)
    · exact disc_readVars fun m => disc_bind (disc_executeParallel hr) fun r => hk _ _
  · exact disc_bind (disc_executeRunItem hr) fun r => hk _ _

theorem disc_executeItems {c : Cfg} {tasks : TaskMap} {name : Str} {T : Task} {fr : Frame}
    {tenv : GoMap Str} {items : List RunItem} {i : Nat} {vars : VarEnv} {ex sk : Nat} :
    Disc (executeItems c tasks rec name T fr tenv items i vars ex sk) := by
  induction items generalizing i vars ex sk with
  | nil => unfold executeItems; split <;> trivial
  | cons item rest ih =>
    unfold executeItems
    refine disc_silent (by intro x e he; simp [Act.evs] at he) fun b => ?_
    cases b with
    | true => trivial
    | false =>
      rw [if_neg (by simp)]
      split
      · exact disc_plain rfl ih
      · dsimp only
        have hgo : ∀ w, Disc (.note (.itemStart name i w) <|
            executeItem c tasks rec name T fr i item vars tenv fun r vars' =>
            .note (.itemEnd name i r) <|
            match r with
            | some e => .ret (some e)
            | none => executeItems c tasks rec name T fr tenv rest (i + 1) vars' (ex + 1) sk) := by
          intro w
          refine disc_note (fun _ => owes_executeItem fun r v => owes_pay _ (by simp [endsIt]))
            (disc_executeItem hr fun r v => disc_plain rfl ?_)
          cases r with
          | none => exact ih
          | some e => trivial
        split
        · exact hgo _
        · refine disc_readVars fun m => ?_
          split
          · trivial
          · exact disc_plain rfl ih
          · exact hgo _

theorem disc_executeTask {c : Cfg} {tasks : TaskMap} {name : Str} {T : Task} {fr : Frame} :
    Disc (executeTask c tasks rec name T fr) := by
  unfold executeTask
  refine disc_silent (by intro x e he; simp [Act.evs] at he) fun g => ?_
  split
  · trivial
  · refine disc_plain rfl ?_
    split
    · trivial
    · exact disc_executeItems hr

theorem disc_runDeps {name : Str} {fr : Frame} {k : Prog} {ds : List Str} {i : Nat} (hk : Disc k) :
    Disc (runDeps rec name fr k ds i) := by
  induction ds generalizing i with
  | nil => exact hk
  | cons d ds ih =>
    unfold runDeps
    refine disc_bind (hr _ _ _) fun r => ?_
    cases r with
    | none => exact disc_plain rfl ih
    | some e => exact disc_plain rfl trivial

theorem disc_runTaskBody {c : Cfg} {tasks : TaskMap} {fr : Frame} {b : Bool} {name : Str} :
    Disc (runTaskBody c tasks rec fr b name) := by
  unfold runTaskBody
  split
  · trivial
  · rename_i T hT
    dsimp only
    have hfin : Disc (.act (.setDone name) fun _ => .ret none) :=
      disc_silent (by intro x e he; simp [Act.evs] at he; subst he; rfl) fun _ => trivial
    have hdeps : Disc (runDeps rec name fr
        (if T.run = [] then .act (.setDone name) fun _ => .ret none
         else (executeTask c tasks rec name T fr).bind fun
          | some e => .ret (some e)
          | none => .act (.setDone name) fun _ => .ret none)
        T.deps 0) := by
      refine disc_runDeps hr ?_
      split
      · exact hfin
      · refine disc_bind (disc_executeTask hr) fun r => ?_
        cases r with
        | none => exact hfin
        | some e => trivial
    have hgo : Disc (if (!c.dry && !isSilent [fr.ovSilent, T.silent, c.globalSilent]) = true then
        .note (.echoTask name b fr.out) (runDeps rec name fr
        (if T.run = [] then .act (.setDone name) fun _ => .ret none
         else (executeTask c tasks rec name T fr).bind fun
          | some e => .ret (some e)
          | none => .act (.setDone name) fun _ => .ret none)
        T.deps 0) else runDeps rec name fr
        (if T.run = [] then .act (.setDone name) fun _ => .ret none
         else (executeTask c tasks rec name T fr).bind fun
          | some e => .ret (some e)
          | none => .act (.setDone name) fun _ => .ret none)
        T.deps 0) := by
      split
      · exact disc_plain rfl hdeps
      · exact hdeps
    split
    · exact hgo
    · refine disc_silent (by intro x e he; simp [Act.evs] at he) fun g => ?_
      split
      · trivial
      · exact disc_plain rfl hfin
      · exact disc_plain rfl hgo

end

theorem disc_runTask {c : Cfg} {tasks : TaskMap} (fuel : Nat) (fr : Frame) (b : Bool) (name : Str) :
    Disc (runTask c tasks fuel fr b name) := by
  induction fuel generalizing fr b name with
  | zero => exact disc_silent (by intro x e he; simp [Act.evs] at he) fun _ => trivial
  | succ fuel ih =>
    intro x
    cases x with
    | some s =>
      refine ⟨fun e he => by simp [Act.evs] at he, ?_⟩
      cases s with
      | done => trivial
      | running => exact disc_silent (by intro x e he; simp [Act.evs] at he) fun _ => trivial
    | none =>
      refine ⟨fun e he _ => ?_, disc_bind (disc_runTaskBody ih) fun r => disc_plain rfl trivial⟩
      simp [Act.evs] at he; subst he
      exact owes_bind _ fun r => owes_pay _ (by simp [endsIt])

end Ends

end Bab
