import Verif.Spec.Work
import Verif.Spec.Cycle
import Verif.Props.Due
import Verif.Proof.Term
/-
Proof that a run in which nothing goes wrong ends with success exactly if all that is due works (C79).
-/

namespace Bab
namespace Work
open Spec

/-- As long as nothing goes wrong, the program does not change the global variables `g`, its events all satisfy `E`, and what it
returns satisfies `Q`. -/
inductive Ends (g : GoMap Str) (E : Ev → Prop) : (Option Err → Prop) → Prog → Prop
  | ret {Q : Option Err → Prop} {r : Option Err} : Q r → Ends g E Q (.ret r)
  | globals {Q : Option Err → Prop} {k : GoMap Str → Prog} : Ends g E Q (k g) → Ends g E Q (.act .globals k)
  | quiet {Q : Option Err → Prop} {ctx : CtxPath} {k : Bool → Prog} : Ends g E Q (k false) → Ends g E Q (.act (.cancelled ctx) k)
  | fuel {Q : Option Err → Prop} {k : Unit → Prog} : Ends g E Q (.act .fuel k)
  | act {Q : Option Err → Prop} {a : Act} {k : a.Resp → Prog} : (∀ x v, a ≠ .setGlobal x v) →
      (∀ x, (∀ e ∈ a.evs x, Calm e) → ∀ e ∈ a.evs x, E e) → (∀ x, (∀ e ∈ a.evs x, Calm e) → Ends g E Q (k x)) → Ends g E Q (.act a k)
  | par {Q R : Option Err → Prop} {lim : Nat} {ctx : CtxPath} {t : Str} {it n : Nat} {st : BState n} {ps : Fin n → Prog}
      {k : Option Err → Prog} : (∀ i, Ends g E R (ps i)) → (st.first = none ∨ R st.first) → (∀ r, r = none ∨ R r → Ends g E Q (k r)) →
      Ends g E Q (.par lim ctx t it n st ps k)

variable {g : GoMap Str} {E : Ev → Prop} {Q Q' : Option Err → Prop} {p : Prog}

theorem Ends.bind {f : Option Err → Prog} (h : Ends g E Q' p) (hf : ∀ r, Q' r → Ends g E Q (f r)) : Ends g E Q (p.bind f) := by
  induction h with
  | ret h => exact hf _ h
  | globals _ ih => exact .globals (ih hf)
  | quiet _ ih => exact .quiet (ih hf)
  | fuel => exact .fuel
  | act h1 h2 _ ih => exact .act h1 h2 fun x hx => ih x hx hf
  | par h1 h2 _ _ ih => exact .par h1 h2 fun r hr => ih r hr hf

theorem Ends.mono (h : Ends g E Q' p) (hq : ∀ r, Q' r → Q r) : Ends g E Q p := by
  induction h with
  | ret h => exact .ret (hq _ h)
  | globals _ ih => exact .globals (ih hq)
  | quiet _ ih => exact .quiet (ih hq)
  | fuel => exact .fuel
  | act h1 h2 _ ih => exact .act h1 h2 fun x hx => ih x hx hq
  | par h1 h2 _ _ ih => exact .par h1 h2 fun r hr => ih r hr hq

theorem Ends.note {e : Ev} (he : E e) (h : Ends g E Q p) : Ends g E Q (.note e p) :=
  .act (fun _ _ h => by cases h) (fun x _ e' h => by simp only [Act.evs, List.mem_singleton] at h; subst h; exact he) (fun _ _ => h)

theorem Ends.silent {a : Act} {k : a.Resp → Prog} (h : ∀ x v, a ≠ .setGlobal x v) (he : ∀ x, a.evs x = []) (hk : ∀ x, Ends g E Q (k x)) :
    Ends g E Q (.act a k) := .act h (fun x _ e h => by rw [he x] at h; cases h) (fun x _ => hk x)

theorem Ends.step {p p' : Prog} {σ σ' : Shared} (h : Ends g E Q p) (hs : Step p σ p' σ')
    (hσ : σ.gvars = g) (hc : σ.cancelled = []) (ht : ∀ e ∈ σ.trace, E e) (hcalm : ∀ e ∈ σ'.trace, Calm e)
    (hf : ∀ k : Act.fuel.Resp → Prog, ¬ Inside p (.act .fuel k)) :
    Ends g E Q p' ∧ σ'.gvars = g ∧ σ'.cancelled = [] ∧ ∀ e ∈ σ'.trace, E e := by
  induction hs generalizing Q with
  | @act a k σ x hx =>
    cases h with
    | globals h =>
      have hx' : x = g := by rw [← hσ]; exact hx
      subst hx'
      exact ⟨h, hσ, hc, by simpa [Act.apply, Act.evs, Act.effect] using ht⟩
    | quiet h =>
      have hx' : x = false := by
        have h1 : x = σ.isCancelled _ := hx
        have h2 : ∀ ctx, σ.isCancelled ctx = false := fun ctx => by rw [Shared.isCancelled, hc, List.any_eq_false]; simp
        exact h1.trans (h2 _)
      subst hx'
      exact ⟨h, hσ, hc, by simpa [Act.apply, Act.evs, Act.effect] using ht⟩
    | fuel => exact absurd (.refl _) (hf _)
    | act h1 h2 h3 =>
      have hm : (Act.apply σ a x).trace = σ.trace ++ a.evs x := rfl
      have hx' : ∀ e ∈ a.evs x, Calm e := fun e he => hcalm e (by rw [hm]; exact List.mem_append_right _ he)
      refine ⟨h3 x hx', ?_, ?_, ?_⟩
      · cases a with
        | setGlobal y v => exact absurd rfl (h1 y v)
        | claim n => cases x <;> exact hσ
        | _ => exact hσ
      · cases a with
        | setGlobal y v => exact absurd rfl (h1 y v)
        | claim n => cases x <;> exact hc
        | _ => exact hc
      · intro e he
        rw [hm, List.mem_append] at he
        rcases he with he | he
        · exact ht e he
        · exact h2 x hx' e he
  | acquire i _ _ =>
    cases h with
    | par h1 h2 h3 => exact ⟨.par h1 h2 h3, hσ, hc, ht⟩
  | abort i _ _ hcc =>
    rw [Shared.isCancelled, hc] at hcc
    simp at hcc
  | @child lim ctx t it n st ps k σ p' σ' i hi _ ih =>
    cases h with
    | par h1 h2 h3 =>
      obtain ⟨k1, k2, k3, k4⟩ := ih (h1 i) hσ hc ht hcalm (fun k hk => hf k (.sub i hi hk))
      refine ⟨.par ?_ h2 h3, k2, k3, k4⟩
      intro j
      unfold upd
      split
      · exact k1
      · exact h1 j
  | @finish lim ctx t it n st ps k σ r i _ hr =>
    cases h with
    | @par _ R _ _ _ _ _ _ _ _ h1 h2 h3 =>
      refine ⟨.par h1 ?_ h3, hσ, hc, ht⟩
      have hR := h1 i
      rw [hr] at hR
      cases hR with
      | ret hR =>
        simp only [once]
        split
        · next h => rw [h] at h2; exact h2
        · exact .inr hR
  | release i _ =>
    cases h with
    | par h1 h2 h3 => exact ⟨.par h1 h2 h3, hσ, hc, ht⟩
  | wgDone i _ =>
    cases h with
    | par h1 h2 h3 => exact ⟨.par h1 h2 h3, hσ, hc, ht⟩
  | join _ =>
    cases h with
    | par h1 h2 h3 => exact ⟨h3 _ h2, hσ, hc, ht⟩

theorem step_trace {p p' : Prog} {σ σ' : Shared} (h : Step p σ p' σ') : ∀ e ∈ σ.trace, e ∈ σ'.trace := by
  induction h with
  | act x _ => exact fun e he => List.mem_append_left _ he
  | abort i _ _ _ => exact fun e he => List.mem_append_left _ he
  | child i _ _ ih => exact ih
  | _ => exact fun e he => he

theorem Ends.sound {s0 s : State} (h : Ends g E Q s0.prog) (hσ : s0.sh.gvars = g) (hc : s0.sh.cancelled = []) (ht : s0.sh.trace = [])
    (hf : ∀ s, Reach s0 s → ∀ k : Act.fuel.Resp → Prog, ¬ Inside s.prog (.act .fuel k)) (hr : Reach s0 s) (hcalm : ∀ e ∈ s.sh.trace, Calm e) :
    Ends g E Q s.prog ∧ s.sh.gvars = g ∧ s.sh.cancelled = [] ∧ ∀ e ∈ s.sh.trace, E e := by
  induction hr with
  | refl => exact ⟨h, hσ, hc, by simp [ht]⟩
  | step hr hs ih =>
    cases hs with
    | prog hst =>
      obtain ⟨h1, h2, h3, h4⟩ := ih fun e he => hcalm e (step_trace hst e he)
      exact h1.step hst h2 h3 h4 hcalm (hf _ hr)
    | cancel id _ => exact (hcalm (.cancel id) (List.mem_append_right _ List.mem_cons_self)).elim

/-! ### if all that is due works, the only errors are those about circular dependencies -/

/-- success, or an error about a circular dependency -/
def Circle (r : Option Err) : Prop := ∀ e, r = some e → ¬ NoCycle e

theorem circle_none : Circle none := fun _ h => by cases h

theorem circle_wrap {w : Where} {e : Err} (h : Circle (some e)) : Circle (some (.wrap w e)) := by
  intro e' h'; cases h'; exact h e rfl

section
variable {c : Cfg} {tasks : TaskMap} {main : Str}

local notation "O" => Ends g (fun _ => True) Circle

theorem w_readVars {v : VarEnv} {m : GoMap Str} {k : GoMap Str → Prog} (h : Plan.Reads g v m) (hk : Ends g E Q (k m)) : Ends g E Q (readVars v k) := by
  rcases h with rfl | ⟨rfl, rfl⟩
  · exact hk
  · exact .globals hk

theorem w_runProc {tn : Str} {fr : Frame} {loc : Loc} {spec : ProcSpec} : O (runProc tn fr loc spec) := by
  refine .act (fun _ _ h => by cases h) (fun _ _ _ _ => trivial) ?_
  intro x hx
  cases x with
  | false => exact (hx _ List.mem_cons_self trivial).elim
  | true =>
    refine .act (fun _ _ h => by cases h) (fun _ _ _ _ => trivial) ?_
    intro x hx
    cases x with
    | none => exact .ret circle_none
    | some code => exact (hx _ List.mem_cons_self trivial).elim

/-- calls of tasks that are due end well -/
def RecWorks (c : Cfg) (tasks : TaskMap) (g : GoMap Str) (main : Str) (rec : Rec) : Prop :=
  ∀ fr b n, Spec.Due c tasks g main (.task n) → Ends g (fun _ => True) Circle (rec fr b n)

variable {rec : Rec} {T : Task} {n : Str} {fr : Frame} {loc : Loc} {vars : VarEnv} {m tenv : GoMap Str}

theorem prepare_ready {v : CommandRun} {text : Str} (h : CmdReady c T v tenv m text) :
    trimSpace v.cmd ≠ [] ∧ ∃ env dir, prepareCommand c T v tenv m = .ok (text, env, dir) := by
  obtain ⟨h0, h1, ⟨env, h2⟩, dir, h3⟩ := h
  exact ⟨h0, env, dir, by simp only [prepareCommand, h1, h2, h3]⟩

theorem w_executeCommand {v : CommandRun} (hd : c.dry = false) (hT : tasks.get? loc.task = some T)
    (hw : ItemWorks c tasks loc m (.command v)) (hm : Plan.Reads g vars m)
    (he : interpolateEnv ⟨m, c.env⟩ (mergeEnvMaps [c.globalEnv, T.env]) = .ok tenv) : O (executeCommand c T fr loc v vars tenv) := by
  obtain ⟨T', tenv', text, hT', he', hready⟩ := hw
  rw [hT] at hT'; cases hT'
  rw [he] at he'; cases he'
  obtain ⟨h0, env, dir, hp⟩ := prepare_ready hready
  unfold executeCommand
  rw [if_neg h0]
  refine w_readVars hm (.note trivial ?_)
  simp only [hp, placed_ok, hd, Bool.false_eq_true, if_false]
  split
  · exact w_runProc
  · exact .note trivial w_runProc

theorem w_executeRunItem {it : RunItem} (hrec : RecWorks c tasks g main rec) (hd : c.dry = false) (hT : tasks.get? loc.task = some T)
    (hdue : Spec.Due c tasks g main (.item loc it m)) (hw : ItemWorks c tasks loc m it)
    (hk : loc.sub = none → (∃ v, it = .command v) ∨ (∃ t, it = .task t) ∨ ∃ l, it = .log l) (hm : Plan.Reads g vars m)
    (he : interpolateEnv ⟨m, c.env⟩ (mergeEnvMaps [c.globalEnv, T.env]) = .ok tenv) :
    O (executeRunItem c rec T fr loc it vars tenv) := by
  unfold executeRunItem
  split
  · exact w_executeCommand hd hT hw hm he
  · rw [hd]
    exact hrec _ _ _ (.call hdue)
  · obtain ⟨text, ht⟩ := hw
    refine w_readVars hm (.note trivial ?_)
    simp only [ht, placed_ok, hd, Bool.false_eq_true, if_false]
    exact .note trivial (.ret circle_none)
  · rename_i h1 h2 h3
    exfalso
    cases it with
    | command v => exact h1 v rfl
    | task t => exact h2 t rfl
    | log l => exact h3 l rfl
    | prompt p =>
      rcases hk hw with ⟨_, h⟩ | ⟨_, h⟩ | ⟨_, h⟩ <;> cases h
    | parallel _ _ _ _ _ _ _ _ _ _ =>
      rcases hk hw with ⟨_, h⟩ | ⟨_, h⟩ | ⟨_, h⟩ <;> cases h

theorem w_andThen {q : Prog} {w : Where} (hp : O p) (hq : O q) : O (p.andThen (.wrap w) q) :=
  hp.bind fun r hr => by
    cases r with
    | none => exact hq
    | some e => exact .ret (circle_wrap hr)

theorem w_preDeps (hrec : RecWorks c tasks g main rec) {ds seen : List Str} {k : List Str → Prog}
    (hds : ∀ d ∈ ds, Spec.Due c tasks g main (.task d)) (hk : ∀ s, O (k s)) : O (preDeps rec fr ds seen k) := by
  induction ds generalizing seen with
  | nil => exact hk _
  | cons d ds ih =>
    have ih' := fun {seen} => ih (seen := seen) (fun d hd => hds d (List.mem_cons_of_mem _ hd))
    unfold preDeps
    split
    · exact ih'
    · refine .silent (fun _ _ h => by cases h) (fun _ => rfl) ?_
      intro (s : Option Status)
      split
      · exact ih'
      · exact w_andThen (hrec _ _ _ (hds d List.mem_cons_self)) ih'

theorem w_preResolveDeps (hrec : RecWorks c tasks g main rec) {items : List RunItem} {seen : List Str} {k : Prog}
    (hex : ∀ t, .task t ∈ items → tasks.get? t.task ≠ none)
    (hds : ∀ t T d, .task t ∈ items → tasks.get? t.task = some T → d ∈ T.deps → Spec.Due c tasks g main (.task d)) (hk : O k) :
    O (preResolveDeps tasks rec fr items seen k) := by
  induction items generalizing seen with
  | nil => exact hk
  | cons it items ih =>
    have ih' := fun {seen} => ih (seen := seen) (fun t h => hex t (List.mem_cons_of_mem _ h)) (fun t T d h => hds t T d (List.mem_cons_of_mem _ h))
    cases it with
    | task t =>
      unfold preResolveDeps
      split
      · next h => exact absurd h (hex t List.mem_cons_self)
      · rename_i T hT
        exact w_preDeps hrec (fun d hd => hds t T d List.mem_cons_self hT hd) (fun s => ih')
    | command _ => exact ih'
    | log _ => exact ih'
    | prompt _ => exact ih'
    | parallel _ _ _ _ _ _ _ _ _ _ => exact ih'

theorem w_runBlock {lim : Nat} {ctx : CtxPath} {i : Nat} {items : List RunItem} {labels : List Str} {child : Nat → RunItem → Prog}
    (h : ∀ j it, items[j]? = some it → O (child j it)) : O (runBlock lim ctx n i items labels child) := by
  unfold runBlock
  refine .par (R := Circle) ?_ (.inl rfl) (fun r hr => .note trivial (.ret ?_))
  · intro j
    refine .note trivial ((h j _ (by simp)).bind fun r hr => .note trivial (.ret ?_))
    cases r with
    | none => exact circle_none
    | some e => exact circle_wrap hr
  · rcases hr with rfl | hr
    · exact circle_none
    · exact hr

theorem w_executeParallel {i : Nat} {items : List RunItem} {labels : List Str} {mode : ParallelMode} {lim : Nat} {color bs bo : Option Bool}
    {pl : List Str} {w : Str} {ln : Nat} (hrec : RecWorks c tasks g main rec) (hall : ∀ x, Spec.Due c tasks g main x → Works c tasks g x)
    (hd : c.dry = false) (hT : tasks.get? n = some T)
    (hdue : Spec.Due c tasks g main (.item ⟨n, i, none⟩ (.parallel items labels mode lim color bs bo pl w ln) m))
    (he : interpolateEnv ⟨m, c.env⟩ (mergeEnvMaps [c.globalEnv, T.env]) = .ok tenv) :
    O (executeParallel c tasks rec n T fr i items labels mode lim color bs bo m tenv) := by
  unfold executeParallel
  simp only
  refine w_preResolveDeps hrec ?_ ?_ ?_
  · intro t ht
    obtain ⟨j, hj⟩ := List.mem_iff_getElem?.mp ht
    obtain ⟨T', hT', _⟩ := hall _ (.call (.sub hdue hj))
    rw [hT']; simp
  · intro t T' d ht hT' hd'
    obtain ⟨j, hj⟩ := List.mem_iff_getElem?.mp ht
    exact .ahead (.sub hdue hj) hT' hd'
  · simp only [hd, Bool.false_eq_true, if_false]
    have hchild : ∀ (frj : Nat → Frame) j it, items[j]? = some it → O (executeRunItem c rec T (frj j) ⟨n, i, some j⟩ it (.own m) tenv) :=
      fun frj j it hj => w_executeRunItem hrec hd hT (.sub hdue hj) (hall _ (.sub hdue hj)) (fun h => by cases h) (.inl rfl) he
    split
    · unfold executeParallelTUI
      simp only
      split
      · exact .note trivial (w_runBlock (hchild _))
      · refine .silent (fun _ _ h => by cases h) (fun _ => rfl) fun id => ?_
        refine .act (fun _ _ h => by cases h) (fun _ _ _ _ => trivial) ?_
        intro ok hok
        cases ok with
        | true => exact .note trivial (w_runBlock (hchild _))
        | false => exact (hok _ List.mem_cons_self).elim
    · exact .note trivial (w_runBlock (hchild _))

theorem w_executeItems (hrec : RecWorks c tasks g main rec) (hall : ∀ x, Spec.Due c tasks g main x → Works c tasks g x)
    (hd : c.dry = false) (hT : tasks.get? n = some T)
    (hn : Spec.Due c tasks g main (.task n)) (hc : CondTrue c T.cond g) (hv : resolveVars T.vars g c.env = .ok m)
    (he : interpolateEnv ⟨m, c.env⟩ (mergeEnvMaps [c.globalEnv, T.env]) = .ok tenv) (hm : Plan.Reads g vars m)
    (hask : ∀ p, .prompt p ∉ T.run) (hcond : ∀ it ∈ T.run, it.onPlatform c.platform = true → ¬ CondWrong c it.cond m)
    {its : List RunItem} {i ex sk : Nat} (hits : T.run.drop i = its)
    (hsome : ex ≠ 0 ∨ sk ≠ 0 ∨ ∃ it ∈ its, it.onPlatform c.platform = true) :
    O (executeItems c tasks rec n T fr tenv its i vars ex sk) := by
  induction its generalizing i ex sk with
  | nil =>
    unfold executeItems
    rw [if_neg]
    · exact .ret circle_none
    · rintro ⟨h1, h2⟩
      rcases hsome with h | h | ⟨_, h, _⟩
      · exact h h1
      · exact h h2
      · cases h
  | cons it its ih =>
    have hi : T.run[i]? = some it := by
      have := congrArg (·[0]?) hits
      simpa using this
    have hnext : T.run.drop (i + 1) = its := by
      have := congrArg (List.drop 1) hits
      simpa [List.drop_drop, Nat.add_comm] using this
    unfold executeItems
    refine .quiet ?_
    simp only [Bool.false_eq_true, if_false]
    split
    · next hp =>
      refine .note trivial (ih hnext ?_)
      rcases hsome with h | h | ⟨x, h, hx⟩
      · exact .inl h
      · exact .inr (.inl h)
      · rcases List.mem_cons.mp h with rfl | h
        · rw [hp] at hx; cases hx
        · exact .inr (.inr ⟨x, h, hx⟩)
    · next hp =>
      have hp : it.onPlatform c.platform = true := by simpa using hp
      have go : ∀ w, CondTrue c it.cond m → O (Prog.note (.itemStart n i w) <|
          executeItem c tasks rec n T fr i it vars tenv fun r vars' =>
            .note (.itemEnd n i r) <|
            match r with
            | some e => .ret (some e)
            | none => executeItems c tasks rec n T fr tenv its (i + 1) vars' (ex + 1) sk) := by
        intro w hct
        refine .note trivial ?_
        have hdue : Spec.Due c tasks g main (.item ⟨n, i, none⟩ it m) := .item hn hT hc hv hi hp hct
        have hk : ∀ r, Circle r → O (Prog.note (.itemEnd n i r) <|
            match r with
            | some e => .ret (some e)
            | none => executeItems c tasks rec n T fr tenv its (i + 1) vars (ex + 1) sk) := by
          intro r hr
          refine .note trivial ?_
          cases r with
          | none => exact ih hnext (.inl (by omega))
          | some e => exact .ret hr
        unfold executeItem
        split
        · exact absurd (List.mem_of_getElem? hi) (hask _)
        · simp only [hd, Bool.false_eq_true, if_false]
          exact w_readVars hm ((w_executeParallel hrec hall hd hT hdue he).bind hk)
        · rename_i h1 h2
          refine (w_executeRunItem hrec hd hT hdue (hall _ hdue) (fun _ => ?_) hm he).bind hk
          cases it with
          | command v => exact .inl ⟨v, rfl⟩
          | task t => exact .inr (.inl ⟨t, rfl⟩)
          | log l => exact .inr (.inr ⟨l, rfl⟩)
          | prompt p => exact absurd rfl (h1 p)
          | parallel _ _ _ _ _ _ _ _ _ _ => exact absurd rfl (h2 _ _ _ _ _ _ _ _ _ _)
      split
      · next h =>
        refine go _ ?_
        rw [h]; rfl
      · refine w_readVars hm ?_
        cases hev : evaluate it.cond ⟨m, c.env⟩ with
        | error e => exact absurd ⟨e, hev⟩ (hcond it (List.mem_of_getElem? hi) hp)
        | ok b =>
          simp only [placed_ok]
          cases b with
          | false => exact .note trivial (ih hnext (.inr (.inl (by omega))))
          | true => exact go _ hev

theorem w_runDeps (hrec : RecWorks c tasks g main rec) {ds : List Str} {i : Nat} {k : Prog}
    (hds : ∀ d ∈ ds, Spec.Due c tasks g main (.task d)) (hk : O k) : O (runDeps rec n fr k ds i) := by
  induction ds generalizing i with
  | nil => exact hk
  | cons d ds ih =>
    unfold runDeps
    refine (hrec _ _ _ (hds d List.mem_cons_self)).bind fun r hr => ?_
    cases r with
    | none => exact .note trivial (ih fun d hd => hds d (List.mem_cons_of_mem _ hd))
    | some e => exact .note trivial (.ret (circle_wrap hr))

theorem w_runTask (hd : c.dry = false) (hask : Unasked c tasks g main) (hall : ∀ x, Spec.Due c tasks g main x → Works c tasks g x)
    (fuel : Nat) : RecWorks c tasks g main (runTask c tasks fuel) := by
  induction fuel with
  | zero => exact fun fr b n _ => .fuel
  | succ fuel hrec =>
    intro fr b n hn
    unfold runTask
    refine .act (fun _ _ h => by cases h) (fun _ _ _ _ => trivial) ?_
    intro (s : Option Status) _
    match s with
    | some .done => exact .ret circle_none
    | some .running =>
      refine .silent (fun _ _ h => by cases h) (fun _ => rfl) (fun _ => .ret ?_)
      intro e he; cases he; exact id
    | none =>
      refine Ends.bind (Q' := Circle) ?_ (fun r hr => .note trivial (.ret hr))
      obtain ⟨T, hT, hcw, hbody⟩ := hall _ hn
      unfold runTaskBody
      simp only [hT]
      have hfin : O (.act (.setDone n) fun _ => .ret none) :=
        .act (fun _ _ h => by cases h) (fun _ _ _ _ => trivial) (fun _ _ => .ret circle_none)
      have hgo : CondTrue c T.cond g → ∀ q, q = runDeps (runTask c tasks fuel) n fr
          (if T.run = [] then .act (.setDone n) fun _ => .ret none
           else (executeTask c tasks (runTask c tasks fuel) n T fr).bind fun
            | some e => .ret (some e)
            | none => .act (.setDone n) fun _ => .ret none) T.deps 0 →
          O (if (!c.dry && !isSilent [fr.ovSilent, T.silent, c.globalSilent]) = true then Prog.note (.echoTask n b fr.out) q else q) := by
        rintro hc q rfl
        have hdeps : O (runDeps (runTask c tasks fuel) n fr
          (if T.run = [] then .act (.setDone n) fun _ => .ret none
           else (executeTask c tasks (runTask c tasks fuel) n T fr).bind fun
            | some e => .ret (some e)
            | none => .act (.setDone n) fun _ => .ret none) T.deps 0) := by
          refine w_runDeps hrec (fun d hd => .dep hn hT hc hd) ?_
          split
          · exact hfin
          · next hne =>
            refine Ends.bind (Q' := Circle) ?_ (fun r hr => ?_)
            · obtain ⟨m, tenv, hv, he, hsome, hcond⟩ := hbody hc hne
              unfold executeTask
              refine .globals ?_
              simp only [hv, placed_ok]
              refine .note trivial ?_
              simp only [he, placed_ok]
              refine w_executeItems hrec hall hd hT hn hc hv he ?_ (fun p => hask n T p hn hT) hcond rfl (.inr (.inr hsome))
              cases hTv : T.vars with
              | none => rw [hTv] at hv; cases hv; exact .inr ⟨rfl, rfl⟩
              | some vs => exact .inl rfl
            · cases r with
              | none => exact hfin
              | some e => exact .ret hr
        split
        · exact .note trivial hdeps
        · exact hdeps
      split
      · next h => exact hgo (by rw [h]; rfl) _ rfl
      · refine .globals ?_
        cases hev : evaluate T.cond ⟨g, c.env⟩ with
        | error e => exact absurd ⟨e, hev⟩ hcw
        | ok b =>
          simp only [placed_ok]
          cases b with
          | false => exact .note trivial hfin
          | true => exact .note trivial (hgo hev _ rfl)

/-! ### what is done works -/

/-- what the events of a run show -/
def EvWorks (c : Cfg) (tasks : TaskMap) (g : GoMap Str) : Ev → Prop
  | .done n => ∃ T, tasks.get? n = some T ∧ TaskWorks c g T
  | .procStart loc _ => ∀ v, itemAt tasks loc = some (.command v) → trimSpace v.cmd ≠ []
  | .answered _ _ _ => False
  | _ => True

local notation "N" => Ends g (EvWorks c tasks g)

theorem n_runProc {tn : Str} {spec : ProcSpec}
    (h : ∀ v, itemAt tasks loc = some (.command v) → trimSpace v.cmd ≠ []) : N (fun _ => True) (runProc tn fr loc spec) := by
  have hfail : ∀ code, N (fun _ => True) (.act (.cancelled fr.ctx) fun (b : Bool) =>
      .ret (some (.wrap (.command tn spec.cmd) (if b then .canceled else .exit code)))) := fun code => .quiet (.ret trivial)
  refine .act (fun _ _ h => by cases h) ?_ ?_
  · intro x _ e he
    cases x <;> simp only [Act.evs, List.mem_singleton] at he <;> subst he
    · trivial
    · exact h
  · intro x _
    cases x with
    | false => exact hfail _
    | true =>
      refine .act (fun _ _ h => by cases h) ?_ ?_
      · intro x _ e he
        simp only [Act.evs, List.mem_singleton] at he; subst he; trivial
      · intro x _
        cases x with
        | none => exact .ret trivial
        | some code => exact hfail _

/-- calls of tasks that are due show only what works -/
def RecShows (c : Cfg) (tasks : TaskMap) (g : GoMap Str) (main : Str) (rec : Rec) : Prop :=
  ∀ fr b n, Spec.Due c tasks g main (.task n) → Ends g (EvWorks c tasks g) (fun _ => True) (rec fr b n)

theorem n_executeRunItem {it : RunItem} (hrec : RecShows c tasks g main rec) (hd : c.dry = false)
    (hdue : Spec.Due c tasks g main (.item loc it m)) (hm : Plan.Reads g vars m) :
    N (fun _ => True) (executeRunItem c rec T fr loc it vars tenv) := by
  unfold executeRunItem
  split
  · rename_i v
    unfold executeCommand
    split
    · exact .ret trivial
    · next h0 =>
      refine w_readVars hm (.note trivial ?_)
      have hrun : ∀ spec, N (fun _ => True) (runProc T.name fr loc spec) := fun spec => n_runProc fun v' hv' => by
        rw [(Due.item_facts hdue).1] at hv'; cases hv'; exact h0
      split
      · exact .ret trivial
      · simp only [hd, Bool.false_eq_true, if_false]
        split
        · exact hrun _
        · exact .note trivial (hrun _)
  · rw [hd]
    exact hrec _ _ _ (.call hdue)
  · refine w_readVars hm (.note trivial ?_)
    split
    · exact .ret trivial
    · simp only [hd, Bool.false_eq_true, if_false]
      exact .note trivial (.ret trivial)
  · exact .ret trivial

theorem n_andThen {q : Prog} {w : Err → Err} (hp : N (fun _ => True) p) (hq : N (fun _ => True) q) : N (fun _ => True) (p.andThen w q) :=
  hp.bind fun r _ => by
    cases r with
    | none => exact hq
    | some e => exact .ret trivial

theorem n_preDeps (hrec : RecShows c tasks g main rec) {ds seen : List Str} {k : List Str → Prog}
    (hds : ∀ d ∈ ds, Spec.Due c tasks g main (.task d)) (hk : ∀ s, N (fun _ => True) (k s)) : N (fun _ => True) (preDeps rec fr ds seen k) := by
  induction ds generalizing seen with
  | nil => exact hk _
  | cons d ds ih =>
    have ih' := fun {seen} => ih (seen := seen) (fun d hd => hds d (List.mem_cons_of_mem _ hd))
    unfold preDeps
    split
    · exact ih'
    · refine .silent (fun _ _ h => by cases h) (fun _ => rfl) ?_
      intro (s : Option Status)
      split
      · exact ih'
      · exact n_andThen (hrec _ _ _ (hds d List.mem_cons_self)) ih'

theorem n_preResolveDeps (hrec : RecShows c tasks g main rec) {items : List RunItem} {seen : List Str} {k : Prog}
    (hds : ∀ t T d, .task t ∈ items → tasks.get? t.task = some T → d ∈ T.deps → Spec.Due c tasks g main (.task d))
    (hk : N (fun _ => True) k) : N (fun _ => True) (preResolveDeps tasks rec fr items seen k) := by
  induction items generalizing seen with
  | nil => exact hk
  | cons it items ih =>
    have ih' := fun {seen} => ih (seen := seen) (fun t T d h => hds t T d (List.mem_cons_of_mem _ h))
    cases it with
    | task t =>
      unfold preResolveDeps
      split
      · exact .ret trivial
      · rename_i T hT
        exact n_preDeps hrec (fun d hd => hds t T d List.mem_cons_self hT hd) (fun s => ih')
    | command _ => exact ih'
    | log _ => exact ih'
    | prompt _ => exact ih'
    | parallel _ _ _ _ _ _ _ _ _ _ => exact ih'

theorem n_runBlock {lim : Nat} {ctx : CtxPath} {i : Nat} {items : List RunItem} {labels : List Str} {child : Nat → RunItem → Prog}
    (h : ∀ j it, items[j]? = some it → N (fun _ => True) (child j it)) : N (fun _ => True) (runBlock lim ctx n i items labels child) := by
  unfold runBlock
  refine .par (R := fun _ => True) ?_ (.inl rfl) (fun r hr => .note trivial (.ret trivial))
  intro j
  exact .note trivial ((h j _ (by simp)).bind fun r hr => .note trivial (.ret trivial))

theorem n_executeParallel {i : Nat} {items : List RunItem} {labels : List Str} {mode : ParallelMode} {lim : Nat} {color bs bo : Option Bool}
    {pl : List Str} {w : Str} {ln : Nat} (hrec : RecShows c tasks g main rec) (hd : c.dry = false)
    (hdue : Spec.Due c tasks g main (.item ⟨n, i, none⟩ (.parallel items labels mode lim color bs bo pl w ln) m)) :
    N (fun _ => True) (executeParallel c tasks rec n T fr i items labels mode lim color bs bo m tenv) := by
  unfold executeParallel
  simp only
  refine n_preResolveDeps hrec ?_ ?_
  · intro t T' d ht hT' hd'
    obtain ⟨j, hj⟩ := List.mem_iff_getElem?.mp ht
    exact .ahead (.sub hdue hj) hT' hd'
  · simp only [hd, Bool.false_eq_true, if_false]
    have hchild : ∀ (frj : Nat → Frame) j it, items[j]? = some it →
        N (fun _ => True) (executeRunItem c rec T (frj j) ⟨n, i, some j⟩ it (.own m) tenv) :=
      fun frj j it hj => n_executeRunItem hrec hd (.sub hdue hj) (.inl rfl)
    split
    · unfold executeParallelTUI
      simp only
      split
      · exact .note trivial (n_runBlock (hchild _))
      · refine .silent (fun _ _ h => by cases h) (fun _ => rfl) fun id => ?_
        refine .act (fun _ _ h => by cases h) ?_ ?_
        · intro x _ e he
          simp only [Act.evs, List.mem_singleton] at he; subst he; trivial
        · intro ok _
          cases ok with
          | true => exact .note trivial (n_runBlock (hchild _))
          | false => exact .ret trivial
    · exact .note trivial (n_runBlock (hchild _))

/-- what the end of the loop over the items shows -/
def Shows (c : Cfg) (m : GoMap Str) (its : List RunItem) (ex sk : Nat) (r : Option Err) : Prop :=
  r = none → (ex ≠ 0 ∨ sk ≠ 0 ∨ ∃ it ∈ its, it.onPlatform c.platform = true) ∧
    ∀ it ∈ its, it.onPlatform c.platform = true → ¬ CondWrong c it.cond m

theorem shows_some {its : List RunItem} {ex sk : Nat} {e : Err} : Shows c m its ex sk (some e) := fun h => by cases h

theorem n_executeItems (hrec : RecShows c tasks g main rec) (hd : c.dry = false) (hT : tasks.get? n = some T)
    (hn : Spec.Due c tasks g main (.task n)) (hc : CondTrue c T.cond g) (hv : resolveVars T.vars g c.env = .ok m)
    (hm : Plan.Reads g vars m) (hask : ∀ p, .prompt p ∉ T.run) {its : List RunItem} {i ex sk : Nat} (hits : T.run.drop i = its) :
    N (Shows c m its ex sk) (executeItems c tasks rec n T fr tenv its i vars ex sk) := by
  induction its generalizing i ex sk with
  | nil =>
    unfold executeItems
    split
    · exact .ret shows_some
    · next h =>
      refine .ret fun _ => ⟨?_, fun it h => by cases h⟩
      by_cases h1 : ex = 0
      · exact .inr (.inl fun h2 => h ⟨h1, h2⟩)
      · exact .inl h1
  | cons it its ih =>
    have hi : T.run[i]? = some it := by
      have := congrArg (·[0]?) hits
      simpa using this
    have hnext : T.run.drop (i + 1) = its := by
      have := congrArg (List.drop 1) hits
      simpa [List.drop_drop, Nat.add_comm] using this
    unfold executeItems
    refine .quiet ?_
    simp only [Bool.false_eq_true, if_false]
    split
    · next hp =>
      refine .note trivial ((ih hnext).mono ?_)
      intro r hr hrn
      obtain ⟨h1, h2⟩ := hr hrn
      refine ⟨h1.imp id (Or.imp id fun ⟨x, hx, hx'⟩ => ⟨x, List.mem_cons_of_mem _ hx, hx'⟩), ?_⟩
      intro x hx hx'
      rcases List.mem_cons.mp hx with rfl | hx
      · rw [hp] at hx'; cases hx'
      · exact h2 x hx hx'
    · next hp =>
      have hp : it.onPlatform c.platform = true := by simpa using hp
      have later : ∀ {ex' sk' r}, ¬ CondWrong c it.cond m → Shows c m its ex' sk' r → Shows c m (it :: its) ex sk r := by
        intro ex' sk' r hw hr hrn
        refine ⟨.inr (.inr ⟨it, List.mem_cons_self, hp⟩), ?_⟩
        intro x hx hx'
        rcases List.mem_cons.mp hx with rfl | hx
        · exact hw
        · exact (hr hrn).2 x hx hx'
      have go : ∀ w, CondTrue c it.cond m → N (Shows c m (it :: its) ex sk) (Prog.note (.itemStart n i w) <|
          executeItem c tasks rec n T fr i it vars tenv fun r vars' =>
            .note (.itemEnd n i r) <|
            match r with
            | some e => .ret (some e)
            | none => executeItems c tasks rec n T fr tenv its (i + 1) vars' (ex + 1) sk) := by
        intro w hct
        refine .note trivial ?_
        have hdue : Spec.Due c tasks g main (.item ⟨n, i, none⟩ it m) := .item hn hT hc hv hi hp hct
        have hnw : ¬ CondWrong c it.cond m := by
          rintro ⟨e, h⟩
          rw [CondTrue, h] at hct; cases hct
        have hk : ∀ r, True → N (Shows c m (it :: its) ex sk) (Prog.note (.itemEnd n i r) <|
            match r with
            | some e => .ret (some e)
            | none => executeItems c tasks rec n T fr tenv its (i + 1) vars (ex + 1) sk) := by
          intro r _
          refine .note trivial ?_
          cases r with
          | none => exact (ih hnext).mono fun r => later hnw
          | some e => exact .ret shows_some
        unfold executeItem
        split
        · exact absurd (List.mem_of_getElem? hi) (hask _)
        · simp only [hd, Bool.false_eq_true, if_false]
          exact w_readVars hm ((n_executeParallel hrec hd hdue).bind hk)
        · exact (n_executeRunItem hrec hd hdue hm).bind hk
      split
      · next h =>
        refine go _ ?_
        rw [h]; rfl
      · refine w_readVars hm ?_
        cases hev : placed it.line (evaluate it.cond ⟨m, c.env⟩) with
        | error e => exact .ret shows_some
        | ok b =>
          replace hev := of_placed_ok hev
          have hnw : ¬ CondWrong c it.cond m := by
            rintro ⟨e, h⟩
            rw [h] at hev; cases hev
          cases b with
          | false => exact .note trivial ((ih hnext).mono fun r => later hnw)
          | true => exact go _ hev

theorem n_runDeps (hrec : RecShows c tasks g main rec) {ds : List Str} {i : Nat} {k : Prog}
    (hds : ∀ d ∈ ds, Spec.Due c tasks g main (.task d)) (hk : N (fun _ => True) k) : N (fun _ => True) (runDeps rec n fr k ds i) := by
  induction ds generalizing i with
  | nil => exact hk
  | cons d ds ih =>
    unfold runDeps
    refine (hrec _ _ _ (hds d List.mem_cons_self)).bind fun r hr => ?_
    cases r with
    | none => exact .note trivial (ih fun d hd => hds d (List.mem_cons_of_mem _ hd))
    | some e => exact .note trivial (.ret trivial)

theorem n_runTask (hd : c.dry = false) (hask : Unasked c tasks g main) (fuel : Nat) : RecShows c tasks g main (runTask c tasks fuel) := by
  induction fuel with
  | zero => exact fun fr b n _ => .fuel
  | succ fuel hrec =>
    intro fr b n hn
    unfold runTask
    refine .act (fun _ _ h => by cases h) ?_ ?_
    · intro x _ e he
      cases x with
      | none => simp only [Act.evs, List.mem_singleton] at he; subst he; trivial
      | some s => cases he
    · intro (s : Option Status) _
      match s with
      | some .done => exact .ret trivial
      | some .running => exact .silent (fun _ _ h => by cases h) (fun _ => rfl) (fun _ => .ret trivial)
      | none =>
        refine Ends.bind (Q' := fun _ => True) ?_ (fun r hr => .note trivial (.ret trivial))
        unfold runTaskBody
        split
        · exact .ret trivial
        · rename_i T hT
          have hfin : TaskWorks c g T → N (fun _ => True) (.act (.setDone n) fun _ => .ret none) := by
            intro hw
            refine .act (fun _ _ h => by cases h) ?_ (fun _ _ => .ret trivial)
            intro x _ e he
            simp only [Act.evs, List.mem_singleton] at he; subst he
            exact ⟨T, hT, hw⟩
          have hgo : CondTrue c T.cond g → ∀ q, q = runDeps (runTask c tasks fuel) n fr
              (if T.run = [] then .act (.setDone n) fun _ => .ret none
               else (executeTask c tasks (runTask c tasks fuel) n T fr).bind fun
                | some e => .ret (some e)
                | none => .act (.setDone n) fun _ => .ret none) T.deps 0 →
              N (fun _ => True) (if (!c.dry && !isSilent [fr.ovSilent, T.silent, c.globalSilent]) = true then Prog.note (.echoTask n b fr.out) q else q) := by
            rintro hc q rfl
            have hnw : ¬ CondWrong c T.cond g := by
              rintro ⟨e, h⟩
              rw [CondTrue, h] at hc; cases hc
            have hdeps : N (fun _ => True) (runDeps (runTask c tasks fuel) n fr
              (if T.run = [] then .act (.setDone n) fun _ => .ret none
               else (executeTask c tasks (runTask c tasks fuel) n T fr).bind fun
                | some e => .ret (some e)
                | none => .act (.setDone n) fun _ => .ret none) T.deps 0) := by
              refine n_runDeps hrec (fun d hd => .dep hn hT hc hd) ?_
              split
              · next hrun => exact hfin ⟨hnw, fun _ h => absurd hrun h⟩
              · refine Ends.bind (Q' := fun r => r = none → TaskWorks c g T) ?_ (fun r hr => ?_)
                · unfold executeTask
                  refine .globals ?_
                  cases hv : placed T.line (resolveVars T.vars g c.env) with
                  | error e => exact .ret fun h => by cases h
                  | ok m =>
                    replace hv := of_placed_ok hv
                    refine .note trivial ?_
                    cases he : placed T.line (interpolateEnv ⟨m, c.env⟩ (mergeEnvMaps [c.globalEnv, T.env])) with
                    | error e => exact .ret fun h => by cases h
                    | ok tenv =>
                      replace he := of_placed_ok he
                      refine (n_executeItems (i := 0) (its := T.run) hrec hd hT hn hc hv ?_ (fun p => hask n T p hn hT) rfl).mono ?_
                      · cases hTv : T.vars with
                        | none => rw [hTv] at hv; cases hv; exact .inr ⟨rfl, rfl⟩
                        | some vs => exact .inl rfl
                      · intro r hr hrn
                        obtain ⟨h1, h2⟩ := hr hrn
                        refine ⟨hnw, fun _ _ => ⟨m, tenv, hv, he, ?_, h2⟩⟩
                        rcases h1 with h1 | h1 | h1
                        · exact absurd rfl h1
                        · exact absurd rfl h1
                        · exact h1
                · cases r with
                  | none => exact hfin (hr rfl)
                  | some e => exact .ret trivial
            split
            · exact .note trivial hdeps
            · exact hdeps
          simp only
          split
          · next h => exact hgo (by rw [h]; rfl) _ rfl
          · refine .globals ?_
            cases hev : placed T.line (evaluate T.cond ⟨g, c.env⟩) with
            | error e => exact .ret trivial
            | ok b =>
              replace hev := of_placed_ok hev
              cases b with
              | false =>
                refine .note trivial (hfin ⟨?_, fun h => ?_⟩)
                · rintro ⟨e, h⟩
                  rw [h] at hev; cases hev
                · rw [CondTrue, hev] at h; cases h
              | true => exact .note trivial (hgo hev _ rfl)

end
end Work
end Bab
