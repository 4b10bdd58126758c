import Verif.Spec.Plan
import Verif.Proof.GoMap
/-
Proof that executions follow the plan (C76, C77).
-/

namespace Bab
namespace Plan
open Spec

/-! ### programs that follow a list of entries -/

/-- a program that only returns an error -/
inductive Quiet : Prog → Prop
  | ret {e : Err} : Quiet (.ret (some e))
  | emit {e : Ev} {k : Unit → Prog} : entryOf e = none → ¬ Disturbing e → Quiet (k ()) → Quiet (.act (.emit e) k)
  | cancelled {ctx : CtxPath} {k : Bool → Prog} : (∀ b, Quiet (k b)) → Quiet (.act (.cancelled ctx) k)

/-- a program that makes the entries in order and then returns, or is disturbed -/
inductive Along (g : GoMap Str) (Q : Option Err → GoMap Status → Prop) : Prog → GoMap Status → List PlanEntry → Prop
  | ret {r : Option Err} {st : GoMap Status} : Q r st → Along g Q (.ret r) st []
  | emit {e : Ev} {k : Unit → Prog} {st es} : ¬ Disturbing e → Along g Q (k ()) st es → Along g Q (.act (.emit e) k) st ((entryOf e).toList ++ es)
  | claimNew {n : Str} {k : Option Status → Prog} {st es} : st.get? n = none → Along g Q (k none) (st.set n .running) es →
      Along g Q (.act (.claim n) k) st es
  | claimOld {n : Str} {k : Option Status → Prog} {st es x} : st.get? n = some x → Along g Q (k (some x)) st es →
      Along g Q (.act (.claim n) k) st es
  | setDone {n : Str} {k : Unit → Prog} {st es} : Along g Q (k ()) (st.set n .done) es → Along g Q (.act (.setDone n) k) st es
  | snapshot {k : GoMap Status → Prog} {st es} : Along g Q (k st) st es → Along g Q (.act .snapshot k) st es
  | globals {k : GoMap Str → Prog} {st es} : Along g Q (k g) st es → Along g Q (.act .globals k) st es
  | cancelled {ctx : CtxPath} {k : Bool → Prog} {st es} : Along g Q (k false) st es → Quiet (k true) →
      Along g Q (.act (.cancelled ctx) k) st es
  | start {ctx : CtxPath} {loc : Loc} {spec : ProcSpec} {k : Bool → Prog} {st es} : Along g Q (k true) st es → Quiet (k false) →
      Along g Q (.act (.start ctx loc spec) k) st (.cmd loc spec.cmd :: es)
  | wait {loc : Loc} {k : Option Nat → Prog} {st es} : Along g Q (k none) st es → (∀ code, Quiet (k (some code))) →
      Along g Q (.act (.wait loc) k) st es

variable {g : GoMap Str} {Q Q' : Option Err → GoMap Status → Prop} {p : Prog} {f : Option Err → Prog} {st : GoMap Status}
  {es es' : List PlanEntry}

theorem Quiet.bind (h : Quiet p) (hf : ∀ e, Quiet (f (some e))) : Quiet (p.bind f) := by
  induction h with
  | ret => exact hf _
  | emit h hd _ ih => exact .emit h hd ih
  | cancelled _ ih => exact .cancelled ih

theorem Quiet.along (hQ : ∀ e st, Q (some e) st) (h : Quiet p) : Along g Q p st [] := by
  induction h with
  | ret => exact .ret (hQ _ _)
  | @emit e k h hd _ ih =>
    have := Along.emit (e := e) (k := k) hd ih
    rwa [h] at this
  | cancelled h ih => exact .cancelled (ih false) (h true)

theorem Along.bind (h : Along g Q p st es) (hk : ∀ r st', Q r st' → Along g Q' (f r) st' es') (hf : ∀ e, Quiet (f (some e))) :
    Along g Q' (p.bind f) st (es ++ es') := by
  induction h with
  | ret h => exact hk _ _ h
  | emit hd _ ih => rw [List.append_assoc]; exact .emit hd ih
  | claimNew h _ ih => exact .claimNew h ih
  | claimOld h _ ih => exact .claimOld h ih
  | setDone _ ih => exact .setDone ih
  | snapshot _ ih => exact .snapshot ih
  | globals _ ih => exact .globals ih
  | cancelled _ h ih => exact .cancelled ih (h.bind hf)
  | start _ h ih => exact .start ih (h.bind hf)
  | wait _ h ih => exact .wait ih (fun c => (h c).bind hf)

theorem Along.quiet_event {e : Ev} (he : entryOf e = none) (h : Along g Q p st es) (hd : ¬ Disturbing e := by exact id) : Along g Q (.note e p) st es := by
  have := Along.emit (e := e) (k := fun _ => p) hd h
  rwa [he] at this

/-- the execution of a program that follows the entries -/
theorem sound {s : State} (hr : Reach ⟨p, σ⟩ s) (hσ : σ.gvars = g) (hc : σ.cancelled = []) (ht : σ.trace = [])
    (h : Along g Q p σ.status es) :
    s.sh.gvars = g ∧ (∀ id ∈ s.sh.cancelled, Ev.cancel id ∈ s.sh.trace) ∧
    ∃ es', entries s.sh.trace ++ es' = es ∧ (Along g Q s.prog s.sh.status es' ∨ (Disturbed s.sh.trace ∧ Quiet s.prog)) := by
  induction hr with
  | refl => exact ⟨hσ, by simp [hc], es, by simp [ht, entries], .inl h⟩
  | @step t u _ hs ih =>
    obtain ⟨h1, h2, rest, h3, h4⟩ := ih
    have dist : ∀ {tr tr' : List Ev}, Disturbed tr → Disturbed (tr ++ tr') := by
      rintro tr tr' ⟨e, h, hd⟩
      exact ⟨e, List.mem_append_left _ h, hd⟩
    cases hs with
    | @cancel p σ id hid =>
      refine ⟨h1, ?_, rest, ?_, ?_⟩
      · intro j hj
        rcases List.mem_cons.mp hj with rfl | hj
        · simp
        · exact List.mem_append_left _ (h2 j hj)
      · rw [← h3]; simp [entries, entryOf, List.filterMap]
      · rcases h4 with h4 | ⟨h4, h5⟩
        · exact .inl h4
        · exact .inr ⟨dist h4, h5⟩
    | @prog p σ p' σ' hst =>
      simp only at h1 h2 h3 h4
      have canc : ∀ ctx, σ.isCancelled ctx = true → Disturbed σ.trace := by
        intro ctx hc
        simp only [Shared.isCancelled, List.any_eq_true, decide_eq_true_eq] at hc
        obtain ⟨id, _, h⟩ := hc
        exact ⟨_, h2 id h, trivial⟩
      rcases h4 with h4 | ⟨h4, h5⟩
      · cases h4 with
        | ret => cases hst
        | @emit e k _ es _ h =>
          cases hst with
          | act x _ =>
            refine ⟨h1, fun id hid => List.mem_append_left _ (h2 id hid), es, ?_, .inl h⟩
            rw [← h3]
            cases he : entryOf e <;> simp [Act.apply, Act.evs, entries, he]
        | @claimNew n k _ _ hn h =>
          cases hst with
          | act x hx =>
            have hx' : x = none := by rw [show x = σ.status.get? n from hx, hn]
            subst hx'
            exact ⟨h1, fun id hid => List.mem_append_left _ (h2 id hid), rest, by simp [Act.apply, Act.evs, entries, entryOf, ← h3], .inl h⟩
        | @claimOld n k _ _ y hn h =>
          cases hst with
          | act x hx =>
            have hx' : x = some y := by rw [show x = σ.status.get? n from hx, hn]
            subst hx'
            exact ⟨h1, fun id hid => List.mem_append_left _ (h2 id hid), rest, by simp [Act.apply, Act.evs, h3], .inl h⟩
        | @setDone n k _ _ h =>
          cases hst with
          | act x hx =>
            exact ⟨h1, fun id hid => List.mem_append_left _ (h2 id hid), rest, by simp [Act.apply, Act.evs, entries, entryOf, ← h3], .inl h⟩
        | @snapshot k _ _ h =>
          cases hst with
          | act x hx =>
            have hx' : x = σ.status := hx
            subst hx'
            exact ⟨h1, fun id hid => List.mem_append_left _ (h2 id hid), rest, by simp [Act.apply, Act.evs, h3], .inl h⟩
        | @globals k _ _ h =>
          cases hst with
          | act x hx =>
            have hx' : x = g := by rw [show x = σ.gvars from hx, h1]
            subst hx'
            exact ⟨h1, fun id hid => List.mem_append_left _ (h2 id hid), rest, by simp [Act.apply, Act.evs, h3], .inl h⟩
        | @cancelled ctx k _ _ h hq =>
          cases hst with
          | act x hx =>
            refine ⟨h1, fun id hid => List.mem_append_left _ (h2 id hid), rest, by simp [Act.apply, Act.evs, h3], ?_⟩
            have hx' : x = σ.isCancelled ctx := hx
            cases hb : σ.isCancelled ctx with
            | false => rw [hb] at hx'; subst hx'; exact .inl h
            | true => rw [hb] at hx'; subst hx'; exact .inr ⟨dist (canc _ hb), hq⟩
        | @start ctx loc spec k _ es h hq =>
          cases hst with
          | act x hx =>
            cases x with
            | false =>
              refine ⟨h1, fun id hid => List.mem_append_left _ (h2 id hid), .cmd loc spec.cmd :: es, by simp [Act.apply, Act.evs, entries, entryOf, ← h3], .inr ⟨?_, hq⟩⟩
              exact ⟨.procFail loc, by simp [Act.apply, Act.evs], trivial⟩
            | true =>
              exact ⟨h1, fun id hid => List.mem_append_left _ (h2 id hid), es, by simp [Act.apply, Act.evs, entries, entryOf, ← h3], .inl h⟩
        | @wait loc k _ _ h hq =>
          cases hst with
          | act x hx =>
            refine ⟨h1, fun id hid => List.mem_append_left _ (h2 id hid), rest, by simp [Act.apply, Act.evs, entries, entryOf, ← h3], ?_⟩
            match x with
            | none => exact .inl h
            | some code => exact .inr ⟨⟨.procEnd loc (some code), by simp [Act.apply, Act.evs], trivial⟩, hq code⟩
      · cases h5 with
        | ret => cases hst
        | @emit e k he _ h =>
          cases hst with
          | act x _ =>
            exact ⟨h1, fun id hid => List.mem_append_left _ (h2 id hid), rest, by simpa [Act.apply, Act.evs, entries, he] using h3, .inr ⟨dist h4, h⟩⟩
        | @cancelled ctx k h =>
          cases hst with
          | act x _ =>
            exact ⟨h1, fun id hid => List.mem_append_left _ (h2 id hid), rest, by simp [Act.apply, Act.evs, h3], .inr ⟨dist h4, h x⟩⟩

theorem reach_head {s t u : State} (h : SysStep s t) (hr : Reach t u) : Reach s u := by
  induction hr with
  | refl => exact .step .refl h
  | step _ hs ih => exact .step ih hs

/-- there is such an execution, in which nothing comes in between -/
theorem Along.exec {σ : Shared} (h : Along g Q p σ.status es) (hσ : σ.gvars = g) (hc : σ.cancelled = []) :
    ∃ s r, Reach ⟨p, σ⟩ s ∧ s.prog = .ret r ∧ Q r s.sh.status ∧ ∃ tr, s.sh.trace = σ.trace ++ tr ∧ entries tr = es ∧ ¬ Disturbed tr := by
  have cons : ∀ {p p' : Prog} {σ σ' : Shared} {es : List PlanEntry} {tr1 : List Ev}, Step p σ p' σ' → σ'.trace = σ.trace ++ tr1 → ¬ Disturbed tr1 →
      (∃ s r, Reach ⟨p', σ'⟩ s ∧ s.prog = .ret r ∧ Q r s.sh.status ∧ ∃ tr, s.sh.trace = σ'.trace ++ tr ∧ entries tr = es ∧ ¬ Disturbed tr) →
      ∃ s r, Reach ⟨p, σ⟩ s ∧ s.prog = .ret r ∧ Q r s.sh.status ∧ ∃ tr, s.sh.trace = σ.trace ++ tr ∧ entries tr = entries tr1 ++ es ∧ ¬ Disturbed tr := by
    rintro p p' σ σ' es tr1 h1 h2 h3 ⟨s, r, h4, h5, h6, tr, h7, h8, h9⟩
    refine ⟨s, r, reach_head (.prog h1) h4, h5, h6, tr1 ++ tr, by rw [h7, h2, List.append_assoc], by simp [entries, ← h8], ?_⟩
    rintro ⟨e, he, hd⟩
    rcases List.mem_append.mp he with he | he
    · exact h3 ⟨e, he, hd⟩
    · exact h9 ⟨e, he, hd⟩
  have one : ∀ {e : Ev}, ¬ Disturbing e → ¬ Disturbed [e] := by
    rintro e h ⟨e', he, hd⟩
    rw [List.mem_singleton.mp he] at hd
    exact h hd
  have zero : ¬ Disturbed [] := by rintro ⟨e, he, _⟩; cases he
  generalize hst : σ.status = st at h
  induction h generalizing σ with
  | ret h => exact ⟨_, _, .refl, rfl, hst ▸ h, [], by simp, rfl, zero⟩
  | @emit e k st es hd _ ih =>
    have := cons (Step.act (a := .emit e) (k := k) (σ := σ) () trivial) (tr1 := [e]) rfl (one hd) (ih (σ := Act.apply σ (.emit e) ()) hσ hc hst)
    have he : entries [e] = (entryOf e).toList := by cases h : entryOf e <;> simp [entries, h]
    rwa [he] at this
  | @claimNew n k st es hn _ ih =>
    exact cons (Step.act (a := .claim n) (k := k) (σ := σ) none (by show none = σ.status.get? n; rw [hst, hn])) (tr1 := [.claimed n]) rfl (one id)
      (ih (σ := Act.apply σ (.claim n) none) hσ hc (by rw [← hst]; rfl))
  | @claimOld n k st es x hn _ ih =>
    exact cons (Step.act (a := .claim n) (k := k) (σ := σ) (some x) (by show some x = σ.status.get? n; rw [hst, hn])) (tr1 := []) rfl zero
      (ih (σ := Act.apply σ (.claim n) (some x)) hσ hc hst)
  | @setDone n k st es _ ih =>
    exact cons (Step.act (a := .setDone n) (k := k) (σ := σ) () trivial) (tr1 := [.done n]) rfl (one id)
      (ih (σ := Act.apply σ (.setDone n) ()) hσ hc (by rw [← hst]; rfl))
  | @snapshot k st es _ ih =>
    exact cons (Step.act (a := .snapshot) (k := k) (σ := σ) st hst.symm) (tr1 := []) rfl zero (ih (σ := Act.apply σ .snapshot st) hσ hc hst)
  | @globals k st es _ ih =>
    exact cons (Step.act (a := .globals) (k := k) (σ := σ) g hσ.symm) (tr1 := []) rfl zero (ih (σ := Act.apply σ .globals g) hσ hc hst)
  | @cancelled ctx k st es _ _ ih =>
    exact cons (Step.act (a := .cancelled ctx) (k := k) (σ := σ) false (by show false = σ.isCancelled ctx; simp [Shared.isCancelled, hc])) (tr1 := []) rfl zero
      (ih (σ := Act.apply σ (.cancelled ctx) false) hσ hc hst)
  | @start ctx loc spec k st es _ _ ih =>
    exact cons (Step.act (a := .start ctx loc spec) (k := k) (σ := σ) true (fun _ => by simp [Shared.isCancelled, hc])) (tr1 := [.procStart loc spec]) rfl (one id)
      (ih (σ := Act.apply σ (.start ctx loc spec) true) hσ hc hst)
  | @wait loc k st es _ _ ih =>
    exact cons (Step.act (a := .wait loc) (k := k) (σ := σ) none trivial) (tr1 := [.procEnd loc none]) rfl (one id)
      (ih (σ := Act.apply σ (.wait loc) none) hσ hc hst)

/-! ### fuel -/

/-- the number of tasks that have not begun -/
def left (tasks : TaskMap) (S : List Str) : Nat := (tasks.filter (fun q => decide (q.1 ∉ S))).length

theorem left_lt {tasks : TaskMap} {S : List Str} {n : Str} {T : Task} (h : tasks.get? n = some T) (hn : n ∉ S) :
    left tasks (n :: S) < left tasks S := by
  have hm := GoMap.mem_of_get? h
  have le : ∀ l : TaskMap, (l.filter (fun q => decide (q.1 ∉ n :: S))).length ≤ (l.filter (fun q => decide (q.1 ∉ S))).length := by
    intro l
    induction l with
    | nil => simp
    | cons q l ih =>
      by_cases h1 : q.1 ∈ S
      · simpa [List.filter_cons, h1] using ih
      · by_cases h2 : q.1 = n <;> simp [h1, h2, hn] <;> simp at ih <;> omega
  unfold left
  clear h
  induction tasks with
  | nil => cases hm
  | cons q l ih =>
    rcases List.mem_cons.mp hm with rfl | hm
    · have := le l
      simp [hn]
      simp at this
      omega
    · have := ih hm
      by_cases h1 : q.1 ∈ S
      · simpa [List.filter_cons, h1] using this
      · by_cases h2 : q.1 = n <;> simp [h1, h2, hn] <;> simp at this <;> omega

/-! ### the functions of the runner follow the plan -/

/-- the status map for the tasks that have begun and are done -/
def StOk (st : GoMap Status) (S D : List Str) : Prop :=
  ∀ n, (n ∈ D → st.get? n = some .done) ∧ (n ∉ D → n ∈ S → st.get? n = some .running) ∧ (n ∉ D → n ∉ S → st.get? n = none)

/-- what holds when a job has ended -/
def Post (S : List Str) : Option (List Str) → Option Err → GoMap Status → Prop
  | some D, r, st => r = none ∧ StOk st S D
  | none, r, _ => r ≠ none

theorem StOk.claim {S D : List Str} {n : Str} (h : StOk st S D) (hD : n ∉ D) : StOk (st.set n .running) (n :: S) D := by
  intro k
  obtain ⟨h1, h2, h3⟩ := h k
  rw [GoMap.get?_set]
  by_cases hk : n = k
  · subst hk; simp [hD]
  · have hk' : k ≠ n := fun h => hk h.symm
    simp only [hk, if_false, List.mem_cons, hk', false_or]
    exact ⟨h1, h2, h3⟩

theorem StOk.finish {S D : List Str} {n : Str} (h : StOk st (n :: S) D) : StOk (st.set n .done) S (n :: D) := by
  intro k
  obtain ⟨h1, h2, h3⟩ := h k
  rw [GoMap.get?_set]
  by_cases hk : n = k
  · subst hk; simp
  · have hk' : k ≠ n := fun h => hk h.symm
    simp only [hk, if_false, List.mem_cons, hk', false_or] at *
    exact ⟨h1, h2, h3⟩

/-- the variables are these -/
def Reads (g : GoMap Str) (v : VarEnv) (m : GoMap Str) : Prop := v = .own m ∨ (v = .global ∧ m = g)

theorem Reads.along {v : VarEnv} {m : GoMap Str} {k : GoMap Str → Prog} (h : Reads g v m) (hk : Along g Q (k m) st es) :
    Along g Q (readVars v k) st es := by
  rcases h with rfl | ⟨rfl, rfl⟩
  · exact hk
  · exact .globals hk

section
variable {c : Cfg} {tasks : TaskMap} {T : Task} {fr : Frame} {loc : Loc} {vars : VarEnv} {m tenv : GoMap Str} {dry : Bool}

theorem runProc_along {task : Str} {spec : ProcSpec} : Along g (fun r st' => r = none ∧ st' = st) (runProc task fr loc spec) st [.cmd loc spec.cmd] :=
  .start (.wait (.ret ⟨rfl, rfl⟩) (fun _ => .cancelled fun _ => .ret)) (.cancelled fun _ => .ret)

theorem cmd_along {v : CommandRun} {text : Str} (hm : Reads g vars m) (h : CmdReady c T v tenv m text) :
    Along g (fun r st' => r = none ∧ st' = st) (executeCommand { c with dry := dry } T fr loc v vars tenv) st [.cmd loc text] := by
  obtain ⟨h1, h2, ⟨env, h3⟩, dir, h4⟩ := h
  unfold executeCommand
  rw [if_neg h1]
  refine hm.along (.quiet_event rfl ?_)
  have hp : prepareCommand { c with dry := dry } T v tenv m = .ok (text, env, dir) := by
    have h4' : resolveDir { c with dry := dry } T v.dir ⟨m, c.env⟩ = .ok dir := h4
    simp only [prepareCommand, h2, h3, h4']
  rw [hp]
  simp only [placed_ok]
  cases dry with
  | true => exact .emit id (.ret ⟨rfl, rfl⟩)
  | false =>
    simp only [Bool.false_eq_true, if_false]
    split
    · exact runProc_along
    · exact .quiet_event rfl runProc_along

theorem badCmd_along {v : CommandRun} (hm : Reads g vars m) (h : ∀ text, ¬ CmdReady c T v tenv m text) :
    Along g (fun r _ => r ≠ none) (executeCommand { c with dry := dry } T fr loc v vars tenv) st [] := by
  unfold executeCommand
  split
  · exact .ret (Option.some_ne_none _)
  · next h1 =>
    refine hm.along (.quiet_event rfl ?_)
    have hp : ∃ e, prepareCommand { c with dry := dry } T v tenv m = .error e := by
      unfold prepareCommand
      split
      · exact ⟨_, rfl⟩
      · next text h2 =>
        split
        · exact ⟨_, rfl⟩
        · next env h3 =>
          split
          · exact ⟨_, rfl⟩
          · next dir h4 => exact absurd ⟨h1, h2, ⟨env, h3⟩, dir, h4⟩ (h text)
    obtain ⟨e, he⟩ := hp
    simp only [he, placed_error]
    exact .ret (Option.some_ne_none _)

/-- what is shown for a job -/
def Follows (c : Cfg) (tasks : TaskMap) (g : GoMap Str) (dry : Bool) (S : List Str) (D : List Str) (es : List PlanEntry) (res : Option (List Str)) :
    Job → Prop
  | .task n => ∀ fuel fr b st, StOk st S D → left tasks S < fuel →
      Along g (Post S res) (runTask { c with dry := dry } tasks fuel fr b n) st es
  | .deps ds => ∀ fuel name fr i k Q es' st, StOk st S D → left tasks S < fuel →
      (∀ D' st', res = some D' → StOk st' S D' → Along g Q k st' es') → (res = none → es' = [] ∧ ∀ e st, Q (some e) st) →
      Along g Q (runDeps (runTask { c with dry := dry } tasks fuel) name fr k ds i) st (es ++ es')
  | .items n T m tenv i its any => ∀ fuel fr vars ex sk st, StOk st S D → left tasks S < fuel → Reads g vars m →
      (any = false ↔ ex = 0 ∧ sk = 0) →
      Along g (Post S res) (executeItems { c with dry := dry } tasks (runTask { c with dry := dry } tasks fuel) n T fr tenv its i vars ex sk) st es


theorem bodyOf {S D : List Str} {n : Str} {res : Option (List Str)} {fuel : Nat} {b : Bool} (hst : StOk st S D) (hD : n ∉ D) (hS : n ∉ S)
    (h : Along g (Post S res) (runTaskBody { c with dry := dry } tasks (runTask { c with dry := dry } tasks fuel) fr b n) (st.set n .running) es) :
    Along g (Post S res) (runTask { c with dry := dry } tasks (fuel + 1) fr b n) st es := by
  refine .claimNew ((hst n).2.2 hD hS) ?_
  have := h.bind (f := fun r => Prog.note (.taskEnd n r) (.ret r)) (Q' := Post S res) (es' := []) (fun r st' hr => .quiet_event rfl (.ret hr))
    (fun e => .emit rfl id .ret)
  rwa [List.append_nil] at this

theorem bodyCond {n : Str} {fuel : Nat} {b : Bool} (hT : tasks.get? n = some T) (hc : CondTrue c T.cond g)
    (h : Along g Q (runDeps (runTask { c with dry := dry } tasks fuel) n fr
        (if T.run = [] then .act (.setDone n) fun _ => .ret none
         else (executeTask { c with dry := dry } tasks (runTask { c with dry := dry } tasks fuel) n T fr).bind fun
          | some e => .ret (some e)
          | none => .act (.setDone n) fun _ => .ret none) T.deps 0) st es) :
    Along g Q (runTaskBody { c with dry := dry } tasks (runTask { c with dry := dry } tasks fuel) fr b n) st es := by
  unfold runTaskBody
  rw [hT]
  simp only
  have go : Along g Q (if (!dry && !isSilent [fr.ovSilent, T.silent, c.globalSilent]) = true then
        Prog.note (.echoTask n b fr.out) (runDeps (runTask { c with dry := dry } tasks fuel) n fr
        (if T.run = [] then .act (.setDone n) fun _ => .ret none
         else (executeTask { c with dry := dry } tasks (runTask { c with dry := dry } tasks fuel) n T fr).bind fun
          | some e => .ret (some e)
          | none => .act (.setDone n) fun _ => .ret none) T.deps 0) else
        (runDeps (runTask { c with dry := dry } tasks fuel) n fr
        (if T.run = [] then .act (.setDone n) fun _ => .ret none
         else (executeTask { c with dry := dry } tasks (runTask { c with dry := dry } tasks fuel) n T fr).bind fun
          | some e => .ret (some e)
          | none => .act (.setDone n) fun _ => .ret none) T.deps 0)) st es := by
    split
    · exact .quiet_event rfl h
    · exact h
  split
  · exact go
  · refine .globals ?_
    have hc' : evaluate T.cond ⟨g, c.env⟩ = .ok true := hc
    simp only [hc', placed_ok]
    exact .quiet_event rfl go

theorem itemStep {S : List Str} {n : Str} {fuel i ex sk : Nat} {it : RunItem} {its : List RunItem} {res : Option (List Str)} {Q : Option Err → GoMap Status → Prop}
    (hp : it.onPlatform c.platform = true) (hc : CondTrue c it.cond m) (hm : Reads g vars m)
    (hit : (∃ v, it = .command v) ∨ (∃ l, it = .log l) ∨ ∃ t, it = .task t)
    (h : Along g Q (executeRunItem { c with dry := dry } (runTask { c with dry := dry } tasks fuel) T fr ⟨n, i, none⟩ it vars tenv) st es)
    (hk : ∀ r st', Q r st' → (r = none → Along g (Post S res) (executeItems { c with dry := dry } tasks (runTask { c with dry := dry } tasks fuel) n T fr tenv its (i + 1) vars (ex + 1) sk) st' es')
      ∧ (r ≠ none → res = none ∧ es' = [])) :
    Along g (Post S res) (executeItems { c with dry := dry } tasks (runTask { c with dry := dry } tasks fuel) n T fr tenv (it :: its) i vars ex sk) st (es ++ es') := by
  have go : ∀ w, Along g (Post S res) (Prog.note (.itemStart n i w) <|
          executeItem { c with dry := dry } tasks (runTask { c with dry := dry } tasks fuel) n T fr i it vars tenv fun r vars' =>
            .note (.itemEnd n i r) <|
            match r with
            | some e => .ret (some e)
            | none => executeItems { c with dry := dry } tasks (runTask { c with dry := dry } tasks fuel) n T fr tenv its (i + 1) vars' (ex + 1) sk) st (es ++ es') := by
    intro w
    refine .quiet_event rfl ?_
    have key : Along g (Post S res) ((executeRunItem { c with dry := dry } (runTask { c with dry := dry } tasks fuel) T fr ⟨n, i, none⟩ it vars tenv).bind
        fun r => .note (.itemEnd n i r) <|
            match r with
            | some e => .ret (some e)
            | none => executeItems { c with dry := dry } tasks (runTask { c with dry := dry } tasks fuel) n T fr tenv its (i + 1) vars (ex + 1) sk) st (es ++ es') := by
      refine h.bind ?_ (fun e => .emit rfl id .ret)
      intro r st' hr
      refine .quiet_event rfl ?_
      cases r with
      | none => exact (hk _ _ hr).1 rfl
      | some e =>
        obtain ⟨rfl, rfl⟩ := (hk _ _ hr).2 (by simp)
        exact .ret (Option.some_ne_none _)
    rcases hit with ⟨v, rfl⟩ | ⟨l, rfl⟩ | ⟨t, rfl⟩ <;> exact key
  unfold executeItems
  refine .cancelled ?_ .ret
  simp only [Bool.false_eq_true, if_false, hp, Bool.true_eq_false]
  split
  · exact go none
  · refine hm.along ?_
    have hc' : evaluate it.cond ⟨m, c.env⟩ = .ok true := hc
    simp only [hc', placed_ok]
    exact go (some m)

theorem follows {S D : List Str} {j : Job} {res : Option (List Str)} (h : Spec.Plan c tasks g (!dry) S j D es res) :
    Follows c tasks g dry S D es res j := by
  induction h with
  | @done S n D hD =>
    intro fuel fr b st hst hf
    obtain ⟨fuel, rfl⟩ : ∃ k, fuel = k + 1 := ⟨fuel - 1, by omega⟩
    exact .claimOld ((hst n).1 hD) (.ret ⟨rfl, hst⟩)
  | @circle S n D hD hS =>
    intro fuel fr b st hst hf
    obtain ⟨fuel, rfl⟩ : ∃ k, fuel = k + 1 := ⟨fuel - 1, by omega⟩
    exact .claimOld ((hst n).2.1 hD hS) (.snapshot (.ret (Option.some_ne_none _)))
  | @unknown S n D hD hS hT =>
    intro fuel fr b st hst hf
    obtain ⟨fuel, rfl⟩ : ∃ k, fuel = k + 1 := ⟨fuel - 1, by omega⟩
    refine bodyOf hst hD hS ?_
    unfold runTaskBody
    rw [hT]
    exact .ret (Option.some_ne_none _)
  | @wrong S n D T hD hS hT hc =>
    intro fuel fr b st hst hf
    obtain ⟨fuel, rfl⟩ : ∃ k, fuel = k + 1 := ⟨fuel - 1, by omega⟩
    refine bodyOf hst hD hS ?_
    obtain ⟨e, he⟩ := hc
    have hne : T.cond ≠ [] := by rintro h; rw [h] at he; simp [evaluate] at he
    unfold runTaskBody
    rw [hT]
    simp only [hne, if_false]
    refine .globals ?_
    simp only [he, placed_error]
    exact .ret (Option.some_ne_none _)
  | @skipped S n D T hD hS hT hc =>
    intro fuel fr b st hst hf
    obtain ⟨fuel, rfl⟩ : ∃ k, fuel = k + 1 := ⟨fuel - 1, by omega⟩
    refine bodyOf hst hD hS ?_
    have he : evaluate T.cond ⟨g, c.env⟩ = .ok false := hc
    have hne : T.cond ≠ [] := by rintro h; rw [h] at he; simp [evaluate] at he
    unfold runTaskBody
    rw [hT]
    simp only [hne, if_false]
    refine .globals ?_
    simp only [he, placed_ok]
    exact .quiet_event rfl (.setDone (.ret ⟨rfl, (hst.claim hD).finish⟩))
  | @depsFail S n D T es hD hS hT hc _ ih =>
    intro fuel fr b st hst hf
    obtain ⟨fuel, rfl⟩ : ∃ k, fuel = k + 1 := ⟨fuel - 1, by omega⟩
    refine bodyOf hst hD hS (bodyCond hT hc ?_)
    have hl := left_lt hT hS
    have := ih fuel n fr 0 (if T.run = [] then .act (.setDone n) fun _ => .ret none
         else (executeTask { c with dry := dry } tasks (runTask { c with dry := dry } tasks fuel) n T fr).bind fun
          | some e => .ret (some e)
          | none => .act (.setDone n) fun _ => .ret none) (Post S none) [] _ (hst.claim hD) (by omega) (by intro D' st' h; cases h)
      (fun _ => ⟨rfl, fun e st => Option.some_ne_none _⟩)
    rw [List.append_nil] at this
    exact this
  | @noItems S n D T es D1 hD hS hT hc _ hrun ih =>
    intro fuel fr b st hst hf
    obtain ⟨fuel, rfl⟩ : ∃ k, fuel = k + 1 := ⟨fuel - 1, by omega⟩
    refine bodyOf hst hD hS (bodyCond hT hc ?_)
    have hl := left_lt hT hS
    have := ih fuel n fr 0 (if T.run = [] then .act (.setDone n) fun _ => .ret none
         else (executeTask { c with dry := dry } tasks (runTask { c with dry := dry } tasks fuel) n T fr).bind fun
          | some e => .ret (some e)
          | none => .act (.setDone n) fun _ => .ret none) (Post S (some (n :: D1))) [] _ (hst.claim hD) (by omega) (by
        intro D' st' h hst'
        cases h
        rw [if_pos hrun]
        exact .setDone (.ret ⟨rfl, hst'.finish⟩)) (by intro h; cases h)
    rw [List.append_nil] at this
    exact this
  | @badVars S n D T es D1 e hD hS hT hc _ hrun hv ih =>
    intro fuel fr b st hst hf
    obtain ⟨fuel, rfl⟩ : ∃ k, fuel = k + 1 := ⟨fuel - 1, by omega⟩
    refine bodyOf hst hD hS (bodyCond hT hc ?_)
    have hl := left_lt hT hS
    have := ih fuel n fr 0 (if T.run = [] then .act (.setDone n) fun _ => .ret none
         else (executeTask { c with dry := dry } tasks (runTask { c with dry := dry } tasks fuel) n T fr).bind fun
          | some e => .ret (some e)
          | none => .act (.setDone n) fun _ => .ret none) (Post S none) [] _ (hst.claim hD) (by omega) (by
        intro D' st' h hst'
        cases h
        rw [if_neg hrun]
        unfold executeTask
        simp only [Prog.bind]
        refine .globals ?_
        simp only [hv, placed_error, Prog.bind]
        exact .ret (Option.some_ne_none _)) (fun _ => ⟨rfl, fun e st => Option.some_ne_none _⟩)
    rw [List.append_nil] at this
    exact this
  | @badEnv S n D T es D1 m e hD hS hT hc _ hrun hv he ih =>
    intro fuel fr b st hst hf
    obtain ⟨fuel, rfl⟩ : ∃ k, fuel = k + 1 := ⟨fuel - 1, by omega⟩
    refine bodyOf hst hD hS (bodyCond hT hc ?_)
    have hl := left_lt hT hS
    have := ih fuel n fr 0 (if T.run = [] then .act (.setDone n) fun _ => .ret none
         else (executeTask { c with dry := dry } tasks (runTask { c with dry := dry } tasks fuel) n T fr).bind fun
          | some e => .ret (some e)
          | none => .act (.setDone n) fun _ => .ret none) (Post S none) [] _ (hst.claim hD) (by omega) (by
        intro D' st' h hst'
        cases h
        rw [if_neg hrun]
        unfold executeTask
        simp only [Prog.bind]
        refine .globals ?_
        simp only [hv, he, placed_ok, placed_error, Prog.note, Prog.bind]
        exact .quiet_event rfl (.ret (Option.some_ne_none _))) (fun _ => ⟨rfl, fun e st => Option.some_ne_none _⟩)
    rw [List.append_nil] at this
    exact this
  | @runs S n D T es D1 m tenv es' r hD hS hT hc _ hrun hv he _ ih ih' =>
    intro fuel fr b st hst hf
    obtain ⟨fuel, rfl⟩ : ∃ k, fuel = k + 1 := ⟨fuel - 1, by omega⟩
    refine bodyOf hst hD hS (bodyCond hT hc ?_)
    have hl := left_lt hT hS
    have := ih fuel n fr 0 (if T.run = [] then .act (.setDone n) fun _ => .ret none
         else (executeTask { c with dry := dry } tasks (runTask { c with dry := dry } tasks fuel) n T fr).bind fun
          | some e => .ret (some e)
          | none => .act (.setDone n) fun _ => .ret none) (Post S (r.map (n :: ·))) es' _ (hst.claim hD) (by omega) (by
        intro D' st' h hst'
        cases h
        rw [if_neg hrun]
        unfold executeTask
        simp only [Prog.bind]
        refine .globals ?_
        simp only [hv, he, placed_ok, Prog.note, Prog.bind]
        refine .quiet_event rfl ?_
        have hr : Reads g (if T.vars.isNone then .global else .own m) m := by
          cases hTv : T.vars with
          | none => rw [hTv] at hv; cases hv; exact .inr ⟨rfl, rfl⟩
          | some vs => exact .inl rfl
        have := (ih' fuel fr (if T.vars.isNone then .global else .own m) 0 0 st' hst' (by omega) hr (by simp)).bind
          (f := fun
            | some e => .ret (some e)
            | none => .act (.setDone n) fun _ => .ret none) (Q' := Post S (r.map (n :: ·))) (es' := []) (by
            intro x st'' hx
            cases r with
            | none =>
              cases x with
              | none => exact absurd rfl hx
              | some e => exact .ret (Option.some_ne_none _)
            | some D2 =>
              obtain ⟨rfl, hx⟩ := hx
              exact .setDone (.ret ⟨rfl, hx.finish⟩)) (fun e => .ret)
        rw [List.append_nil] at this
        exact this) (by intro h; cases h)
    exact this
  | @noDeps S D =>
    intro fuel name fr i k Q es' st hst hf hk _
    exact hk _ _ rfl hst
  | @dep S d ds D es D1 es' r _ _ ih ih' =>
    intro fuel name fr i k Q es'' st hst hf hk hn
    rw [List.append_assoc]
    refine (ih fuel _ _ st hst hf).bind ?_ (fun e => .emit rfl id .ret)
    intro x st' hx
    obtain ⟨rfl, hx⟩ := hx
    exact .quiet_event rfl (ih' fuel name fr (i + 1) k Q es'' st' hx hf hk hn)
  | @depFails S d ds D es _ ih =>
    intro fuel name fr i k Q es'' st hst hf hk hn
    obtain ⟨rfl, hQ⟩ := hn rfl
    refine (ih fuel _ _ st hst hf).bind ?_ (fun e => .emit rfl id .ret)
    intro x st' hx
    cases x with
    | none => exact absurd rfl hx
    | some e => exact .quiet_event rfl (.ret (hQ _ _))
  | @«end» S n T m tenv i D =>
    intro fuel fr vars ex sk st hst hf hm ha
    unfold executeItems
    rw [if_neg (by intro h; exact absurd (ha.mpr h) (by simp))]
    exact .ret ⟨rfl, hst⟩
  | @nothing S n T m tenv i D =>
    intro fuel fr vars ex sk st hst hf hm ha
    unfold executeItems
    rw [if_pos (ha.mp rfl)]
    exact .ret (Option.some_ne_none _)
  | @elsewhere S n T m tenv i it its any D es r hp _ ih =>
    intro fuel fr vars ex sk st hst hf hm ha
    unfold executeItems
    refine .cancelled ?_ .ret
    simp only [Bool.false_eq_true, if_false, hp, if_true]
    exact .quiet_event rfl (ih fuel fr vars ex sk st hst hf hm ha)
  | @wrongItem S n T m tenv i it its any D hp hc =>
    intro fuel fr vars ex sk st hst hf hm ha
    obtain ⟨e, he⟩ := hc
    have hne : it.cond ≠ [] := by rintro h; rw [h] at he; simp [evaluate] at he
    unfold executeItems
    refine .cancelled ?_ .ret
    simp only [Bool.false_eq_true, if_false, hp, Bool.true_eq_false, hne]
    refine hm.along ?_
    simp only [he, placed_error]
    exact .ret (Option.some_ne_none _)
  | @skippedItem S n T m tenv i it its any D es r hp hc _ ih =>
    intro fuel fr vars ex sk st hst hf hm ha
    have he : evaluate it.cond ⟨m, c.env⟩ = .ok false := hc
    have hne : it.cond ≠ [] := by rintro h; rw [h] at he; simp [evaluate] at he
    unfold executeItems
    refine .cancelled ?_ .ret
    simp only [Bool.false_eq_true, if_false, hp, Bool.true_eq_false, hne]
    refine hm.along ?_
    simp only [he, placed_ok]
    exact .quiet_event rfl (ih fuel fr vars ex (sk + 1) st hst hf hm (by simp))
  | @cmd S n T m tenv i v its any D text es r hp hc hr _ ih =>
    intro fuel fr vars ex sk st hst hf hm ha
    refine itemStep (es := [.cmd ⟨n, i, none⟩ text]) hp hc hm (.inl ⟨v, rfl⟩) (cmd_along hm hr) ?_
    rintro r' st' ⟨rfl, rfl⟩
    exact ⟨fun _ => ih fuel fr vars (ex + 1) sk st' hst hf hm (by simp), fun h => absurd rfl h⟩
  | @badCmd S n T m tenv i v its any D hp hc hr =>
    intro fuel fr vars ex sk st hst hf hm ha
    refine itemStep (es := []) (es' := []) hp hc hm (.inl ⟨v, rfl⟩) (badCmd_along hm hr) ?_
    intro r' st' h
    exact ⟨fun h' => absurd h' h, fun _ => ⟨rfl, rfl⟩⟩
  | @log S n T m tenv i l its any D text es r hp hc hl _ ih =>
    intro fuel fr vars ex sk st hst hf hm ha
    refine itemStep (es := [.log ⟨n, i, none⟩ text l.level]) (Q := fun r st' => r = none ∧ st' = st) hp hc hm (.inr (.inl ⟨l, rfl⟩)) ?_ ?_
    · refine hm.along (.quiet_event rfl ?_)
      simp only [hl, placed_ok]
      cases dry with
      | true => exact .emit id (.ret ⟨rfl, rfl⟩)
      | false => exact .emit id (.ret ⟨rfl, rfl⟩)
    · rintro r' st' ⟨rfl, rfl⟩
      exact ⟨fun _ => ih fuel fr vars (ex + 1) sk st' hst hf hm (by simp), fun h => absurd rfl h⟩
  | @badLog S n T m tenv i l its any D e hp hc hl =>
    intro fuel fr vars ex sk st hst hf hm ha
    refine itemStep (es := []) (es' := []) (Q := fun r st' => r ≠ none) hp hc hm (.inr (.inl ⟨l, rfl⟩)) ?_ ?_
    · refine hm.along (.quiet_event rfl ?_)
      simp only [hl, placed_error]
      exact .ret (Option.some_ne_none _)
    · intro r' st' h
      exact ⟨fun h' => absurd h' h, fun _ => ⟨rfl, rfl⟩⟩
  | @call S n T m tenv i t its any D es D1 es' r hd hp hc _ _ ih ih' =>
    intro fuel fr vars ex sk st hst hf hm ha
    have hd : dry = false := by simpa using hd
    subst hd
    refine itemStep hp hc hm (.inr (.inr ⟨t, rfl⟩)) (ih fuel _ _ st hst hf) ?_
    rintro r' st' ⟨rfl, hx⟩
    exact ⟨fun _ => ih' fuel fr vars (ex + 1) sk st' hx hf hm (by simp), fun h => absurd rfl h⟩
  | @callFails S n T m tenv i t its any D es hd hp hc _ ih =>
    intro fuel fr vars ex sk st hst hf hm ha
    have hd : dry = false := by simpa using hd
    subst hd
    have := itemStep (fr := fr) (dry := false) (n := n) (i := i) (T := T) (tenv := tenv) (Q := Post S none) (S := S) (es' := []) (res := none) (its := its) (ex := ex) (sk := sk) hp hc hm (.inr (.inr ⟨t, rfl⟩)) (ih fuel _ _ st hst hf) (by
      intro r' st' h
      exact ⟨fun h' => absurd h' h, fun _ => ⟨rfl, rfl⟩⟩)
    rw [List.append_nil] at this
    exact this
  | @name S n T m tenv i t its any D es r hd hp hc _ ih =>
    intro fuel fr vars ex sk st hst hf hm ha
    have hd : dry = true := by simpa using hd
    subst hd
    refine itemStep (es := [.task ⟨n, i, none⟩ t.task]) (Q := fun r st' => r = none ∧ st' = st) hp hc hm (.inr (.inr ⟨t, rfl⟩)) (.emit id (.ret ⟨rfl, rfl⟩)) ?_
    rintro r' st' ⟨rfl, rfl⟩
    exact ⟨fun _ => ih fuel fr vars (ex + 1) sk st' hst hf hm (by simp), fun h => absurd rfl h⟩

/-! ### there is a plan -/

/-- a set of tasks without prompts and parallel blocks, closed under what they refer to -/
structure Closed (tasks : TaskMap) (G : Str → Prop) : Prop where
  seq : ∀ n, G n → Sequential tasks n
  next : ∀ n T d, G n → tasks.get? n = some T → d ∈ T.deps ∨ CallsIn d T.run → G d

theorem exists_deps {S : List Str} {inline : Bool} (h : ∀ d D, d ∈ ds → ∃ es r, Spec.Plan c tasks g inline S (.task d) D es r) (D : List Str) :
    ∃ es r, Spec.Plan c tasks g inline S (.deps ds) D es r := by
  induction ds generalizing D with
  | nil => exact ⟨_, _, .noDeps⟩
  | cons d ds ih =>
    obtain ⟨es, r, h1⟩ := h d D (by simp)
    cases r with
    | none => exact ⟨_, _, .depFails h1⟩
    | some D1 =>
      obtain ⟨es', r', h2⟩ := ih (fun d D hd => h d D (List.mem_cons_of_mem _ hd)) D1
      exact ⟨_, _, .dep h1 h2⟩

theorem exists_items {S : List Str} {inline : Bool} {n : Str} {its : List RunItem}
    (hs : ∀ it ∈ its, (∃ v, it = .command v) ∨ (∃ l, it = .log l) ∨ ∃ t, it = .task t)
    (h : ∀ t D, RunItem.task t ∈ its → ∃ es r, Spec.Plan c tasks g inline S (.task t.task) D es r) (i : Nat) (any : Bool) (D : List Str) :
    ∃ es r, Spec.Plan c tasks g inline S (.items n T m tenv i its any) D es r := by
  induction its generalizing i any D with
  | nil =>
    cases any with
    | true => exact ⟨_, _, .end⟩
    | false => exact ⟨_, _, .nothing⟩
  | cons it its ih =>
    have ih := ih (fun it hit => hs it (List.mem_cons_of_mem _ hit)) (fun t D ht => h t D (List.mem_cons_of_mem _ ht)) (i + 1)
    cases hp : it.onPlatform c.platform with
    | false =>
      obtain ⟨es, r, h1⟩ := ih any D
      exact ⟨_, _, .elsewhere hp h1⟩
    | true =>
      cases hc : evaluate it.cond ⟨m, c.env⟩ with
      | error e => exact ⟨_, _, .wrongItem hp ⟨e, hc⟩⟩
      | ok b =>
        cases b with
        | false =>
          obtain ⟨es, r, h1⟩ := ih true D
          exact ⟨_, _, .skippedItem hp hc h1⟩
        | true =>
          rcases hs it (by simp) with ⟨v, rfl⟩ | ⟨l, rfl⟩ | ⟨t, rfl⟩
          · by_cases hr : ∃ text, CmdReady c T v tenv m text
            · obtain ⟨text, hr⟩ := hr
              obtain ⟨es, r, h1⟩ := ih true D
              exact ⟨_, _, .cmd hp hc hr h1⟩
            · exact ⟨_, _, .badCmd hp hc (fun text ht => hr ⟨text, ht⟩)⟩
          · cases hl : interpolate l.log ⟨m, c.env⟩ with
            | error e => exact ⟨_, _, .badLog hp hc hl⟩
            | ok text =>
              obtain ⟨es, r, h1⟩ := ih true D
              exact ⟨_, _, .log hp hc hl h1⟩
          · cases inline with
            | false =>
              obtain ⟨es, r, h1⟩ := ih true D
              exact ⟨_, _, .name rfl hp hc h1⟩
            | true =>
              obtain ⟨es, r, h1⟩ := h t D (by simp)
              cases r with
              | none => exact ⟨_, _, .callFails rfl hp hc h1⟩
              | some D1 =>
                obtain ⟨es', r', h2⟩ := ih true D1
                exact ⟨_, _, .call rfl hp hc h1 h2⟩

theorem calls_of_mem {t : TaskRun} {its : List RunItem} (h : RunItem.task t ∈ its) : CallsIn t.task its := by
  induction its with
  | nil => cases h
  | cons it its ih =>
    rcases List.mem_cons.mp h with rfl | h
    · exact .here rfl
    · exact .later (ih h)

theorem exists_plan {G : Str → Prop} (hG : Closed tasks G) {inline : Bool} {S : List Str} {n : Str} (hn : G n) (D : List Str) :
    ∃ es r, Spec.Plan c tasks g inline S (.task n) D es r := by
  induction hk : left tasks S using Nat.strongRecOn generalizing S n D with
  | ind k ih =>
    by_cases hD : n ∈ D
    · exact ⟨_, _, .done hD⟩
    by_cases hS : n ∈ S
    · exact ⟨_, _, .circle hD hS⟩
    cases hT : tasks.get? n with
    | none => exact ⟨_, _, .unknown hD hS hT⟩
    | some T =>
      cases hc : evaluate T.cond ⟨g, c.env⟩ with
      | error e => exact ⟨_, _, .wrong hD hS hT ⟨e, hc⟩⟩
      | ok b =>
        cases b with
        | false => exact ⟨_, _, .skipped hD hS hT hc⟩
        | true =>
          have hl := left_lt hT hS
          have again : ∀ d D, G d → ∃ es r, Spec.Plan c tasks g inline (n :: S) (.task d) D es r :=
            fun d D hd => ih _ (hk ▸ hl) hd D rfl
          obtain ⟨es, r, h1⟩ := exists_deps (ds := T.deps) (S := n :: S) (c := c) (tasks := tasks) (g := g) (inline := inline)
            (fun d D hd => again d D (hG.next n T d hn hT (.inl hd))) D
          cases r with
          | none => exact ⟨_, _, .depsFail hD hS hT hc h1⟩
          | some D1 =>
            by_cases hrun : T.run = []
            · exact ⟨_, _, .noItems hD hS hT hc h1 hrun⟩
            cases hv : resolveVars T.vars g c.env with
            | error e => exact ⟨_, _, .badVars hD hS hT hc h1 hrun hv⟩
            | ok m =>
              cases he : interpolateEnv ⟨m, c.env⟩ (mergeEnvMaps [c.globalEnv, T.env]) with
              | error e => exact ⟨_, _, .badEnv hD hS hT hc h1 hrun hv he⟩
              | ok tenv =>
                obtain ⟨es', r', h2⟩ := exists_items (T := T) (m := m) (tenv := tenv) (n := n) (S := n :: S) (c := c) (tasks := tasks) (g := g)
                  (inline := inline) (hG.seq n hn T hT) (fun t D ht => again t.task D (hG.next n T _ hn hT (.inr (calls_of_mem ht)))) 0 false D1
                exact ⟨_, _, .runs hD hS hT hc h1 hrun hv he h2⟩

/-! ### without calls a dry run and a run have the same plan -/

/-- no item calls a task -/
def JobNoCalls (G : Str → Prop) : Job → Prop
  | .task n => G n
  | .deps ds => ∀ d ∈ ds, G d
  | .items _ _ _ _ _ its _ => ∀ t, RunItem.task t ∉ its

theorem same_plan {G : Str → Prop} (hG : ∀ n, G n → NoCalls tasks n)
    (hd : ∀ n T d, G n → tasks.get? n = some T → d ∈ T.deps → G d) {b b' : Bool} {S D : List Str} {j : Job} {res : Option (List Str)}
    (h : Spec.Plan c tasks g b S j D es res) (hj : JobNoCalls G j) : Spec.Plan c tasks g b' S j D es res := by
  induction h with
  | done h => exact .done h
  | circle h1 h2 => exact .circle h1 h2
  | unknown h1 h2 h3 => exact .unknown h1 h2 h3
  | wrong h1 h2 h3 h4 => exact .wrong h1 h2 h3 h4
  | skipped h1 h2 h3 h4 => exact .skipped h1 h2 h3 h4
  | depsFail h1 h2 h3 h4 _ ih => exact .depsFail h1 h2 h3 h4 (ih (fun d h => hd _ _ d hj h3 h))
  | noItems h1 h2 h3 h4 _ h5 ih => exact .noItems h1 h2 h3 h4 (ih (fun d h => hd _ _ d hj h3 h)) h5
  | badVars h1 h2 h3 h4 _ h5 h6 ih => exact .badVars h1 h2 h3 h4 (ih (fun d h => hd _ _ d hj h3 h)) h5 h6
  | badEnv h1 h2 h3 h4 _ h5 h6 h7 ih => exact .badEnv h1 h2 h3 h4 (ih (fun d h => hd _ _ d hj h3 h)) h5 h6 h7
  | runs h1 h2 h3 h4 _ h5 h6 h7 _ ih ih' =>
    refine .runs h1 h2 h3 h4 (ih (fun d h => hd _ _ d hj h3 h)) h5 h6 h7 (ih' ?_)
    intro t ht
    rcases hG _ hj _ h3 _ ht with ⟨v, h⟩ | ⟨l, h⟩ <;> cases h
  | noDeps => exact .noDeps
  | dep _ _ ih ih' => exact .dep (ih (hj _ (by simp))) (ih' (fun d h => hj d (List.mem_cons_of_mem _ h)))
  | depFails _ ih => exact .depFails (ih (hj _ (by simp)))
  | «end» => exact .end
  | nothing => exact .nothing
  | elsewhere h _ ih => exact .elsewhere h (ih (fun t h => hj t (List.mem_cons_of_mem _ h)))
  | wrongItem h h' => exact .wrongItem h h'
  | skippedItem h h' _ ih => exact .skippedItem h h' (ih (fun t h => hj t (List.mem_cons_of_mem _ h)))
  | cmd h h' h'' _ ih => exact .cmd h h' h'' (ih (fun t h => hj t (List.mem_cons_of_mem _ h)))
  | badCmd h h' h'' => exact .badCmd h h' h''
  | log h h' h'' _ ih => exact .log h h' h'' (ih (fun t h => hj t (List.mem_cons_of_mem _ h)))
  | badLog h h' h'' => exact .badLog h h' h''
  | call | callFails | name => exact absurd List.mem_cons_self (hj _)

/-- a plan does not depend on whether it is a dry run -/
theorem dry_irrelevant {inline d : Bool} {S D : List Str} {j : Job} {res : Option (List Str)} (h : Spec.Plan c tasks g inline S j D es res) :
    Spec.Plan { c with dry := d } tasks g inline S j D es res := by
  induction h with
  | done h => exact .done h
  | circle h1 h2 => exact .circle h1 h2
  | unknown h1 h2 h3 => exact .unknown h1 h2 h3
  | wrong h1 h2 h3 h4 => exact .wrong h1 h2 h3 h4
  | skipped h1 h2 h3 h4 => exact .skipped h1 h2 h3 h4
  | depsFail h1 h2 h3 h4 _ ih => exact .depsFail h1 h2 h3 h4 ih
  | noItems h1 h2 h3 h4 _ h5 ih => exact .noItems h1 h2 h3 h4 ih h5
  | badVars h1 h2 h3 h4 _ h5 h6 ih => exact .badVars h1 h2 h3 h4 ih h5 h6
  | badEnv h1 h2 h3 h4 _ h5 h6 h7 ih => exact .badEnv h1 h2 h3 h4 ih h5 h6 h7
  | runs h1 h2 h3 h4 _ h5 h6 h7 _ ih ih' => exact .runs h1 h2 h3 h4 ih h5 h6 h7 ih'
  | noDeps => exact .noDeps
  | dep _ _ ih ih' => exact .dep ih ih'
  | depFails _ ih => exact .depFails ih
  | «end» => exact .end
  | nothing => exact .nothing
  | elsewhere h _ ih => exact .elsewhere h ih
  | wrongItem h h' => exact .wrongItem h h'
  | skippedItem h h' _ ih => exact .skippedItem h h' ih
  | cmd h h' h'' _ ih => exact .cmd h h' h'' ih
  | badCmd h h' h'' => exact .badCmd h h' h''
  | log h h' h'' _ ih => exact .log h h' h'' ih
  | badLog h h' h'' => exact .badLog h h' h''
  | call h1 h2 h3 _ _ ih ih' => exact .call h1 h2 h3 ih ih'
  | callFails h1 h2 h3 _ ih => exact .callFails h1 h2 h3 ih
  | name h1 h2 h3 _ ih => exact .name h1 h2 h3 ih

end
end Plan
end Bab
