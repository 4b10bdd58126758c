import Verif.Proof.Safe
import Verif.Proof.LifeSub
import Verif.Spec.Runner
import Mathlib.Data.List.Perm.Subperm
/-
The programs of Model/Runner meet the requirements of Spec/Runner.
-/

namespace Bab
namespace Safe
open Spec

/-- no new failures -/
def NF (O O' : Facts) : Prop := ∀ e, Trouble e → O' e → O e

theorem NF.refl (O : Facts) : NF O O := fun _ _ h => h
theorem NF.trans {O O1 O2 : Facts} (h1 : NF O O1) (h2 : NF O1 O2) : NF O O2 :=
  fun e he h => h1 e he (h2 e he h)

/-- on success `A` holds and nothing failed -/
def PostOf (A : Facts → Prop) (O : Facts) : Post := fun F' O' r => r = none → A F' ∧ NF O O'

/-- `A` is monotone -/
def MonoF (A : Facts → Prop) : Prop := ∀ F F', (∀ e, F e → F' e) → A F → A F'

theorem postOf_mono {A : Facts → Prop} {O : Facts} (hA : MonoF A) : Mono (PostOf A O) := by
  intro F F' O' r hF h hr
  exact ⟨hA _ _ hF (h hr).1, (h hr).2⟩

section mono
variable {F F' : Facts} (hF : ∀ e, F e → F' e)
include hF

theorem leafDone_mono {dry : Bool} {loc : Loc} {item : RunItem} (h : LeafDone F dry loc item) :
    LeafDone F' dry loc item := by
  cases item <;> cases dry <;>
    simp only [LeafDone, if_true, Bool.false_eq_true, if_false] at h ⊢
  all_goals first
    | exact hF _ h
    | (obtain ⟨a, h⟩ := h; exact ⟨a, hF _ h⟩)
    | (obtain ⟨a, b, h⟩ := h; exact ⟨a, b, hF _ h⟩)

theorem itemDone_mono {dry : Bool} {n : Str} {i : Nat} {item : RunItem} (h : ItemDone F dry n i item) :
    ItemDone F' dry n i item := by
  cases item with
  | parallel items labels mode lim color bs bo pl w ln =>
    simp only [ItemDone] at h ⊢
    cases dry with
    | true => exact hF _ h
    | false =>
      simp only [Bool.false_eq_true, if_false] at h ⊢
      refine ⟨h.1.imp fun _ h => hF _ h, ?_⟩
      intro j sub hj
      exact (h.2 j sub hj).imp (leafDone_mono hF) (hF _)
  | command v => exact leafDone_mono hF (item := .command v) h
  | task v => exact leafDone_mono hF (item := .task v) h
  | log v => exact leafDone_mono hF (item := .log v) h
  | prompt v => exact leafDone_mono hF (item := .prompt v) h

theorem taskDone_mono {dry : Bool} {n : Str} {T : Task} (h : TaskDone F dry n T) : TaskDone F' dry n T := by
  rcases h with ⟨g, h⟩ | ⟨h1, h2⟩
  · exact Or.inl ⟨g, hF _ h⟩
  · refine Or.inr ⟨fun d hd => hF _ (h1 d hd), fun i item hi => ?_⟩
    rcases h2 i item hi with ⟨w, h⟩ | h
    · exact Or.inl ⟨w, hF _ h⟩
    · exact Or.inr (itemDone_mono hF h)

theorem emitOk_mono {c : Cfg} {tasks : TaskMap} {main : Str} {gvars : GoMap Str} {e : Ev}
    (h : EmitOk c tasks main gvars F e) : EmitOk c tasks main gvars F' e := by
  cases e with
  | itemStart n i w =>
    obtain ⟨T, h1, h2, h3⟩ := h
    refine ⟨T, h1, fun d hd => hF _ (h2 d hd), fun k item hk hi => ?_⟩
    rcases h3 k item hk hi with ⟨w, h⟩ | h
    · exact Or.inl ⟨w, hF _ h⟩
    · exact Or.inr (itemDone_mono hF h)
  | sees loc m =>
    obtain ⟨⟨w, h1⟩, h2, h3⟩ := h
    exact ⟨⟨w, hF _ h1⟩, fun j hj => hF _ (h2 j hj), h3⟩
  | parEnd n i r =>
    obtain ⟨items, labels, mode, lim, color, bs, bo, pl, w, ln, h1, h2, h3⟩ := h
    refine ⟨items, labels, mode, lim, color, bs, bo, pl, w, ln, h1, ?_, ?_⟩
    · intro j hj
      rcases h2 j hj with ⟨r', h4, h5⟩ | ⟨h4, id, h5⟩
      · exact Or.inl ⟨r', hF _ h4, h5⟩
      · exact Or.inr ⟨hF _ h4, id, hF _ h5⟩
    · intro e he
      obtain ⟨j, e', h4, h5, h6⟩ := h3 e he
      exact ⟨j, e', h4, hF _ h5, h6⟩
  | subEnd n i j r => exact fun hr item hi => leafDone_mono hF (h hr item hi)
  | parBegin n i m =>
    exact ⟨h.1, fun items labels mode lim color bs bo pl w ln hi t T d ht hT hd => hF _ (h.2 items labels mode lim color bs bo pl w ln hi t T d ht hT hd)⟩
  | subStart n i j => exact ⟨h.1, h.2.imp fun _ h => hF _ h⟩
  | taskVars n g m call =>
    obtain ⟨h0, h1, T, h2, h3⟩ := h
    exact ⟨h0, h1, T, h2, fun hd hs => (h3 hd hs).imp fun _ h => h.imp fun _ h => hF _ h⟩
  | echoCmd loc text o =>
    obtain ⟨h0, T, v, g, m0, call, m, fr, h1, h2, h3, h4, h5⟩ := h
    exact ⟨h0, T, v, g, m0, call, m, fr, h1, h2, hF _ h3, hF _ h4, h5⟩
  | logged loc text level o =>
    obtain ⟨h0, l, m, h1, h2, h3⟩ := h
    exact ⟨h0, l, m, h1, hF _ h2, h3⟩
  | wouldRun loc text =>
    obtain ⟨h0, l, m, h1, h2, h3⟩ := h
    exact ⟨h0, l, m, h1, hF _ h2, h3⟩
  | wouldLog loc text level =>
    obtain ⟨h0, l, m, h1, h2, h3⟩ := h
    exact ⟨h0, l, m, h1, hF _ h2, h3⟩
  | answered loc x r =>
    obtain ⟨h0, h0', p, p', m, h1, h2, h3⟩ := h
    exact ⟨h0, h0', p, p', m, h1, hF _ h2, h3⟩
  | _ => exact h

end mono

/-- the requirement used for the runner -/
def rq (c : Cfg) (tasks : TaskMap) (main : Str) (gvars : GoMap Str) :
    Facts → (a : Act) → a.Resp → Prop := fun F a _ => ActOk c tasks main gvars F a

theorem rq_mono (c : Cfg) (tasks : TaskMap) (main : Str) (gvars : GoMap Str) :
    ReqMono (rq c tasks main gvars) := by
  intro F F' a x hF h
  cases a with
  | setDone n =>
    obtain ⟨T, h1, h2⟩ := h
    exact ⟨T, h1, taskDone_mono hF h2⟩
  | start ctx loc spec =>
    obtain ⟨h1, h2, T, v, g, m0, call, tenv, m, text, env, dir, fr, h3, h4, h5, h6, h7, h8, h9, h10, h11⟩ := h
    exact ⟨h1, h2, T, v, g, m0, call, tenv, m, text, env, dir, fr, h3, h4, hF _ h5, h6, hF _ h7, h8, h9, h10,
      fun hs => (h11 hs).imp fun _ h => hF _ h⟩
  | wait loc =>
    obtain ⟨h1, s, h2⟩ := h
    exact ⟨h1, s, hF _ h2⟩
  | prompt loc p =>
    obtain ⟨h1, h2, p, m, h3, h4, h5⟩ := h
    exact ⟨h1, h2, p, m, h3, hF _ h4, h5⟩
  | setGlobal k v =>
    obtain ⟨h1, h2, loc, h3⟩ := h
    exact ⟨h1, h2, loc, hF _ h3⟩
  | emit e => exact emitOk_mono hF h
  | _ => exact h

section run
variable {c : Cfg} {tasks : TaskMap} {main : Str} {gvars : GoMap Str}

local notation "S" => Safe (rq c tasks main gvars) (GlobalsOk tasks gvars)

theorem s_note {e : Ev} {p : Prog} {P : Post} {F O : Facts} (he : EmitOk c tasks main gvars F e)
    (h : ∀ F' O', (∀ e, F e → F' e) → F' e → (¬ Trouble e → NF O O') → S p P F' O') :
    S (.note e p) P F O := by
  intro x _
  refine ⟨⟨?_, ?_, ?_⟩, he, fun L hL => ?_⟩
  · rintro n rfl; exact he
  · rintro n rfl; exact he
  · rintro n rfl; exact he
  · refine h _ _ (fun e he => Or.inl he) (Or.inr (Or.inl (by simp [Act.evs]))) ?_
    rintro hf e' he' (h | h)
    · exact h
    · simp [Act.evs] at h; subst h; exact absurd he' hf

/-- an action without events, requirements and answers that teach anything -/
theorem s_act {a : Act} {k : a.Resp → Prog} {P : Post} {F O : Facts}
    (hb : BaseReq (GlobalsOk tasks gvars) a) (hr : ActOk c tasks main gvars F a)
    (he : ∀ x, a.evs x = [])
    (h : ∀ x F' O', Plaus (GlobalsOk tasks gvars) F a x → (∀ e, F e → F' e) → NF O O' → S (k x) P F' O') :
    S (.act a k) P F O := by
  intro x hx
  refine ⟨hb, hr, fun L _ => h x _ _ hx (fun e he => Or.inl he) ?_⟩
  intro e _ h
  rw [he x] at h
  simpa using h

/-- what the variables of a task may be -/
structure VarsFor (tasks : TaskMap) (gvars : GoMap Str) (F : Facts) (T : Task) (loc : Loc) (vars : VarEnv) : Prop where
  sub : ∀ j, loc.sub = some j → ∃ m, vars = .own m ∧ F (.parBegin loc.task loc.item m)
  own : T.vars = none → ∀ m, vars = .own m → GlobalsOk tasks gvars m
  global : vars = .global → T.vars = none

theorem VarsFor.mono {F F' : Facts} (hF : ∀ e, F e → F' e) {T : Task} {loc : Loc} {vars : VarEnv}
    (h : VarsFor tasks gvars F T loc vars) : VarsFor tasks gvars F' T loc vars where
  sub j hj := by
    obtain ⟨m, h1, h2⟩ := h.sub j hj
    exact ⟨m, h1, hF _ h2⟩
  own := h.own
  global := h.global

/-- reading the variables, and saying so -/
theorem s_readVars {T : Task} {loc : Loc} {vars : VarEnv} {k : GoMap Str → Prog} {P : Post} {F O : Facts}
    (hv : VarsFor tasks gvars F T loc vars)
    (h : ∀ m F' O', (∀ e, F e → F' e) → NF O O' →
      (∀ j, loc.sub = some j → F' (.parBegin loc.task loc.item m)) →
      (T.vars = none → GlobalsOk tasks gvars m) → S (k m) P F' O') :
    S (readVars vars k) P F O := by
  cases vars with
  | own m =>
    refine h m F O (fun _ h => h) (NF.refl _) ?_ (fun hT => hv.own hT m rfl)
    intro j hj
    obtain ⟨m', h1, h2⟩ := hv.sub j hj
    cases h1; exact h2
  | global =>
    refine s_act trivial trivial (fun _ => rfl) (fun g F' O' hg hF hn => h g F' O' hF hn ?_ (fun _ => hg))
    intro j hj
    obtain ⟨m', h1, _⟩ := hv.sub j hj
    cases h1

theorem s_sees {T : Task} {loc : Loc} {vars : VarEnv} {k : GoMap Str → Prog} {P : Post} {F O : Facts}
    (hT : tasks.get? loc.task = some T) (hst : ∃ w, F (.itemStart loc.task loc.item w))
    (hv : VarsFor tasks gvars F T loc vars)
    (h : ∀ m F' O', (∀ e, F e → F' e) → NF O O' → F' (.sees loc m) → S (k m) P F' O') :
    S (readVars vars fun m => .note (.sees loc m) (k m)) P F O := by
  refine s_readVars hv (fun m F' O' hF hn h1 h2 => s_note ⟨hst.imp fun _ h => hF _ h, h1, ?_⟩ ?_)
  · intro T' hT'
    rw [hT] at hT'; cases hT'
    exact h2
  · intro F2 O2 hF2 he hn2
    exact h m F2 O2 (fun e he => hF2 e (hF e he)) (hn.trans (hn2 (by simp [Trouble, Fails]))) he

theorem s_runProc {tn : Str} {fr : Frame} {loc : Loc} {spec : ProcSpec} {F O : Facts} (h0 : 0 ∈ fr.ctx)
    (hd : c.dry = false) (hp : ProcOk c tasks F loc spec) :
    S (runProc tn fr loc spec) (PostOf (fun F => F (.procEnd loc none)) O) F O := by
  have hfail : ∀ code F' O', S (.act (.cancelled fr.ctx) fun (b : Bool) =>
        .ret (some (.wrap (.command tn spec.cmd) (if b then .canceled else .exit code))))
        (PostOf (fun F => F (.procEnd loc none)) O) F' O' := fun code F' O' =>
    s_act trivial trivial (fun _ => rfl) (fun _ _ _ _ _ _ hr => by cases hr)
  intro x _
  refine ⟨trivial, ⟨h0, hd, hp⟩, fun L _ => ?_⟩
  cases x with
  | false => exact hfail _ _ _
  | true =>
    intro x _
    refine ⟨trivial, ⟨hd, spec, Or.inr (Or.inl (by simp [Act.evs]))⟩, fun L _ => ?_⟩
    cases x with
    | none =>
      intro _
      refine ⟨Or.inr (Or.inl (by simp [Act.evs])), ?_⟩
      rintro e he ((h | h) | h)
      · exact h
      · simp [Act.evs] at h; subst h; cases he
      · simp [Act.evs] at h; subst h; cases he
    | some code => exact hfail _ _ _

/-- what is known about the task around an item -/
structure Around (c : Cfg) (tasks : TaskMap) (main : Str) (T : Task) (tenv : GoMap Str) (loc : Loc) (fr : Frame)
    (F : Facts) : Prop where
  task : tasks.get? loc.task = some T
  ctx : 0 ∈ fr.ctx
  started : ∃ w, F (.itemStart loc.task loc.item w)
  env : ∃ g m0 call, F (.taskVars loc.task g m0 call) ∧ FrameFor tasks loc call fr ∧
    Called tasks main loc.task call.silent call.output call.noColor ∧
    interpolateEnv ⟨m0, c.env⟩ (mergeEnvMaps [c.globalEnv, T.env]) = .ok tenv

theorem Around.mono {T : Task} {tenv : GoMap Str} {loc : Loc} {fr : Frame} {F F' : Facts}
    (hF : ∀ e, F e → F' e) (h : Around c tasks main T tenv loc fr F) : Around c tasks main T tenv loc fr F' where
  task := h.task
  ctx := h.ctx
  started := h.started.imp fun _ h => hF _ h
  env := by
    obtain ⟨g, m0, call, h1, h2⟩ := h.env
    exact ⟨g, m0, call, hF _ h1, h2⟩

theorem s_executeCommand {T : Task} {fr : Frame} {loc : Loc} {v : CommandRun} {vars : VarEnv} {tenv : GoMap Str}
    {F O : Facts} (ha : Around c tasks main T tenv loc fr F) (hv : VarsFor tasks gvars F T loc vars)
    (hi : itemAt tasks loc = some (.command v)) :
    S (executeCommand c T fr loc v vars tenv) (PostOf (fun F => LeafDone F c.dry loc (.command v)) O) F O := by
  unfold Bab.executeCommand
  split
  · intro hr; cases hr
  · refine s_sees ha.task ha.started hv (fun m F' O' hF hn hs => ?_)
    cases hp : placed v.line (prepareCommand c T v tenv m) with
    | error e =>
      intro hr; cases hr
    | ok r =>
      replace hp := of_placed_ok hp
      obtain ⟨text, env, dir⟩ := r
      have htext : interpolate v.cmd ⟨m, c.env⟩ = .ok text := by
        unfold prepareCommand at hp
        cases h1 : interpolate v.cmd ⟨m, c.env⟩ with
        | error e => rw [h1] at hp; cases hp
        | ok t =>
          rw [h1] at hp
          simp only at hp
          split at hp
          · cases hp
          · split at hp
            · cases hp
            · cases hp; rfl
      simp only
      cases hdry : c.dry with
      | true =>
        refine s_note ⟨hdry, v, m, hi, hs, htext⟩ (fun F2 O2 hF2 he hn2 _ => ?_)
        exact ⟨by simp only [LeafDone, if_true]; exact ⟨text, he⟩, hn.trans (hn2 (by simp [Trouble, Fails]))⟩
      | false =>
        simp only [Bool.false_eq_true, if_false]
        have hrun : ∀ F2 O2, (∀ e, F' e → F2 e) → NF O' O2 →
            (isSilent [v.silent, fr.ovSilent, T.silent, c.globalSilent] = false → ∃ o, F2 (.echoCmd loc text o)) →
            S (runProc T.name fr loc (procSpec c fr T v text env dir))
              (PostOf (fun F => LeafDone F false loc (.command v)) O) F2 O2 := by
          intro F2 O2 hF2 hn2 hec
          obtain ⟨g, m0, call, h1, h2, -, h3⟩ := ha.env
          refine safe_weaken (s_runProc ha.ctx hdry
            ⟨T, v, g, m0, call, tenv, m, text, env, dir, fr, ha.task, hi, hF2 _ (hF _ h1), h3, hF2 _ hs, hp, h2, rfl, hec⟩) ?_
          intro F3 O3 r hF3 h3 hr
          exact ⟨by simp only [LeafDone, Bool.false_eq_true, if_false]; exact (h3 hr).1,
            (hn.trans hn2).trans (h3 hr).2⟩
        split
        · rename_i hsil
          exact hrun _ _ (fun _ h => h) (NF.refl _) (fun h => by rw [hsil] at h; cases h)
        · rename_i hsil
          obtain ⟨g, m0, call, h1, h2, -⟩ := ha.env
          refine s_note ⟨hdry, T, v, g, m0, call, m, fr, ha.task, hi, hF _ h1, hs, htext, h2, by simpa using hsil⟩ ?_
          intro F2 O2 hF2 hec hn2
          exact hrun _ _ hF2 (hn2 (by simp [Trouble, Fails])) (fun _ => ⟨_, hec⟩)

/-- a recursive call does its job, given that the tasks on the path have been claimed -/
def RecOk (c : Cfg) (tasks : TaskMap) (main : Str) (gvars : GoMap Str) (path : List Str) (rec : Rec) : Prop :=
  ∀ (fr : Frame) (b : Bool) (m : Str) (F O : Facts), 0 ∈ fr.ctx →
    Called tasks main m fr.ovSilent fr.ovOutput fr.noColor → (∀ p ∈ path, F (.claimed p)) →
    Safe (rq c tasks main gvars) (GlobalsOk tasks gvars) (rec fr b m) (PostOf (fun F => F (.done m)) O) F O

theorem firstNonNil_two (a b : Option Bool) : firstNonNil [a, b] = a.or b := by
  cases a <;> cases b <;> rfl

theorem itemAt_none {n : Str} {i : Nat} {T : Task} (hT : tasks.get? n = some T) :
    itemAt tasks ⟨n, i, none⟩ = T.run[i]? := by simp [itemAt, hT]

theorem mem_of_itemAt {n : Str} {i : Nat} {T : Task} {item : RunItem} (hT : tasks.get? n = some T)
    (h : itemAt tasks ⟨n, i, none⟩ = some item) : item ∈ T.run := by
  rw [itemAt_none hT] at h
  exact List.mem_of_getElem? h

theorem called_item {T : Task} {loc : Loc} {fr : Frame} {t : TaskRun} {call : Call}
    (hT : tasks.get? loc.task = some T) (hf : FrameFor tasks loc call fr)
    (hc : Called tasks main loc.task call.silent call.output call.noColor) (hi : itemAt tasks loc = some (.task t)) :
    Called tasks main t.task (firstNonNil [t.silent, fr.ovSilent]) (firstNonNil [t.output, fr.ovOutput]) fr.noColor := by
  rw [firstNonNil_two, firstNonNil_two]
  obtain ⟨n, i, sub⟩ := loc
  cases sub with
  | none =>
    have hf : fr.call = call := hf
    subst hf
    exact .item hc hT (mem_of_itemAt hT hi)
  | some j =>
    obtain ⟨_, items, labels, mode, lim, color, bs, bo, pl, w, ln, h2, h3, h4, h5⟩ := hf
    rw [h3, h4, h5]
    refine .sub hc hT (mem_of_itemAt hT h2) ?_
    rw [itemAt_none hT] at h2
    simp only [itemAt, hT, h2] at hi
    exact List.mem_of_getElem? hi

theorem s_executeRunItem {rec : Rec} {path : List Str} (hrec : RecOk c tasks main gvars path rec)
    {T : Task} {fr : Frame} {loc : Loc} {item : RunItem} {vars : VarEnv} {tenv : GoMap Str}
    {F O : Facts} (hpath : ∀ p ∈ path, F (.claimed p))
    (ha : Around c tasks main T tenv loc fr F) (hv : VarsFor tasks gvars F T loc vars)
    (hi : itemAt tasks loc = some item) :
    S (executeRunItem c rec T fr loc item vars tenv) (PostOf (fun F => LeafDone F c.dry loc item) O) F O := by
  unfold Bab.executeRunItem
  split
  · exact s_executeCommand ha hv hi
  · rename_i t
    cases hdry : c.dry with
    | true =>
      refine s_note (show EmitOk _ _ _ _ _ (.wouldTask _ _) from ⟨hdry, t, hi, rfl⟩) (fun F2 O2 hF2 he hn2 _ => ?_)
      exact ⟨by simp only [LeafDone, if_true]; exact he, hn2 (by simp [Trouble, Fails])⟩
    | false =>
      simp only [Bool.false_eq_true, if_false]
      refine safe_weaken (hrec _ _ _ _ _ ?_ ?_ hpath) ?_
      · exact ha.ctx
      · obtain ⟨g, m0, call, -, h2, h3, -⟩ := ha.env
        exact called_item ha.task h2 h3 hi
      · intro F2 O2 r hF2 h hr
        exact ⟨by simp only [LeafDone, Bool.false_eq_true, if_false]; exact (h hr).1, (h hr).2⟩
  · rename_i l
    refine s_sees ha.task ha.started hv (fun m F' O' hF hn hs => ?_)
    cases hp : placed l.line (interpolate l.log ⟨m, c.env⟩) with
    | error e =>
      intro hr; cases hr
    | ok text =>
      replace hp := of_placed_ok hp
      simp only
      cases hdry : c.dry with
      | true =>
        refine s_note ⟨hdry, l, m, hi, hs, hp, rfl⟩ (fun F2 O2 hF2 he hn2 _ => ?_)
        exact ⟨by simp only [LeafDone, if_true]; exact ⟨text, he⟩, hn.trans (hn2 (by simp [Trouble, Fails]))⟩
      | false =>
        simp only [Bool.false_eq_true, if_false]
        refine s_note ⟨hdry, l, m, hi, hs, hp, rfl⟩ (fun F2 O2 hF2 he hn2 _ => ?_)
        exact ⟨by simp only [LeafDone, Bool.false_eq_true, if_false]; exact ⟨text, _, he⟩, hn.trans (hn2 (by simp [Trouble, Fails]))⟩
  · intro hr; cases hr

theorem s_andThen {p q : Prog} {w : Err → Err} {A : Facts → Prop} {F O : Facts} {P : Post}
    (hp : S p (PostOf A O) F O) (hbad : ∀ F' O' e, P F' O' (some e))
    (hq : ∀ F' O', (∀ e, F e → F' e) → A F' → NF O O' → S q P F' O') : S (p.andThen w q) P F O := by
  refine safe_bind (fun _ h => h) hp (fun F' O' r hF h => ?_)
  cases r with
  | none => exact hq F' O' hF (h rfl).1 (h rfl).2
  | some e => exact hbad _ _ _

theorem s_preDeps {rec : Rec} {path : List Str} (hrec : RecOk c tasks main gvars path rec) {fr : Frame}
    {ds seen : List Str} {k : List Str → Prog} {P : Post} {F O : Facts} (hpath : ∀ p ∈ path, F (.claimed p))
    (h0 : 0 ∈ fr.ctx) (hc : ∀ d ∈ ds, Called tasks main d fr.ovSilent fr.ovOutput fr.noColor)
    (hseen : ∀ d ∈ seen, F (.done d)) (hbad : ∀ F' O' e, P F' O' (some e))
    (hk : ∀ s F' O', (∀ e, F e → F' e) → NF O O' → (∀ d ∈ s, F' (.done d)) → (∀ d ∈ ds, F' (.done d)) → S (k s) P F' O') :
    S (preDeps rec fr ds seen k) P F O := by
  induction ds generalizing seen F O with
  | nil => exact hk _ _ _ (fun _ h => h) (NF.refl _) hseen (fun _ h => by cases h)
  | cons d ds ih =>
    have ih' := fun {seen F' O'} (hF : ∀ e, F e → F' e) (hn : NF O O') (hs : ∀ d ∈ seen, F' (.done d)) (hd : F' (.done d)) =>
      ih (seen := seen) (F := F') (O := O') (fun p hp => hF _ (hpath p hp)) (fun d hd => hc d (List.mem_cons_of_mem _ hd)) hs
        (fun s F2 O2 hF2 hn2 hs2 hd2 => hk s F2 O2 (fun e he => hF2 e (hF e he)) (hn.trans hn2) hs2
          (fun x hx => by
            rcases List.mem_cons.mp hx with rfl | hx
            · exact hF2 _ hd
            · exact hd2 x hx))
    unfold Bab.preDeps
    split
    · rename_i hm
      exact ih' (fun _ h => h) (NF.refl _) hseen (hseen _ hm)
    · intro (s : Option Status) _
      refine ⟨trivial, trivial, fun L hL => ?_⟩
      have hL : L = fun e => s = some .done ∧ e = .done d := hL
      have hF : ∀ e, F e → (F e ∨ e ∈ Act.evs (.status d) s ∨ L e) := fun e he => Or.inl he
      have hn : NF O (fun e => O e ∨ e ∈ Act.evs (.status d) s) := by
        rintro e _ (h | h)
        · exact h
        · cases h
      by_cases hs : s = some Status.done
      · simp only [if_pos hs]
        have hd : F (.done d) ∨ .done d ∈ Act.evs (.status d) s ∨ L (.done d) := Or.inr (Or.inr (by rw [hL]; exact ⟨hs, rfl⟩))
        refine ih' hF hn (fun x hx => ?_) hd
        rcases List.mem_cons.mp hx with rfl | hx
        · exact hd
        · exact hF _ (hseen x hx)
      · simp only [if_neg hs]
        refine s_andThen (hrec fr false d _ _ h0 (hc d (List.mem_cons_self)) (fun p hp => hF _ (hpath p hp))) hbad ?_
        intro F2 O2 hF2 hd2 hn2
        refine ih' (fun e he => hF2 e (hF e he)) (hn.trans hn2) (fun x hx => ?_) hd2
        rcases List.mem_cons.mp hx with rfl | hx
        · exact hd2
        · exact hF2 _ (hF _ (hseen x hx))

theorem s_preResolveDeps {rec : Rec} {path : List Str} (hrec : RecOk c tasks main gvars path rec) {fr : Frame}
    {items : List RunItem} {seen : List Str} {k : Prog} {P : Post} {F O : Facts}
    (hpath : ∀ p ∈ path, F (.claimed p)) (h0 : 0 ∈ fr.ctx)
    (hc : ∀ t T d, .task t ∈ items → tasks.get? t.task = some T → d ∈ T.deps →
      Called tasks main d fr.ovSilent fr.ovOutput fr.noColor)
    (hseen : ∀ d ∈ seen, F (.done d)) (hbad : ∀ F' O' e, P F' O' (some e))
    (hk : ∀ F' O', (∀ e, F e → F' e) → NF O O' →
      (∀ t T d, .task t ∈ items → tasks.get? t.task = some T → d ∈ T.deps → F' (.done d)) → S k P F' O') :
    S (preResolveDeps tasks rec fr items seen k) P F O := by
  induction items generalizing seen F O with
  | nil => exact hk _ _ (fun _ h => h) (NF.refl _) (fun _ _ _ h => by cases h)
  | cons item items ih =>
    have hc' : ∀ t T d, .task t ∈ items → tasks.get? t.task = some T → d ∈ T.deps →
      Called tasks main d fr.ovSilent fr.ovOutput fr.noColor :=
      fun t T d ht => hc t T d (List.mem_cons_of_mem _ ht)
    have hother : (∀ t, item ≠ .task t) → S (preResolveDeps tasks rec fr items seen k) P F O := fun hne =>
      ih hpath hc' hseen (fun F' O' hF hn hd => hk F' O' hF hn (fun t T d ht => by
        rcases List.mem_cons.mp ht with h | h
        · exact absurd h.symm (hne t)
        · exact hd t T d h))
    cases item with
    | task t =>
      unfold Bab.preResolveDeps
      split
      · exact hbad _ _ _
      · rename_i T hT
        refine s_preDeps hrec hpath h0 (fun d hd => hc t T d (List.mem_cons_self) hT hd) hseen hbad ?_
        intro s F' O' hF hn hs hd
        refine ih (fun p hp => hF _ (hpath p hp)) hc' hs
          (fun F2 O2 hF2 hn2 hd2 => hk F2 O2 (fun e he => hF2 e (hF e he)) (hn.trans hn2) (fun t' T' d' ht' hT' hd' => ?_))
        rcases List.mem_cons.mp ht' with h | h
        · cases h
          rw [hT] at hT'; cases hT'
          exact hF2 _ (hd d' hd')
        · exact hd2 t' T' d' h hT' hd'
    | command _ => exact hother (fun _ h => by cases h)
    | log _ => exact hother (fun _ h => by cases h)
    | prompt _ => exact hother (fun _ h => by cases h)
    | parallel _ _ _ _ _ _ _ _ _ _ => exact hother (fun _ h => by cases h)

theorem s_runBlock {rec : Rec} {path : List Str} (hrec : RecOk c tasks main gvars path rec)
    {T : Task} {n : Str} {i : Nat} {fr : Nat → Frame} {tenv m : GoMap Str} {ctx : CtxPath}
    {items : List RunItem} {labels : List Str} {mode : ParallelMode} {lim : Nat}
    {color bs bo : Option Bool} {pl : List Str} {w : Str}
    {F O : Facts} (hpath : ∀ p ∈ path, F (.claimed p))
    (hi : itemAt tasks ⟨n, i, none⟩ = some (.parallel items labels mode lim color bs bo pl w ln))
    (ha : ∀ j, Around c tasks main T tenv ⟨n, i, some j⟩ (fr j) F)
    (hg : T.vars = none → GlobalsOk tasks gvars m) (hdry : c.dry = false) (hahead : AheadDone tasks F n i) :
    S (.note (.parBegin n i m) <| runBlock lim ctx n i items labels fun j item =>
        executeRunItem c rec T (fr j) ⟨n, i, some j⟩ item (.own m) tenv)
      (PostOf (fun F => ItemDone F c.dry n i (.parallel items labels mode lim color bs bo pl w ln)) O) F O := by
  have hT : tasks.get? n = some T := (ha 0).task
  refine s_note (show EmitOk _ _ _ _ _ (.parBegin _ _ _) from ⟨hdry, hahead⟩) (fun F1 O1 hF1 hpb hn1 => ?_)
  have hn1 := hn1 (by simp [Trouble, Fails])
  have hsubAt : ∀ j : Fin items.length, itemAt tasks ⟨n, i, some (j : Nat)⟩ = some (items.get j) := by
    intro j
    have h2 := hi
    rw [itemAt_none hT] at h2
    simp [itemAt, hT, h2]
  let G : Fin items.length → Post := fun j F' O' r =>
    (∃ r', F' (.subEnd n i j r') ∧ r = r'.map (.wrap (.item (itemLabel items labels j)))) ∧
    (r = none → LeafDone F' c.dry ⟨n, i, some j⟩ (items.get j) ∧ ∀ e, Trouble e → ¬ O' e)
  refine ⟨G, O1, fun _ _ => False, ?_, ?_, blockOk_init _ _, fun e he => Or.inl he, ?_, ?_, ?_⟩
  · intro j F2 F3 O' r hF h
    obtain ⟨⟨r', h1, h2⟩, h3⟩ := h
    exact ⟨⟨r', hF _ h1, h2⟩, fun hr => ⟨leafDone_mono hF (h3 hr).1, (h3 hr).2⟩⟩
  · intro j
    refine s_note (show EmitOk _ _ _ _ _ (.subStart _ _ _) from ⟨hdry, m, hpb⟩) (fun F2 O2 hF2 _ hn2 => ?_)
    have hn2 := hn2 (by simp [Trouble, Fails])
    refine safe_bind (fun _ h => h) (s_executeRunItem hrec
      (fun p hp => hF2 _ (hF1 _ (hpath p hp))) ((ha j).mono (fun e he => hF2 e (hF1 e he))) ?_ (hsubAt j)) ?_
    · refine ⟨?_, ?_, ?_⟩
      · intro j' _
        exact ⟨m, rfl, hF2 _ hpb⟩
      · intro hv m' hm'
        cases hm'; exact hg hv
      · intro h; cases h
    · intro F3 O3 r hF3 h3
      refine s_note ?_ (fun F4 O4 hF4 he hn4 => ?_)
      · intro hr item hitem
        rw [hsubAt j] at hitem
        cases hitem
        exact (h3 hr).1
      · refine ⟨⟨r, he, rfl⟩, fun hr => ?_⟩
        cases r with
        | some e => cases hr
        | none =>
          refine ⟨leafDone_mono hF4 (h3 rfl).1, fun e he h => ?_⟩
          exact (hn2.trans ((h3 rfl).2.trans (hn4 (by simp [Trouble, Fails])))) e he h
  · intro j e he; exact he
  · intro e he; cases he
  · intro F2 Oi' first hF2 hend hfirst
    refine s_note ?_ (fun F3 O3 hF3 he hn3 => ?_)
    · refine ⟨items, labels, mode, lim, color, bs, bo, pl, w, ln, hi, ?_, ?_⟩
      · intro j hj
        rcases hend ⟨j, hj⟩ with ⟨r, ⟨⟨r', h1, h2⟩, _⟩, h3⟩ | ⟨h1, ⟨id, _, h2⟩, _⟩
        · refine Or.inl ⟨r', h1, fun hr => h3 ?_⟩
          rw [h2]; cases r' with
          | none => cases hr
          | some _ => rfl
        · exact Or.inr ⟨h1, id, h2⟩
      · intro e he
        obtain ⟨j, ⟨r', h1, h2⟩, _⟩ := hfirst e he
        cases r' with
        | none => cases h2
        | some e' => cases h2; exact ⟨j, e', j.2, h1, rfl⟩
    · intro hr
      subst hr
      have hnone : ∀ j : Fin items.length, (LeafDone F2 c.dry ⟨n, i, some j⟩ (items.get j) ∨ F2 (.subAbort n i j)) ∧
          ∀ e, Trouble e → ¬ Oi' j e := by
        intro j
        rcases hend j with ⟨r, ⟨_, h2⟩, h3⟩ | ⟨h1, _, h2⟩
        · cases r with
          | some e => exact absurd (h3 rfl) (by simp)
          | none => exact ⟨Or.inl (h2 rfl).1, (h2 rfl).2⟩
        · exact ⟨Or.inr h1, fun e _ => h2 e⟩
      refine ⟨?_, ?_⟩
      · simp only [ItemDone, hdry, Bool.false_eq_true, if_false]
        refine ⟨⟨m, hF3 _ (hF2 _ hpb)⟩, ?_⟩
        intro j sub hj
        obtain ⟨hlt, hsub⟩ := List.getElem?_eq_some_iff.mp hj
        have := (hnone ⟨j, hlt⟩).1
        simp only [List.get_eq_getElem, hsub, hdry] at this
        exact this.imp (leafDone_mono hF3) (hF3 _)
      · intro e he h
        rcases hn3 (by simp [Trouble, Fails]) e he h with h | ⟨j, h⟩
        · exact hn1 e he h
        · exact absurd h ((hnone j).2 e he)

theorem noColor_eq (nc : Bool) (color : Option Bool) :
    (nc || !(color == none || color == some true)) = (nc || color == some false) := by
  cases nc <;> cases color with
  | none => rfl
  | some b => cases b <;> rfl

theorem override_eq (a b : Option Bool) : (if a.isSome = true then a else b) = a.or b := by
  cases a <;> rfl

theorem s_executeParallel {rec : Rec} {path : List Str} (hrec : RecOk c tasks main gvars path rec)
    {T : Task} {n : Str} {i : Nat} {fr : Frame} {tenv m : GoMap Str}
    {items : List RunItem} {labels : List Str} {mode : ParallelMode} {lim : Nat}
    {color bs bo : Option Bool} {pl : List Str} {w : Str}
    {F O : Facts} (hpath : ∀ p ∈ path, F (.claimed p))
    (hi : itemAt tasks ⟨n, i, none⟩ = some (.parallel items labels mode lim color bs bo pl w ln))
    (ha : Around c tasks main T tenv ⟨n, i, none⟩ fr F)
    (hg : T.vars = none → GlobalsOk tasks gvars m) :
    S (executeParallel c tasks rec n T fr i items labels mode lim color bs bo m tenv)
      (PostOf (fun F => ItemDone F c.dry n i (.parallel items labels mode lim color bs bo pl w ln)) O) F O := by
  have hT : tasks.get? n = some T := ha.task
  obtain ⟨g, m0, call, ha1, ha2, hcall, ha3⟩ := ha.env
  have ha2 : fr.call = call := ha2
  subst ha2
  have hmem := mem_of_itemAt hT hi
  unfold Bab.executeParallel
  simp only [noColor_eq, override_eq]
  refine s_preResolveDeps hrec hpath ha.ctx ?_ (fun _ h => by cases h) (fun F' O' e hr => by cases hr) ?_
  · intro t T' d ht hT' hd
    exact .ahead hcall hT hmem ht hT' hd
  · intro F1 O1 hF1 hn1 hdeps
    cases hdry : c.dry with
    | true =>
      simp only [if_true]
      refine s_note (show EmitOk _ _ _ _ _ (.wouldParallel _) from ⟨hdry, _, _, _, _, _, _, _, _, _, _, hi⟩) (fun F2 O2 hF2 he hn2 _ => ?_)
      exact ⟨by simp only [ItemDone, if_true]; exact he, hn1.trans (hn2 (by simp [Trouble, Fails]))⟩
    | false =>
      simp only [Bool.false_eq_true, if_false]
      have hblock : ∀ (F2 O2 : Facts) (ctx : CtxPath) (frj : Nat → Frame), (∀ e, F1 e → F2 e) → NF O1 O2 →
          (∀ j, 0 ∈ (frj j).ctx ∧ (frj j).out.isSome = true ∧ (frj j).ovSilent = bs.or fr.ovSilent ∧
            (frj j).ovOutput = bo.or fr.ovOutput ∧ (frj j).noColor = (fr.noColor || color == some false)) →
          S (.note (.parBegin n i m) <| runBlock lim ctx n i items labels fun j item =>
            executeRunItem c rec T (frj j) ⟨n, i, some j⟩ item (.own m) tenv)
            (PostOf (fun F => ItemDone F false n i (.parallel items labels mode lim color bs bo pl w ln)) O) F2 O2 := by
        intro F2 O2 ctx frj hF2 hn2 hfr
        refine safe_weaken (s_runBlock hrec (T := T) (m := m) (tenv := tenv) (fr := frj) (ctx := ctx)
          (fun p hp => hF2 _ (hF1 _ (hpath p hp))) hi ?_ hg hdry ?_) ?_
        · intro j
          obtain ⟨f1, f2, f3, f4, f5⟩ := hfr j
          exact ⟨hT, f1, ha.started.imp fun _ h => hF2 _ (hF1 _ h), g, m0, fr.call, hF2 _ (hF1 _ ha1),
            ⟨f2, items, labels, mode, lim, color, bs, bo, pl, w, ln, hi, f3, f4, f5⟩, hcall, ha3⟩
        · intro items' labels' mode' lim' color' bs' bo' pl' w' ln' hi' t T' d ht hT' hd
          rw [hi] at hi'; cases hi'
          exact hF2 _ (hdeps t T' d ht hT' hd)
        · intro F3 O3 r hF3 h hr
          have := h hr
          rw [hdry] at this
          exact ⟨this.1, (hn1.trans hn2).trans this.2⟩
      split
      · unfold executeParallelTUI
        simp only
        split
        · exact hblock _ _ _ _ (fun _ h => h) (NF.refl _) (fun j => ⟨ha.ctx, rfl, rfl, rfl, rfl⟩)
        · refine s_act trivial hdry (fun _ => rfl) (fun id F2 O2 _ hF2 hn2 => ?_)
          intro ok _
          refine ⟨trivial, hdry, fun L _ => ?_⟩
          cases ok with
          | true =>
            refine hblock _ _ _ _ (fun e he => Or.inl (hF2 e he)) ?_
              (fun j => ⟨List.mem_cons_of_mem _ ha.ctx, rfl, rfl, rfl, rfl⟩)
            rintro e he (h | h)
            · exact hn2 e he h
            · simp [Act.evs] at h; subst h; cases he
          | false => intro hr; cases hr
      · unfold executeParallelInterleaved
        exact hblock _ _ _ _ (fun _ h => h) (NF.refl _) (fun j => ⟨ha.ctx, rfl, rfl, rfl, rfl⟩)

/-- the variables of a task outside parallel blocks -/
structure VarsTop (tasks : TaskMap) (gvars : GoMap Str) (T : Task) (vars : VarEnv) : Prop where
  own : T.vars = none → ∀ m, vars = .own m → GlobalsOk tasks gvars m
  global : vars = .global → T.vars = none

theorem VarsTop.at {T : Task} {vars : VarEnv} (h : VarsTop tasks gvars T vars) {F : Facts} {n : Str} {i : Nat} :
    VarsFor tasks gvars F T ⟨n, i, none⟩ vars := ⟨fun _ hj => (by cases hj), h.own, h.global⟩

theorem s_executePrompt {tn : Str} {T : Task} {n : Str} {i : Nat} {p : PromptRun} {vars : VarEnv}
    {k : Option Err → VarEnv → Prog} {P : Post} {F O : Facts} (hT : tasks.get? n = some T)
    (hv : VarsTop tasks gvars T vars) (hTv : T.vars = none → vars = .global)
    (hst : ∃ w, F (.itemStart n i w))
    (hi : itemAt tasks ⟨n, i, none⟩ = some (.prompt p))
    (hbad : ∀ e v F' O', S (k (some e) v) P F' O')
    (hok : ∀ v F' O', VarsTop tasks gvars T v → (T.vars = none → v = .global) → (∀ e, F e → F' e) → NF O O' →
      LeafDone F' c.dry ⟨n, i, none⟩ (.prompt p) → S (k none v) P F' O') :
    S (executePrompt c tn ⟨n, i, none⟩ p vars k) P F O := by
  unfold Bab.executePrompt
  refine s_sees hT hst hv.at (fun m F1 O1 hF1 hn1 hs => ?_)
  cases hp : placed p.line (interpolatePrompt p ⟨m, c.env⟩) with
  | error e =>
    exact hbad _ _ _ _
  | ok p' =>
    replace hp := of_placed_ok hp
    have hpn := interpolatePrompt_prompt hp
    simp only
    cases hdry : c.dry with
    | true =>
      simp only [if_true]
      refine s_note (show EmitOk _ _ _ _ _ (.wouldPrompt _ _) from ⟨hdry, p, hi, hpn⟩) (fun F2 O2 hF2 he hn2 => ?_)
      refine hok _ _ _ hv hTv (fun e he => hF2 e (hF1 e he)) (hn1.trans (hn2 (by simp [Trouble, Fails]))) ?_
      simp only [LeafDone, hdry, if_true]
      rw [← hpn]; exact he
    | false =>
      simp only [Bool.false_eq_true, if_false]
      have hgot : ∀ ans F2 O2, (∀ e, F1 e → F2 e) → NF O1 O2 → F2 (.answered ⟨n, i, none⟩ p.prompt (.ok ans)) →
          S (writeVar vars p.prompt ans (k none)) P F2 O2 := by
        intro ans F2 O2 hF2 hn2 he
        have hld : ∀ F3 : Facts, (∀ e, F2 e → F3 e) → LeafDone F3 c.dry ⟨n, i, none⟩ (.prompt p) := by
          intro F3 hF3
          simp only [LeafDone, hdry, Bool.false_eq_true, if_false]
          exact ⟨ans, hF3 _ he⟩
        cases hvars : vars with
        | own m0 =>
          have hTn : T.vars ≠ none := fun h => by have := hTv h; rw [hvars] at this; cases this
          refine hok _ _ _ ⟨fun h => absurd h hTn, fun h => by cases h⟩ (fun h => absurd h hTn)
            (fun e he => hF2 e (hF1 e he)) (hn1.trans hn2) (hld _ (fun _ h => h))
        | global =>
          have hTn : T.vars = none := hv.global hvars
          have hleak : Leaks tasks p.prompt := by
            refine ⟨n, T, i, p, hT, hTn, ?_, rfl⟩
            rw [← itemAt_none hT]; exact hi
          refine s_act ?_ ⟨hdry, hleak, _, he⟩ (fun _ => rfl) (fun _ F3 O3 _ hF3 hn3 => ?_)
          · rintro g ⟨g1, g2⟩
            refine ⟨fun k hk => ?_, fun h => absurd hleak (h _)⟩
            have hkp : k ≠ p.prompt := fun h => hk (h ▸ hleak)
            rw [GoMap.get?_set]
            split
            · rename_i h; first | exact absurd h hkp | exact absurd h.symm hkp
            · exact g1 k hk
          · exact hok _ _ _ ⟨fun _ m hm => (by cases hm), fun _ => hTn⟩ (fun _ => rfl)
              (fun e he => hF3 e (hF2 e (hF1 e he))) ((hn1.trans hn2).trans hn3) (hld _ hF3)
      cases htty : c.stdinTTY with
      | true =>
        simp only [if_true]
        intro r _
        refine ⟨trivial, ⟨hdry, htty, p, m, hi, hs, hp, hpn⟩, fun L _ => ?_⟩
        cases r with
        | error e => exact hbad _ _ _ _
        | ok ans =>
          refine hgot ans _ _ (fun e he => Or.inl he) ?_ (Or.inr (Or.inl (by simp [Act.evs, hpn])))
          rintro e he (h | h)
          · exact h
          · simp [Act.evs] at h; subst h; cases he
      | false =>
        simp only [Bool.false_eq_true, if_false]
        refine s_note ⟨hdry, htty, p, p', m, hi, hs, hp, hpn, rfl⟩ (fun F2 O2 hF2 he hn2 => ?_)
        cases hr : handleNonInteractive p' with
        | error e => exact hbad _ _ _ _
        | ok ans =>
          rw [hr] at he hn2
          exact hgot ans _ _ hF2 (hn2 (by simp [Trouble, Fails])) (hpn ▸ he)

theorem s_executeItem {rec : Rec} {path : List Str} (hrec : RecOk c tasks main gvars path rec)
    {T : Task} {n : Str} {i : Nat} {fr : Frame} {item : RunItem} {vars : VarEnv} {tenv : GoMap Str}
    {k : Option Err → VarEnv → Prog} {P : Post} {F O : Facts} (hpath : ∀ p ∈ path, F (.claimed p))
    (ha : Around c tasks main T tenv ⟨n, i, none⟩ fr F)
    (hv : VarsTop tasks gvars T vars) (hTv : T.vars = none → vars = .global)
    (hi : itemAt tasks ⟨n, i, none⟩ = some item)
    (hbad : ∀ e v F' O', S (k (some e) v) P F' O')
    (hok : ∀ v F' O', VarsTop tasks gvars T v → (T.vars = none → v = .global) → (∀ e, F e → F' e) → NF O O' →
      ItemDone F' c.dry n i item → S (k none v) P F' O') :
    S (executeItem c tasks rec n T fr i item vars tenv k) P F O := by
  have hT : tasks.get? n = some T := ha.task
  unfold Bab.executeItem
  split
  · exact s_executePrompt hT hv hTv ha.started hi hbad hok
  · rename_i items labels mode lim color silent output pl w ln
    cases hdry : c.dry with
    | true =>
      simp only [if_true]
      refine s_note (show EmitOk _ _ _ _ _ (.wouldParallel _) from ⟨hdry, _, _, _, _, _, _, _, _, _, _, hi⟩) (fun F2 O2 hF2 he hn2 => ?_)
      refine hok _ _ _ hv hTv hF2 (hn2 (by simp [Trouble, Fails])) ?_
      simp only [ItemDone, hdry, if_true]; exact he
    | false =>
      simp only [Bool.false_eq_true, if_false]
      refine s_readVars (loc := ⟨n, i, none⟩) hv.at (fun m F1 O1 hF1 hn1 _ hg => ?_)
      refine safe_bind (fun _ h => h) (s_executeParallel hrec (fun p hp => hF1 _ (hpath p hp)) hi (ha.mono hF1) hg) ?_
      intro F2 O2 r hF2 h
      cases r with
      | some e => exact hbad _ _ _ _
      | none => exact hok _ _ _ hv hTv (fun e he => hF2 e (hF1 e he)) (hn1.trans (h rfl).2) (h rfl).1
  · rename_i hnp hnpar
    refine safe_bind (fun _ h => h) (s_executeRunItem hrec hpath ha hv.at hi) ?_
    intro F2 O2 r hF2 h
    cases r with
    | some e => exact hbad _ _ _ _
    | none =>
      refine hok _ _ _ hv hTv hF2 (h rfl).2 ?_
      have := (h rfl).1
      cases item with
      | parallel a b cc d e f g hh ii ll => exact absurd rfl (hnpar a b cc d e f g hh ii ll)
      | _ => exact this

theorem s_executeItems {rec : Rec} {path : List Str} (hrec : RecOk c tasks main gvars path rec)
    {T : Task} {n : Str} {fr : Frame} {tenv : GoMap Str} (hT : tasks.get? n = some T) (h0 : 0 ∈ fr.ctx)
    (hcall : Called tasks main n fr.ovSilent fr.ovOutput fr.noColor)
    (items : List RunItem) (i : Nat) (vars : VarEnv) (ex sk : Nat) (F O : Facts)
    (hi : T.run.drop i = items) (hpath : ∀ p ∈ path, F (.claimed p))
    (henv : ∃ g m0, F (.taskVars n g m0 fr.call) ∧
      interpolateEnv ⟨m0, c.env⟩ (mergeEnvMaps [c.globalEnv, T.env]) = .ok tenv)
    (hdeps : ∀ d ∈ T.deps, F (.done d))
    (hprev : ∀ k item, k < i → T.run[k]? = some item → (∃ why, F (.itemSkip n k why)) ∨ ItemDone F c.dry n k item)
    (hv : VarsTop tasks gvars T vars) (hTv : T.vars = none → vars = .global) :
    S (executeItems c tasks rec n T fr tenv items i vars ex sk)
      (PostOf (fun F => (∀ d ∈ T.deps, F (.done d)) ∧
        ∀ i item, T.run[i]? = some item → (∃ why, F (.itemSkip n i why)) ∨ ItemDone F c.dry n i item) O) F O := by
  induction items generalizing i vars ex sk F O with
  | nil =>
    unfold Bab.executeItems
    split
    · intro hr; cases hr
    · intro _
      refine ⟨⟨hdeps, fun k item hk => ?_⟩, NF.refl _⟩
      have hle : T.run.length ≤ i := List.drop_eq_nil_iff.mp hi
      have hlt : k < T.run.length := (List.getElem?_eq_some_iff.mp hk).1
      exact hprev k item (by omega) hk
  | cons item rest ih =>
    have hlt : i < T.run.length := by
      rcases Nat.lt_or_ge i T.run.length with h | h
      · exact h
      · rw [List.drop_eq_nil_of_le h] at hi; cases hi
    have hd := List.drop_eq_getElem_cons hlt
    rw [hi] at hd
    simp only [List.cons.injEq] at hd
    have hget : T.run[i]? = some item := by rw [List.getElem?_eq_getElem hlt, hd.1]
    have hrest : T.run.drop (i + 1) = rest := hd.2.symm
    have hat : itemAt tasks ⟨n, i, none⟩ = some item := by rw [itemAt_none hT]; exact hget
    have hnext : ∀ vars ex sk F' O', (∀ e, F e → F' e) → NF O O' →
        ((∃ why, F' (.itemSkip n i why)) ∨ ItemDone F' c.dry n i item) →
        VarsTop tasks gvars T vars → (T.vars = none → vars = .global) →
        S (Bab.executeItems c tasks rec n T fr tenv rest (i + 1) vars ex sk)
        (PostOf (fun F => (∀ d ∈ T.deps, F (.done d)) ∧
        ∀ i item, T.run[i]? = some item → (∃ why, F (.itemSkip n i why)) ∨ ItemDone F c.dry n i item) O) F' O' := by
      intro vars ex sk F' O' hF hn hthis hv hTv
      obtain ⟨g, m0, e1, e2⟩ := henv
      refine safe_weaken (ih (i + 1) vars ex sk F' O' hrest (fun p hp => hF _ (hpath p hp)) ⟨g, m0, hF _ e1, e2⟩
        (fun d hd => hF _ (hdeps d hd)) ?_ hv hTv) ?_
      · intro k it hk hkget
        by_cases hki : k = i
        · subst hki
          rw [hget] at hkget; cases hkget
          exact hthis
        · rcases hprev k it (by omega) hkget with ⟨w, h⟩ | h
          · exact Or.inl ⟨w, hF _ h⟩
          · exact Or.inr (itemDone_mono hF h)
      · intro F2 O2 r hF2 h hr
        exact ⟨(h hr).1, hn.trans (h hr).2⟩
    unfold Bab.executeItems
    refine s_act trivial trivial (fun _ => rfl) (fun (b : Bool) F1 O1 _ hF1 hn1 => ?_)
    cases b with
    | true => intro hr; cases hr
    | false =>
      simp only [Bool.false_eq_true, if_false]
      split
      · refine s_note trivial (fun F2 O2 hF2 he hn2 => ?_)
        exact hnext _ _ _ _ _ (fun e he => hF2 e (hF1 e he)) (hn1.trans (hn2 (by simp [Trouble, Fails]))) (Or.inl ⟨_, he⟩) hv hTv
      · have hgo : ∀ w F2 O2, (∀ e, F1 e → F2 e) → NF O1 O2 →
            S (.note (.itemStart n i w) <|
            Bab.executeItem c tasks rec n T fr i item vars tenv fun r vars' =>
            .note (.itemEnd n i r) <|
            match r with
            | some e => .ret (some e)
            | none => Bab.executeItems c tasks rec n T fr tenv rest (i + 1) vars' (ex + 1) sk)
            (PostOf (fun F => (∀ d ∈ T.deps, F (.done d)) ∧
            ∀ i item, T.run[i]? = some item → (∃ why, F (.itemSkip n i why)) ∨ ItemDone F c.dry n i item) O) F2 O2 := by
          intro w F2 O2 hF2 hn2
          have hF02 : ∀ e, F e → F2 e := fun e he => hF2 e (hF1 e he)
          have hprev02 : ∀ k item, k < i → T.run[k]? = some item →
              (∃ why, F2 (.itemSkip n k why)) ∨ ItemDone F2 c.dry n k item := by
            intro k it hk hg
            rcases hprev k it hk hg with ⟨w, h⟩ | h
            · exact Or.inl ⟨w, hF02 _ h⟩
            · exact Or.inr (itemDone_mono hF02 h)
          refine s_note ⟨T, hT, fun d hd => hF02 _ (hdeps d hd), hprev02⟩ (fun F3 O3 hF3 hist hn3 => ?_)
          have hF03 : ∀ e, F e → F3 e := fun e he => hF3 e (hF02 e he)
          have hn03 : NF O O3 := (hn1.trans hn2).trans (hn3 (by simp [Trouble, Fails]))
          obtain ⟨g, m0, e1, e2⟩ := henv
          refine s_executeItem hrec (fun p hp => hF03 _ (hpath p hp)) ⟨hT, h0, ⟨w, hist⟩, g, m0, fr.call, hF03 _ e1, rfl, hcall, e2⟩ hv hTv hat ?_ ?_
          · intro e v F4 O4
            refine s_note trivial (fun F5 O5 _ _ _ hr => by cases hr)
          · intro v F4 O4 hv4 hTv4 hF4 hn4 hid
            refine s_note trivial (fun F5 O5 hF5 _ hn5 => ?_)
            exact hnext _ _ _ _ _ (fun e he => hF5 e (hF4 e (hF03 e he)))
              ((hn03.trans hn4).trans (hn5 (by simp [Trouble, Fails]))) (Or.inr (itemDone_mono hF5 hid)) hv4 hTv4
        split
        · exact hgo _ _ _ (fun _ h => h) (NF.refl _)
        · refine s_readVars (loc := ⟨n, i, none⟩) hv.at (fun m F2 O2 hF2 hn2 _ _ => ?_)
          cases he : placed item.line (evaluate item.cond ⟨m, c.env⟩) with
          | error e =>
            intro hr; cases hr
          | ok b =>
            replace he := of_placed_ok he
            cases b with
            | false =>
              refine s_note trivial (fun F3 O3 hF3 he hn3 => ?_)
              exact hnext _ _ _ _ _ (fun e he => hF3 e (hF2 e (hF1 e he)))
                ((hn1.trans hn2).trans (hn3 (by simp [Trouble, Fails]))) (Or.inl ⟨_, he⟩) hv hTv
            | true => exact hgo _ _ _ hF2 hn2

theorem s_executeTask {rec : Rec} {path : List Str} (hrec : RecOk c tasks main gvars path rec)
    {T : Task} {n : Str} {fr : Frame} {F O : Facts} (hT : tasks.get? n = some T) (h0 : 0 ∈ fr.ctx)
    (hcall : Called tasks main n fr.ovSilent fr.ovOutput fr.noColor) (hpath : ∀ p ∈ path, F (.claimed p))
    (hdeps : ∀ d ∈ T.deps, F (.done d))
    (hec : c.dry = false → isSilent [fr.ovSilent, T.silent, c.globalSilent] = false → ∃ b o, F (.echoTask n b o)) :
    S (executeTask c tasks rec n T fr) (PostOf (fun F => TaskDone F c.dry n T) O) F O := by
  unfold Bab.executeTask
  refine s_act trivial trivial (fun _ => rfl) (fun (g : GoMap Str) F1 O1 hg hF1 hn1 => ?_)
  cases hm : placed T.line (resolveVars T.vars g c.env) with
  | error e =>
    intro hr; cases hr
  | ok m =>
    replace hm := of_placed_ok hm
    refine s_note (show EmitOk _ _ _ _ _ (.taskVars _ _ _ _) from ⟨hg, hcall, T, hT,
      fun hd hs => (hec hd hs).imp fun _ h => h.imp fun _ h => hF1 _ h⟩) (fun F2 O2 hF2 he hn2 => ?_)
    cases htenv : placed T.line (interpolateEnv ⟨m, c.env⟩ (mergeEnvMaps [c.globalEnv, T.env])) with
    | error e =>
      intro hr; cases hr
    | ok tenv =>
      replace htenv := of_placed_ok htenv
      have hF02 : ∀ e, F e → F2 e := fun e he => hF2 e (hF1 e he)
      refine safe_weaken (s_executeItems hrec hT h0 hcall T.run 0 _ 0 0 F2 O2 rfl (fun p hp => hF02 _ (hpath p hp))
        ⟨g, m, he, htenv⟩ (fun d hd => hF02 _ (hdeps d hd)) (fun k item hk => absurd hk (by omega)) ?_ ?_) ?_
      · constructor
        · intro hv m' hm'
          simp [hv] at hm'
        · intro h
          cases hv : T.vars with
          | none => rfl
          | some x => simp [hv] at h
      · intro hv; simp [hv]
      · intro F3 O3 r hF3 h hr
        exact ⟨Or.inr (h hr).1, (hn1.trans (hn2 (by simp [Trouble, Fails]))).trans (h hr).2⟩

theorem s_runDeps {rec : Rec} {path : List Str} (hrec : RecOk c tasks main gvars path rec)
    {T : Task} {n : Str} {fr : Frame} {k : Prog} {P : Post} (hT : tasks.get? n = some T) (h0 : 0 ∈ fr.ctx)
    (hcall : Called tasks main n fr.ovSilent fr.ovOutput fr.noColor)
    (hbad : ∀ F' O' e, P F' O' (some e)) (ds : List Str) (i : Nat) (F O : Facts)
    (hpath : ∀ p ∈ path, F (.claimed p)) (hsub : ∀ d ∈ ds, d ∈ T.deps)
    (hprev : ∀ d ∈ T.deps, F (.done d) ∨ d ∈ ds)
    (hk : ∀ F' O', (∀ e, F e → F' e) → NF O O' → (∀ d ∈ T.deps, F' (.done d)) → S k P F' O') :
    S (runDeps rec n fr k ds i) P F O := by
  induction ds generalizing i F O with
  | nil => exact hk F O (fun _ h => h) (NF.refl _) (fun d hd => (hprev d hd).resolve_right (by simp))
  | cons d ds ih =>
    unfold Bab.runDeps
    refine safe_bind (fun _ h => h) (hrec _ false d F O h0 (.dep hcall hT (hsub d (List.mem_cons_self))) hpath) ?_
    intro F1 O1 r hF1 h
    cases r with
    | some e => exact s_note trivial (fun F2 O2 _ _ _ => hbad _ _ _)
    | none =>
      refine s_note trivial (fun F2 O2 hF2 _ hn2 => ?_)
      refine ih (i + 1) F2 O2 (fun p hp => hF2 _ (hF1 _ (hpath p hp))) (fun d hd => hsub d (List.mem_cons_of_mem _ hd)) ?_ ?_
      · intro x hx
        rcases hprev x hx with h' | h'
        · exact Or.inl (hF2 _ (hF1 _ h'))
        · rcases List.mem_cons.mp h' with rfl | h'
          · exact Or.inl (hF2 _ (h rfl).1)
          · exact Or.inr h'
      · intro F3 O3 hF3 hn3 hall
        exact hk F3 O3 (fun e he => hF3 e (hF2 e (hF1 e he)))
          (((h rfl).2.trans (hn2 (by simp [Trouble, Fails]))).trans hn3) hall

theorem s_runTaskBody {rec : Rec} {path : List Str} (hrec : RecOk c tasks main gvars path rec)
    {n : Str} {fr : Frame} {b : Bool} {F O : Facts} (h0 : 0 ∈ fr.ctx)
    (hcall : Called tasks main n fr.ovSilent fr.ovOutput fr.noColor) (hpath : ∀ p ∈ path, F (.claimed p)) :
    S (runTaskBody c tasks rec fr b n) (PostOf (fun F => F (.done n)) O) F O := by
  unfold Bab.runTaskBody
  cases hT : tasks.get? n with
  | none => intro hr; cases hr
  | some T =>
    simp only
    have hdone : ∀ F' O', TaskDone F' c.dry n T → NF O O' →
        S (.act (.setDone n) fun _ => .ret none) (PostOf (fun F => F (.done n)) O) F' O' := by
      intro F' O' htd hn x _
      refine ⟨trivial, ⟨T, hT, htd⟩, fun L _ _ => ⟨Or.inr (Or.inl (by simp [Act.evs])), ?_⟩⟩
      rintro e he (h | h)
      · exact hn e he h
      · simp [Act.evs] at h; subst h; cases he
    have hdeps : ∀ F' O', (∀ e, F e → F' e) → NF O O' →
        (c.dry = false → isSilent [fr.ovSilent, T.silent, c.globalSilent] = false → ∃ b o, F' (.echoTask n b o)) →
        S (Bab.runDeps rec n fr
        (if T.run = [] then .act (.setDone n) fun _ => .ret none
         else (Bab.executeTask c tasks rec n T fr).bind fun
          | some e => .ret (some e)
          | none => .act (.setDone n) fun _ => .ret none)
        T.deps 0) (PostOf (fun F => F (.done n)) O) F' O' := by
      intro F1 O1 hF1 hn1 hec
      refine s_runDeps hrec hT h0 hcall (fun _ _ _ hr => by cases hr) T.deps 0 F1 O1 (fun p hp => hF1 _ (hpath p hp))
        (fun _ h => h) (fun _ h => Or.inr h) ?_
      intro F2 O2 hF2 hn2 hall
      split
      · rename_i hrun
        refine hdone _ _ (Or.inr ⟨hall, fun i item hi => ?_⟩) (hn1.trans hn2)
        rw [hrun] at hi; simp at hi
      · refine safe_bind (fun _ h => h) (s_executeTask hrec hT h0 hcall
          (fun p hp => hF2 _ (hF1 _ (hpath p hp))) hall (fun hd hs => (hec hd hs).imp fun _ h => h.imp fun _ h => hF2 _ h)) ?_
        intro F3 O3 r hF3 h
        cases r with
        | some e => intro hr; cases hr
        | none => exact hdone _ _ (h rfl).1 ((hn1.trans hn2).trans (h rfl).2)
    have hgo : ∀ F' O', (∀ e, F e → F' e) → NF O O' →
        S (if (!c.dry && !isSilent [fr.ovSilent, T.silent, c.globalSilent]) = true then
        .note (.echoTask n b fr.out) (Bab.runDeps rec n fr
        (if T.run = [] then .act (.setDone n) fun _ => .ret none
         else (Bab.executeTask c tasks rec n T fr).bind fun
          | some e => .ret (some e)
          | none => .act (.setDone n) fun _ => .ret none)
        T.deps 0) else Bab.runDeps rec n fr
        (if T.run = [] then .act (.setDone n) fun _ => .ret none
         else (Bab.executeTask c tasks rec n T fr).bind fun
          | some e => .ret (some e)
          | none => .act (.setDone n) fun _ => .ret none)
        T.deps 0) (PostOf (fun F => F (.done n)) O) F' O' := by
      intro F1 O1 hF1 hn1
      split
      · rename_i hs
        simp only [Bool.and_eq_true, Bool.not_eq_true'] at hs
        refine s_note ⟨hs.1, T, _, _, _, hT, hcall, hs.2⟩ (fun F2 O2 hF2 hec hn2 => ?_)
        exact hdeps _ _ (fun e he => hF2 e (hF1 e he)) (hn1.trans (hn2 (by simp [Trouble, Fails]))) (fun _ _ => ⟨_, _, hec⟩)
      · rename_i hs
        exact hdeps _ _ hF1 hn1 (fun hd hsil => by simp [hd, hsil] at hs)
    split
    · exact hgo _ _ (fun _ h => h) (NF.refl _)
    · refine s_act trivial trivial (fun _ => rfl) (fun (g : GoMap Str) F1 O1 hg hF1 hn1 => ?_)
      cases placed T.line (evaluate T.cond ⟨g, c.env⟩) with
      | error e => intro hr; cases hr
      | ok v =>
        cases v with
        | false =>
          refine s_note (show EmitOk _ _ _ _ _ (.taskSkip _ _) from hg) (fun F2 O2 hF2 he hn2 => ?_)
          exact hdone _ _ (Or.inl ⟨g, he⟩) (hn1.trans (hn2 (by simp [Trouble, Fails])))
        | true =>
          refine s_note (show EmitOk _ _ _ _ _ (.taskRuns _ _) from hg) (fun F2 O2 hF2 he hn2 => ?_)
          exact hgo _ _ (fun e he => hF2 e (hF1 e he)) (hn1.trans (hn2 (by simp [Trouble, Fails])))

theorem path_le {path : List Str} (hn : path.Nodup) (hk : ∀ p ∈ path, tasks.get? p ≠ none) :
    path.length ≤ tasks.length := by
  have hsub : path ⊆ GoMap.keys tasks := fun p hp => GoMap.mem_keys_iff.mpr (hk p hp)
  have := (List.subperm_of_subset hn hsub).length_le
  simpa [GoMap.keys] using this

/-- the recursion of `runTask` never needs more fuel than there are tasks -/
theorem s_runTask (fuel : Nat) (path : List Str) (hn : path.Nodup) (hk : ∀ p ∈ path, tasks.get? p ≠ none)
    (hf : tasks.length + 2 ≤ fuel + path.length) (hpos : 0 < fuel) :
    RecOk c tasks main gvars path (runTask c tasks fuel) := by
  induction fuel generalizing path with
  | zero => omega
  | succ fuel ih =>
    intro fr b m F O h0 hcall hpath s hs
    refine ⟨trivial, trivial, fun L hL => ?_⟩
    cases s with
    | some s =>
      cases s with
      | done =>
        have hL : L = _ := hL
        subst hL
        intro _
        exact ⟨Or.inr (Or.inr rfl), by rintro e he (h | h); exact h; simp [Act.evs] at h⟩
      | running =>
        refine s_act trivial trivial (fun _ => rfl) (fun _ _ _ _ _ _ hr => by cases hr)
    | none =>
      have hs : ¬ F (.claimed m) := hs
      have hm : m ∉ path := fun h => hs (hpath m h)
      have hpost : ∀ F' O' r, PostOf (fun F => F (.done m)) O F' O' r →
          S (.note (.taskEnd m r) (.ret r)) (PostOf (fun F => F (.done m)) O) F' O' := by
        intro F' O' r h
        refine s_note trivial (fun F2 O2 hF2 _ hn2 hr => ?_)
        exact ⟨hF2 _ (h hr).1, (h hr).2.trans (hn2 (by subst hr; simp [Trouble, Fails]))⟩
      have hO : NF O (fun e => O e ∨ e ∈ Act.evs (.claim m) none) := by
        rintro e he (h | h)
        · exact h
        · simp [Act.evs] at h; subst h; cases he
      by_cases hT : tasks.get? m = none
      · unfold Bab.runTaskBody
        simp only [hT]
        exact hpost _ _ _ (fun hr => by cases hr)
      · have hlen' : (m :: path).length ≤ tasks.length := by
          refine path_le (List.nodup_cons.mpr ⟨hm, hn⟩) (fun p hp => ?_)
          rcases List.mem_cons.mp hp with rfl | hp
          · exact hT
          · exact hk p hp
        refine safe_bind (fun _ h => h) (s_runTaskBody (ih (m :: path) (List.nodup_cons.mpr ⟨hm, hn⟩) ?_ ?_ ?_) h0 hcall ?_) ?_
        · intro p hp
          rcases List.mem_cons.mp hp with rfl | hp
          · exact hT
          · exact hk p hp
        · simp only [List.length_cons]; omega
        · simp only [List.length_cons] at hlen'; omega
        · intro p hp
          rcases List.mem_cons.mp hp with rfl | hp
          · exact Or.inr (Or.inl (by simp [Act.evs]))
          · exact Or.inl (hpath p hp)
        · intro F' O' r hF h
          exact hpost _ _ _ (fun hr => ⟨(h hr).1, hO.trans (h hr).2⟩)

end run

/-- everything the logic yields about an invocation -/
theorem runner_safe {c : Cfg} {tasks : TaskMap} {main : Str} {gvars : GoMap Str} {s : State}
    (h : Reach (start c tasks gvars main) s) :
    Inv (GlobalsOk tasks gvars) s.sh ∧ (∀ id, .cancel id ∈ s.sh.trace → id ∈ s.sh.cancelled) ∧
      Reasons (rq c tasks main gvars) s.sh.trace ∧
      ∃ O : Facts, (∀ e ∈ s.sh.trace, Own e → O e) ∧
        Safe (rq c tasks main gvars) (GlobalsOk tasks gvars) s.prog
          (PostOf (fun F => F (.done main)) (fun _ => False)) (· ∈ s.sh.trace) O := by
  refine reach_safe (rq_mono c tasks main gvars) ?_ ?_ ?_ h
  · exact ⟨fun _ _ => rfl, fun _ => rfl⟩
  · exact postOf_mono (fun F F' hF h => hF _ h)
  · exact s_runTask (tasks.length + 2) [] List.nodup_nil (by simp) (by simp) (by omega) {} true main _ _
      (by simp) .main (by simp)

/-- every event of an invocation meets its requirement -/
theorem event_ok {c : Cfg} {tasks : TaskMap} {main : Str} {gvars : GoMap Str} {s : State}
    (h : Reach (start c tasks gvars main) s) {a b : List Ev} {e : Ev} (ht : s.sh.trace = a ++ e :: b) :
    EvOk c tasks main gvars (· ∈ a) e := by
  rcases (runner_safe h).2.2.1 a e b ht with hw | ⟨id, rfl⟩
  · cases hw with
    | abort t i j ctx id hid hc => exact ⟨id, hc⟩
    | act act x he hr hs hc =>
      cases act with
      | claim n =>
        cases x with
        | none => simp only [Act.evs, List.mem_singleton] at he; subst he; trivial
        | some s => simp [Act.evs] at he
      | setDone n => simp only [Act.evs, List.mem_singleton] at he; subst he; exact hr
      | start ctx loc spec =>
        obtain ⟨h0, h1, h2⟩ := hr
        cases x with
        | true =>
          simp only [Act.evs, List.mem_singleton] at he; subst he
          exact ⟨h1, h2, fun hcan => hs ctx loc spec rfl rfl ⟨0, h0, hcan⟩⟩
        | false =>
          simp only [Act.evs, List.mem_singleton] at he; subst he
          exact ⟨h1, spec, h2⟩
      | wait loc => simp only [Act.evs, List.mem_singleton] at he; subst he; exact hr
      | prompt loc p' =>
        simp only [Act.evs, List.mem_singleton] at he; subst he
        obtain ⟨h1, h2, p, m, h3, h4, h5, h6⟩ := hr
        exact ⟨h1, p, p', m, h3, h4, h5, h6, fun h => by rw [h2] at h; cases h⟩
      | tui => simp only [Act.evs, List.mem_singleton] at he; subst he; exact hr
      | emit e' =>
        simp only [Act.evs, List.mem_singleton] at he; subst he
        cases e with
        | answered loc y r =>
          obtain ⟨h1, h2, p, p', m, h3, h4, h5, h6, h7⟩ := hr
          exact ⟨h1, p, p', m, h3, h4, h5, h6, fun _ => h7⟩
        | claimed _ => exact hr.elim
        | done _ => exact hr.elim
        | cancel _ => exact hr.elim
        | procStart _ _ => exact hr.elim
        | procEnd _ _ => exact hr.elim
        | procFail _ => exact hr.elim
        | subAbort _ _ _ => exact hr.elim
        | tuiStart _ => exact hr.elim
        | _ => exact hr
      | status n => simp [Act.evs] at he
      | snapshot => simp [Act.evs] at he
      | globals => simp [Act.evs] at he
      | setGlobal k v => simp [Act.evs] at he
      | cancelled ctx => simp [Act.evs] at he
      | newCtx => simp [Act.evs] at he
      | fuel => simp [Act.evs] at he
  · trivial

end Safe
end Bab
