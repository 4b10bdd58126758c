import Verif.Proof.Claim
import Verif.Proof.Errs
/-
The functions of the runner in the logic of `Proof/Claim`: when the references between tasks decrease a rank and the
items of parallel blocks keep out of each other's way, no claim finds a task in execution.
-/

namespace Bab.Claim
open Bab Spec

theorem local_noCycle {e : Err} (h : e.Local) : NoCycle e := by
  induction e with
  | wrap w e ih => exact ih h
  | circularDep _ => exact h.elim
  | _ => trivial

theorem acyclic_none : Acyclic none := fun _ h => by cases h
theorem acyclic_some {e : Err} (h : NoCycle e) : Acyclic (some e) := fun _ h' => by cases h'; exact h

/-- knowledge after a program that ran to its end without an error -/
def Grow (kn kn' : Kn) : Prop := ∀ x, kn' x = kn x ∨ (kn x = some none ∧ kn' x = some (some .done))

theorem grow_refl (kn : Kn) : Grow kn kn := fun _ => Or.inl rfl

theorem grow_trans {a b d : Kn} (h1 : Grow a b) (h2 : Grow b d) : Grow a d := by
  intro x
  rcases h1 x with e1 | ⟨e1, e1'⟩ <;> rcases h2 x with e2 | ⟨e2, e2'⟩
  · exact Or.inl (e2.trans e1)
  · exact Or.inr ⟨e1 ▸ e2, e2'⟩
  · exact Or.inr ⟨e1, e2.trans e1'⟩
  · rw [e1'] at e2; cases e2

theorem grow_done {a b : Kn} (h : Grow a b) {x : Str} (hx : a x = some (some .done)) : b x = some (some .done) := by
  rcases h x with e | ⟨e, _⟩
  · rw [e, hx]
  · rw [hx] at e; cases e

def IsDone (kn : Kn) (x : Str) : Prop := kn x = some (some .done)

/-- everything that running `n` may claim is free or done -/
def Ready (tasks : TaskMap) (kn : Kn) (n : Str) : Prop :=
  ∀ x, Leads tasks (IsDone kn) n x → kn x = some none ∨ kn x = some (some .done)

theorem leads_mono {tasks : TaskMap} {P P' : Str → Prop} {a x : Str} (h : Leads tasks P a x) (hP : ∀ y, P' y → P y) :
    Leads tasks P' a x := by
  induction h with
  | self => exact .self
  | step _ hb hu ih => exact .step ih (fun h => hb (hP _ h)) hu

theorem leads_head {tasks : TaskMap} {P : Str → Prop} {a b x : Str} (h : Leads tasks P b x) (ha : ¬ P a) (hu : MayRun tasks a b) :
    Leads tasks P a x := by
  induction h with
  | self => exact .step .self ha hu
  | step _ hb hu' ih => exact .step ih hb hu'

theorem ready_grow {tasks : TaskMap} {kn kn' : Kn} {n : Str} (h : Ready tasks kn n) (hg : Grow kn kn') : Ready tasks kn' n := by
  intro x hx
  have := h x (leads_mono hx (fun y hy => grow_done hg hy))
  rcases hg x with e | ⟨_, e⟩
  · rw [e]; exact this
  · exact Or.inr e

section
variable {tasks : TaskMap} {rank : Str → Nat}

theorem callsIn_of_mem {t : TaskRun} {items : List RunItem} (h : .task t ∈ items) : CallsIn t.task items := by
  induction items with
  | nil => cases h
  | cons i r ih =>
    rcases List.mem_cons.mp h with rfl | h
    · exact .here rfl
    · exact .later (ih h)

theorem callsIn_of_block {n : Str} {items run : List RunItem} {labels mode lim color s o pl w ln}
    (h : .parallel items labels mode lim color s o pl w ln ∈ run) (hc : CallsIn n items) : CallsIn n run := by
  induction run with
  | nil => cases h
  | cons i r ih =>
    rcases List.mem_cons.mp h with rfl | h
    · exact .block hc
    · exact .later (ih h)

theorem mayRun_rank (hr : ∀ a b, Refers tasks a b → rank b < rank a) {a b : Str} (h : MayRun tasks a b) : rank b < rank a := by
  rcases h with h | ⟨T, items, labels, mode, lim, color, s, o, pl, w, ln, h1, h2, t, U, h3, h4, h5⟩
  · exact hr a b h
  · exact Nat.lt_trans (hr t.task b ⟨U, h4, Or.inl h5⟩) (hr a t.task ⟨T, h1, Or.inr (callsIn_of_block h2 (callsIn_of_mem h3))⟩)

theorem leads_rank (hr : ∀ a b, Refers tasks a b → rank b < rank a) {P : Str → Prop} {a b : Str} (h : Leads tasks P a b) :
    rank b ≤ rank a := by
  induction h with
  | self => exact Nat.le_refl _
  | step _ _ hu ih => exact Nat.le_trans (Nat.le_of_lt (mayRun_rank hr hu)) ih

/-- once `n` is claimed, what it uses is ready -/
theorem ready_child (hr : ∀ a b, Refers tasks a b → rank b < rank a) {kn : Kn} {n d : Str} (h : Ready tasks kn n)
    (hn : kn n = some none) (hu : MayRun tasks n d) : Ready tasks (put kn n (some .running)) d := by
  have hp : ∀ y, IsDone kn y → IsDone (put kn n (some .running)) y := by
    intro y hy
    unfold IsDone put at *
    by_cases hyn : y = n
    · subst hyn; rw [hn] at hy; cases hy
    · rw [if_neg hyn]; exact hy
  intro x hx
  have h1 : Leads tasks (IsDone kn) n x :=
    leads_head (leads_mono hx hp) (fun hd => by unfold IsDone at hd; rw [hn] at hd; cases hd) hu
  have hxn : x ≠ n := by
    rintro rfl
    have := leads_rank hr hx
    have := mayRun_rank hr hu
    omega
  unfold put
  rw [if_neg hxn]
  exact h x h1

/-! ## the functions of the runner -/

/-- what a call of `runTask` leaves behind -/
def TaskPost (kn : Kn) (n : Str) : Post := fun kn' r => Acyclic r ∧ (r = none → Grow kn kn' ∧ kn' n = some (some .done))

def RecOk (tasks : TaskMap) (rec : Rec) : Prop := ∀ fr b m kn, Ready tasks kn m → Wp (rec fr b m) kn (TaskPost kn m)

/-- what an item leaves behind -/
def ItemPost (kn : Kn) : Post := fun kn' r => Acyclic r ∧ (r = none → Grow kn kn')

theorem wp_note {e : Ev} {p : Prog} {kn : Kn} {Q : Post} (he : EvAcyclic e) (h : Wp p kn Q) : Wp (.note e p) kn Q :=
  ⟨he, fun _ _ => h⟩

theorem wp_err {e : Err} {kn kn' : Kn} (h : NoCycle e) : ItemPost kn kn' (some e) := ⟨acyclic_some h, fun h => by cases h⟩

theorem wp_ok (kn : Kn) : ItemPost kn kn none := ⟨acyclic_none, fun _ => grow_refl kn⟩

theorem wp_readVars {v : VarEnv} {k : GoMap Str → Prog} {kn : Kn} {Q : Post} (h : ∀ m, Wp (k m) kn Q) : Wp (readVars v k) kn Q := by
  cases v with
  | own m => exact h m
  | global => exact ⟨trivial, fun x _ => h x⟩

theorem wp_writeVar {v : VarEnv} {n x : Str} {k : VarEnv → Prog} {kn : Kn} {Q : Post} (h : ∀ v, Wp (k v) kn Q) :
    Wp (writeVar v n x k) kn Q := by
  cases v with
  | own m => exact h _
  | global => exact ⟨trivial, fun x _ => h _⟩

theorem wp_runProc {tn : Str} (fr : Frame) (loc : Loc) (spec : ProcSpec) (kn : Kn) : Wp (runProc tn fr loc spec) kn (ItemPost kn) := by
  have hf : ∀ code, Wp (Prog.act (.cancelled fr.ctx) fun (b : Bool) =>
        .ret (some (.wrap (.command tn spec.cmd) (if b then .canceled else .exit code)))) kn (ItemPost kn) := by
    intro code
    refine ⟨trivial, fun (b : Bool) _ => wp_err ?_⟩
    cases b <;> trivial
  refine ⟨trivial, fun b _ => ?_⟩
  cases b with
  | false => exact hf 127
  | true =>
    refine ⟨trivial, fun r _ => ?_⟩
    cases r with
    | none => exact wp_ok kn
    | some code => exact hf code

theorem wp_executeCommand (c : Cfg) (T : Task) (fr : Frame) (loc : Loc) (v : CommandRun) (vars : VarEnv) (tenv : GoMap Str) (kn : Kn) :
    Wp (executeCommand c T fr loc v vars tenv) kn (ItemPost kn) := by
  unfold executeCommand
  split
  · exact wp_err trivial
  · refine wp_readVars fun m => wp_note trivial ?_
    cases hp : placed v.line (prepareCommand c T v tenv m) with
    | error e =>
      exact wp_err (local_noCycle (placed_local hp prepareCommand_local))
    | ok x =>
      replace hp := of_placed_ok hp
      obtain ⟨text, env, dir⟩ := x
      dsimp only
      split
      · exact wp_note trivial (wp_ok kn)
      · split
        · exact wp_runProc _ _ _ _
        · exact wp_note trivial (wp_runProc _ _ _ _)

theorem wp_executeRunItem {rec : Rec} (hrec : RecOk tasks rec) (c : Cfg) (T : Task) (fr : Frame) (loc : Loc) (item : RunItem)
    (vars : VarEnv) (tenv : GoMap Str) (kn : Kn) (hk : ∀ t, item = .task t → Ready tasks kn t.task) :
    Wp (executeRunItem c rec T fr loc item vars tenv) kn (ItemPost kn) := by
  unfold executeRunItem
  split
  · exact wp_executeCommand _ _ _ _ _ _ _ _
  · next t =>
    split
    · exact wp_note trivial (wp_ok kn)
    · exact wp_mono (hrec _ _ _ _ (hk t rfl)) fun kn' r h => ⟨h.1, fun hr => (h.2 hr).1⟩
  · next l =>
    refine wp_readVars fun m => wp_note trivial ?_
    cases hp : placed l.line (interpolate l.log ⟨m, c.env⟩) with
    | error e =>
      exact wp_err (local_noCycle (placed_local hp interpolate_local))
    | ok text =>
      replace hp := of_placed_ok hp
      dsimp only
      split
      · exact wp_note trivial (wp_ok kn)
      · exact wp_note trivial (wp_ok kn)
  · exact wp_err trivial

theorem wp_preDeps {rec : Rec} (hrec : RecOk tasks rec) (fr : Frame) (ds : List Str) (seen : List Str) (k : List Str → Prog)
    (kn : Kn) (Q : Post) (hd : ∀ d ∈ ds, Ready tasks kn d) (hs : ∀ d ∈ seen, IsDone kn d)
    (hk : ∀ kn' seen', Grow kn kn' → (∀ d ∈ seen', IsDone kn' d) → (∀ d ∈ seen ++ ds, d ∈ seen') → Wp (k seen') kn' Q)
    (hQ : ∀ kn' e, NoCycle e → Q kn' (some e)) : Wp (preDeps rec fr ds seen k) kn Q := by
  induction ds generalizing seen kn with
  | nil => exact hk kn seen (grow_refl kn) hs (by simp)
  | cons d ds ih =>
    unfold preDeps
    split
    · next hin =>
      refine ih seen kn (fun x hx => hd x (List.mem_cons_of_mem _ hx)) hs ?_
      intro kn' seen' h1 h2 h3
      refine hk kn' seen' h1 h2 ?_
      intro x hx
      rcases List.mem_append.mp hx with hx | hx
      · exact h3 x (List.mem_append_left _ hx)
      · rcases List.mem_cons.mp hx with rfl | hx
        · exact h3 _ (List.mem_append_left _ hin)
        · exact h3 x (List.mem_append_right _ hx)
    · have hrd := hd d List.mem_cons_self
      have hcont : ∀ kn1, Grow kn kn1 → IsDone kn1 d → Wp (preDeps rec fr ds (d :: seen) k) kn1 Q := by
        intro kn1 hg hdone
        refine ih (d :: seen) kn1 (fun x hx => ready_grow (hd x (List.mem_cons_of_mem _ hx)) hg) ?_ ?_
        · intro x hx
          rcases List.mem_cons.mp hx with rfl | hx
          · exact hdone
          · exact grow_done hg (hs x hx)
        · intro kn' seen' h1 h2 h3
          refine hk kn' seen' (grow_trans hg h1) h2 ?_
          intro x hx
          apply h3
          simp only [List.mem_append, List.mem_cons] at hx ⊢
          rcases hx with hx | hx | hx
          · exact Or.inl (Or.inr hx)
          · exact Or.inl (Or.inl hx)
          · exact Or.inr hx
      refine ⟨?_, fun s hf => ?_⟩
      · show kn d ≠ none
        rcases hrd d .self with h | h <;> rw [h] <;> simp
      · have hf : kn d = some s := hf
        dsimp only [next]
        split
        · next hdone => exact hcont kn (grow_refl kn) (hf.trans (by rw [hdone]; rfl))
        · unfold Prog.andThen
          refine wp_bind (hrec _ _ _ _ hrd) ?_
          intro kn1 r hpost
          cases r with
          | none => exact hcont kn1 (hpost.2 rfl).1 (hpost.2 rfl).2
          | some e => exact hQ _ _ (hpost.1 e rfl)

theorem wp_preResolveDeps {rec : Rec} (hrec : RecOk tasks rec) (fr : Frame) (items : List RunItem) (seen : List Str) (k : Prog)
    (kn : Kn) (Q : Post) (hd : ∀ d, Prior tasks items d → Ready tasks kn d) (hs : ∀ d ∈ seen, IsDone kn d)
    (hk : ∀ kn', Grow kn kn' → (∀ d, Prior tasks items d → IsDone kn' d) → Wp k kn' Q)
    (hQ : ∀ kn' e, NoCycle e → Q kn' (some e)) : Wp (preResolveDeps tasks rec fr items seen k) kn Q := by
  induction items generalizing seen kn with
  | nil =>
    refine hk kn (grow_refl kn) ?_
    rintro d ⟨t, T, h, _⟩
    cases h
  | cons item items ih =>
    have hskip : (∀ t, item ≠ .task t) → Wp (preResolveDeps tasks rec fr items seen k) kn Q := by
      intro hne
      refine ih seen kn ?_ hs ?_
      · rintro d ⟨t, T, h, h'⟩
        exact hd d ⟨t, T, List.mem_cons_of_mem _ h, h'⟩
      · intro kn' hg hp
        refine hk kn' hg ?_
        rintro d ⟨t, T, h, h'⟩
        rcases List.mem_cons.mp h with h | h
        · exact absurd h.symm (hne t)
        · exact hp d ⟨t, T, h, h'⟩
    cases item with
    | task t =>
      unfold preResolveDeps
      cases hT : tasks.get? t.task with
      | none => exact hQ _ _ trivial
      | some T =>
        refine wp_preDeps hrec fr T.deps seen _ kn Q ?_ hs ?_ hQ
        · intro d hdep
          exact hd d ⟨t, T, List.mem_cons_self, hT, hdep⟩
        · intro kn1 seen1 hg hseen hall
          refine ih seen1 kn1 ?_ hseen ?_
          · rintro d ⟨u, U, h, h'⟩
            exact ready_grow (hd d ⟨u, U, List.mem_cons_of_mem _ h, h'⟩) hg
          · intro kn' hg' hp
            refine hk kn' (grow_trans hg hg') ?_
            rintro d ⟨u, U, h, h1, h2⟩
            rcases List.mem_cons.mp h with h | h
            · cases h
              rw [hT] at h1; cases h1
              exact grow_done hg' (hseen d (hall d (List.mem_append_right _ h2)))
            · exact hp d ⟨u, U, h, h1, h2⟩
    | command v => exact hskip (by intro t h; cases h)
    | log l => exact hskip (by intro t h; cases h)
    | prompt p => exact hskip (by intro t h; cases h)
    | parallel => exact hskip (by intro t h; cases h)

/-- items keep out of each other's way once the dependencies of the items are done -/
def BlockSeparate (tasks : TaskMap) (items : List RunItem) : Prop :=
  ∀ (i j : Nat) t u, i ≠ j → items[i]? = some (.task t) → items[j]? = some (.task u) →
      ∀ x, Leads tasks (Prior tasks items) t.task x → Leads tasks (Prior tasks items) u.task x → Prior tasks items x

theorem wp_runBlock (lim : Nat) (ctx : CtxPath) (name : Str) (i : Nat) (items : List RunItem) (labels : List Str)
    (child : Nat → RunItem → Prog) (kn : Kn)
    (hchild : ∀ j item kn, (∀ t, item = .task t → Ready tasks kn t.task) → Wp (child j item) kn (ItemPost kn))
    (hprior : ∀ d, Prior tasks items d → IsDone kn d) (hready : ∀ t, .task t ∈ items → Ready tasks kn t.task)
    (hsep : BlockSeparate tasks items) :
    Wp (runBlock lim ctx name i items labels child) kn (ItemPost kn) := by
  classical
  -- what item `j` may claim
  let reach (j : Fin items.length) (x : Str) : Prop := ∃ t, items.get j = .task t ∧ Leads tasks (IsDone kn) t.task x
  let k0 : Fin items.length → Kn := fun j x => if reach j x then kn x else none
  let rest : Kn := fun x => if ∃ j, reach j x then none else kn x
  have hk0 : ∀ j x s, k0 j x = some s → reach j x ∧ kn x = some s := by
    intro j x s h
    dsimp only [k0] at h
    split at h
    · next hr => exact ⟨hr, h⟩
    · cases h
  unfold runBlock
  refine ⟨rest, k0, k0, fun j => ItemPost (k0 j), ?_, ?_, ?_, ?_, ?_, ?_, acyclic_none, ?_⟩
  · intro x s
    constructor
    · intro h
      by_cases hr : ∃ j, reach j x
      · obtain ⟨j, hj⟩ := hr
        right; exact ⟨j, by dsimp only [k0]; rw [if_pos hj]; exact h⟩
      · left; dsimp only [rest]; rw [if_neg hr]; exact h
    · rintro (h | ⟨j, h⟩)
      · dsimp only [rest] at h
        split at h
        · cases h
        · exact h
      · exact (hk0 j x s h).2
  · intro j x s t h1 h2
    dsimp only [rest] at h1
    rw [if_pos ⟨j, (hk0 j x t h2).1⟩] at h1
    cases h1
  · intro a b hab x s t h1 h2
    obtain ⟨⟨ta, ea, la⟩, ha⟩ := hk0 a x s h1
    obtain ⟨⟨tb, eb, lb⟩, hb⟩ := hk0 b x t h2
    have hne : (a : Nat) ≠ b := fun h => hab (Fin.ext h)
    have ga : items[(a : Nat)]? = some (.task ta) := by rw [← ea]; exact List.getElem?_eq_getElem a.2
    have gb : items[(b : Nat)]? = some (.task tb) := by rw [← eb]; exact List.getElem?_eq_getElem b.2
    have := hprior x (hsep a b ta tb hne ga gb x (leads_mono la hprior) (leads_mono lb hprior))
    unfold IsDone at this
    rw [this] at ha hb
    exact ⟨(Option.some.inj ha).symm, (Option.some.inj hb).symm⟩
  · dsimp only
    rw [Safe.cnt_const]; simp
  · intro j
    refine ⟨rfl, wp_note trivial (wp_bind (hchild j (items.get j) (k0 j) ?_) ?_)⟩
    · intro t ht x hx
      have hr : ∀ y, Leads tasks (IsDone (k0 j)) t.task y → Leads tasks (IsDone kn) t.task y := by
        intro y hy
        induction hy with
        | self => exact .self
        | step _ hb hu ih =>
          refine .step ih (fun hd => hb ?_) hu
          unfold IsDone
          dsimp only [k0]
          rw [if_pos ⟨t, ht, ih⟩]; exact hd
      have h1 := hr x hx
      dsimp only [k0]
      rw [if_pos ⟨t, ht, h1⟩]
      exact hready t (ht ▸ List.get_mem items j) x h1
    · intro kn' r hpost
      refine wp_note hpost.1 ⟨?_, ?_⟩
      · intro e he
        cases r with
        | none => cases he
        | some e' => cases he; exact hpost.1 e' rfl
      · intro hr
        cases r with
        | none => exact hpost.2 rfl
        | some e' => cases hr
  · intro j kn' r h; exact h.1
  · intro kn' parts' first hj hc hend
    refine wp_note hc ⟨hc, ?_⟩
    rintro rfl x
    have hp : ∀ j, Grow (k0 j) (parts' j) := by
      intro j
      rcases hend j with ⟨r, h1, h2⟩ | h
      · cases r with
        | none => exact h1.2 rfl
        | some e => cases h2 rfl
      · rw [h]; exact grow_refl _
    cases hx : kn x with
    | none =>
      left
      cases hx' : kn' x with
      | none => rfl
      | some s =>
        rcases (hj x s).mp hx' with h | ⟨j, h⟩
        · dsimp only [rest] at h
          split at h
          · cases h
          · rw [hx] at h; cases h
        · have h0 : k0 j x = none := by dsimp only [k0]; split <;> first | exact hx | rfl
          rcases hp j x with e | ⟨e, _⟩
          · rw [e, h0] at h; cases h
          · rw [h0] at e; cases e
    | some s =>
      by_cases hr : ∃ j, reach j x
      · obtain ⟨j, hrj⟩ := hr
        have h0 : k0 j x = some s := by dsimp only [k0]; rw [if_pos hrj]; exact hx
        rcases hp j x with e | ⟨e, e'⟩
        · left; exact (hj x s).mpr (Or.inr ⟨j, e.trans h0⟩)
        · right
          rw [h0] at e
          exact ⟨e, (hj x _).mpr (Or.inr ⟨j, e'⟩)⟩
      · left
        refine (hj x s).mpr (Or.inl ?_)
        dsimp only [rest]; rw [if_neg hr]; exact hx

theorem wp_executeParallel {rec : Rec} (hrec : RecOk tasks rec) (c : Cfg) (name : Str) (T : Task) (fr : Frame) (i : Nat)
    (items : List RunItem) (labels : List Str) (mode : ParallelMode) (lim : Nat) (color silent output : Option Bool)
    (m tenv : GoMap Str) (kn : Kn) (hprior : ∀ d, Prior tasks items d → Ready tasks kn d)
    (hready : ∀ t, .task t ∈ items → Ready tasks kn t.task) (hsep : BlockSeparate tasks items) :
    Wp (executeParallel c tasks rec name T fr i items labels mode lim color silent output m tenv) kn (ItemPost kn) := by
  unfold executeParallel
  dsimp only
  refine wp_preResolveDeps hrec _ items [] _ kn (ItemPost kn) hprior (by simp) ?_ (fun kn' e he => wp_err he)
  intro kn1 hg hdone
  have hback : ∀ kn' r, ItemPost kn1 kn' r → ItemPost kn kn' r := fun kn' r h => ⟨h.1, fun hr => grow_trans hg (h.2 hr)⟩
  have hblock : ∀ ctx (f : Nat → Frame), Wp (runBlock lim ctx name i items labels fun j item =>
      executeRunItem c rec T (f j) ⟨name, i, some j⟩ item (.own m) tenv) kn1 (ItemPost kn) := by
    intro ctx f
    refine wp_mono (wp_runBlock lim ctx name i items labels _ kn1 ?_ hdone (fun t ht => ready_grow (hready t ht) hg) hsep) hback
    intro j item kn2 hk
    exact wp_executeRunItem hrec c T (f j) _ item (.own m) tenv kn2 hk
  split
  · exact wp_note trivial ⟨acyclic_none, fun _ => hg⟩
  · split
    · unfold executeParallelTUI
      dsimp only
      split
      · exact wp_note trivial (hblock _ _)
      · refine ⟨trivial, fun id _ => ⟨trivial, fun ok _ => ?_⟩⟩
        cases ok with
        | true => exact wp_note trivial (hblock _ _)
        | false => exact wp_err trivial
    · unfold executeParallelInterleaved
      exact wp_note trivial (hblock _ _)

theorem handle_noCycle {p : PromptRun} {e : Err} (h : handleNonInteractive p = .error e) : NoCycle e := by
  unfold handleNonInteractive at h
  repeat' split at h
  all_goals first | cases h; trivial | cases h

theorem wp_executePrompt {tn : Str} (c : Cfg) (loc : Loc) (p : PromptRun) (vars : VarEnv) (k : Option Err → VarEnv → Prog) (kn : Kn) (Q : Post)
    (hk : ∀ r vars', Acyclic r → Wp (k r vars') kn Q) : Wp (executePrompt c tn loc p vars k) kn Q := by
  unfold executePrompt
  refine wp_readVars fun m => wp_note trivial ?_
  cases hp : placed p.line (interpolatePrompt p ⟨m, c.env⟩) with
  | error e =>
    exact hk _ _ (acyclic_some (local_noCycle (placed_local hp interpolatePrompt_local)))
  | ok p' =>
    replace hp := of_placed_ok hp
    dsimp only
    have hgot : ∀ r : Except Err Str, (∀ e, r = .error e → NoCycle e) → Wp (match r with
          | .error e => k (some (.wrap (.prompt tn p.prompt) e)) vars
          | .ok ans => writeVar vars p.prompt ans (k none)) kn Q := by
      intro r hr
      cases r with
      | error e => exact hk _ _ (acyclic_some (hr e rfl))
      | ok ans => exact wp_writeVar fun v => hk _ _ acyclic_none
    split
    · exact wp_note trivial (hk _ _ acyclic_none)
    · split
      · refine ⟨trivial, fun r hf => hgot r ?_⟩
        intro e he
        rcases hf e he with rfl | ⟨_, rfl⟩ <;> trivial
      · refine wp_note ?_ (hgot _ fun e he => handle_noCycle he)
        cases hh : handleNonInteractive p' with
        | ok _ => trivial
        | error e => exact handle_noCycle hh

theorem wp_executeItem {rec : Rec} (hrec : RecOk tasks rec) (c : Cfg) (name : Str) (T : Task) (fr : Frame) (i : Nat) (item : RunItem)
    (vars : VarEnv) (tenv : GoMap Str) (k : Option Err → VarEnv → Prog) (kn : Kn) (Q : Post) (hT : tasks.get? name = some T)
    (hitem : item ∈ T.run) (hu : ∀ d, MayRun tasks name d → Ready tasks kn d) (hsep : Separate tasks)
    (hk : ∀ r vars' kn', ItemPost kn kn' r → Wp (k r vars') kn' Q) :
    Wp (executeItem c tasks rec name T fr i item vars tenv k) kn Q := by
  have hcalls : ∀ t, item = .task t → Ready tasks kn t.task := by
    rintro t rfl
    exact hu _ (Or.inl ⟨T, hT, Or.inr (callsIn_of_mem hitem)⟩)
  unfold executeItem
  split
  · exact wp_executePrompt _ _ _ _ _ _ _ fun r vars' hr => hk r vars' kn ⟨hr, fun _ => grow_refl kn⟩
  · split
    · exact wp_note trivial (hk _ _ _ (wp_ok kn))
    · refine wp_readVars fun m => wp_bind (wp_executeParallel hrec c name T fr i _ _ _ _ _ _ _ m tenv kn ?_ ?_ ?_) fun kn' r h => hk _ _ _ h
      · intro d hd
        exact hu d (Or.inr ⟨T, _, _, _, _, _, _, _, _, _, _, hT, hitem, hd⟩)
      · intro t ht
        exact hu _ (Or.inl ⟨T, hT, Or.inr (callsIn_of_block hitem (callsIn_of_mem ht))⟩)
      · exact hsep name T _ _ _ _ _ _ _ _ _ _ hT hitem
  · exact wp_bind (wp_executeRunItem hrec c T fr _ _ vars tenv kn hcalls) fun kn' r h => hk _ _ _ h

theorem wp_executeItems {rec : Rec} (hrec : RecOk tasks rec) (c : Cfg) (name : Str) (T : Task) (fr : Frame) (tenv : GoMap Str)
    (hT : tasks.get? name = some T) (hsep : Separate tasks) (items : List RunItem) (i : Nat) (vars : VarEnv) (ex sk : Nat) (kn : Kn)
    (hitems : ∀ x ∈ items, x ∈ T.run) (hu : ∀ d, MayRun tasks name d → Ready tasks kn d) :
    Wp (executeItems c tasks rec name T fr tenv items i vars ex sk) kn (ItemPost kn) := by
  induction items generalizing i vars ex sk kn with
  | nil =>
    unfold executeItems
    split
    · exact wp_err trivial
    · exact wp_ok kn
  | cons item rest ih =>
    have hrest : ∀ x ∈ rest, x ∈ T.run := fun x hx => hitems x (List.mem_cons_of_mem _ hx)
    have hgo : ∀ w, Wp (Prog.note (.itemStart name i w) <|
          executeItem c tasks rec name T fr i item vars tenv fun r vars' =>
            .note (.itemEnd name i r) <|
            match r with
            | some e => .ret (some e)
            | none => executeItems c tasks rec name T fr tenv rest (i + 1) vars' (ex + 1) sk) kn (ItemPost kn) := by
      intro w
      refine wp_note trivial (wp_executeItem hrec c name T fr i item vars tenv _ kn _ hT (hitems item List.mem_cons_self) hu hsep ?_)
      intro r vars' kn' hpost
      refine wp_note hpost.1 ?_
      cases r with
      | some e => exact wp_err (hpost.1 e rfl)
      | none =>
        have hg := hpost.2 rfl
        refine wp_mono (ih (i + 1) vars' (ex + 1) sk kn' hrest fun d hd => ready_grow (hu d hd) hg) ?_
        intro kn'' r h
        exact ⟨h.1, fun hr => grow_trans hg (h.2 hr)⟩
    unfold executeItems
    refine ⟨trivial, fun b _ => ?_⟩
    cases b with
    | true => exact wp_err trivial
    | false =>
      dsimp only
      rw [if_neg (by simp)]
      split
      · exact wp_note trivial (ih _ _ _ _ _ hrest hu)
      · split
        · exact hgo none
        · refine wp_readVars fun m => ?_
          cases he : placed item.line (evaluate item.cond ⟨m, c.env⟩) with
          | error e =>
            exact wp_err (show NoCycle e from local_noCycle (placed_local he evaluate_local))
          | ok b =>
            replace he := of_placed_ok he
            cases b with
            | false => exact wp_note trivial (ih _ _ _ _ _ hrest hu)
            | true => exact hgo (some m)

theorem wp_executeTask {rec : Rec} (hrec : RecOk tasks rec) (c : Cfg) (name : Str) (T : Task) (fr : Frame)
    (hT : tasks.get? name = some T) (hsep : Separate tasks) (kn : Kn) (hu : ∀ d, MayRun tasks name d → Ready tasks kn d) :
    Wp (executeTask c tasks rec name T fr) kn (ItemPost kn) := by
  unfold executeTask
  refine ⟨trivial, fun g _ => ?_⟩
  dsimp only [next]
  cases hm : placed T.line (resolveVars T.vars g c.env) with
  | error e =>
    exact wp_err (local_noCycle (placed_local hm resolveVars_local))
  | ok m =>
    replace hm := of_placed_ok hm
    refine wp_note trivial ?_
    cases he : placed T.line (interpolateEnv ⟨m, c.env⟩ (mergeEnvMaps [c.globalEnv, T.env])) with
    | error e =>
      exact wp_err (local_noCycle (placed_local he interpolateEnv_local))
    | ok tenv =>
      replace he := of_placed_ok he
      exact wp_executeItems hrec c name T fr tenv hT hsep _ _ _ _ _ kn (fun x h => h) hu

theorem wp_runDeps {rec : Rec} (hrec : RecOk tasks rec) (name : Str) (fr : Frame) (k : Prog) (ds : List Str) (i : Nat) (kn : Kn) (Q : Post)
    (hd : ∀ d ∈ ds, Ready tasks kn d) (hk : ∀ kn', Grow kn kn' → Wp k kn' Q) (hQ : ∀ kn' e, NoCycle e → Q kn' (some e)) :
    Wp (runDeps rec name fr k ds i) kn Q := by
  induction ds generalizing i kn with
  | nil => exact hk kn (grow_refl kn)
  | cons d ds ih =>
    unfold runDeps
    refine wp_bind (hrec _ _ _ _ (hd d List.mem_cons_self)) ?_
    intro kn' r hpost
    cases r with
    | none =>
      have hg := (hpost.2 rfl).1
      exact wp_note trivial (ih _ kn' (fun x hx => ready_grow (hd x (List.mem_cons_of_mem _ hx)) hg) fun kn'' h => hk kn'' (grow_trans hg h))
    | some e => exact wp_note (hpost.1 e rfl) (hQ _ _ (hpost.1 e rfl))

/-- what the body leaves behind: the task is done, the rest has only grown -/
def BodyPost (kn : Kn) (n : Str) : Post := fun kn' r => Acyclic r ∧ (r = none → ∃ kn1, Grow kn kn1 ∧ kn' = put kn1 n (some .done))

theorem wp_runTaskBody {rec : Rec} (hrec : RecOk tasks rec) (c : Cfg) (fr : Frame) (isMain : Bool) (name : Str) (hsep : Separate tasks)
    (kn : Kn) (hn : kn name = some (some .running)) (hu : ∀ d, MayRun tasks name d → Ready tasks kn d) :
    Wp (runTaskBody c tasks rec fr isMain name) kn (BodyPost kn name) := by
  have herr : ∀ kn' e, NoCycle e → BodyPost kn name kn' (some e) := fun kn' e he => ⟨acyclic_some he, fun h => by cases h⟩
  unfold runTaskBody
  cases hT : tasks.get? name with
  | none => exact herr _ _ trivial
  | some T =>
    dsimp only
    have hfin : ∀ kn1, Grow kn kn1 → Wp (Prog.act (.setDone name) fun _ => .ret none) kn1 (BodyPost kn name) := by
      intro kn1 hg
      refine ⟨?_, fun _ _ => ⟨acyclic_none, fun _ => ⟨kn1, hg, rfl⟩⟩⟩
      show kn1 name = some (some .running)
      rcases hg name with e | ⟨e, _⟩
      · rw [e, hn]
      · rw [hn] at e; cases e
    have hgo : Wp (if !c.dry && !isSilent [fr.ovSilent, T.silent, c.globalSilent] then
          Prog.note (.echoTask name isMain fr.out) (runDeps rec name fr
            (if T.run = [] then Prog.act (.setDone name) fun _ => .ret none
             else (executeTask c tasks rec name T fr).bind fun
              | some e => .ret (some e)
              | none => Prog.act (.setDone name) fun _ => .ret none) T.deps 0)
        else runDeps rec name fr
            (if T.run = [] then Prog.act (.setDone name) fun _ => .ret none
             else (executeTask c tasks rec name T fr).bind fun
              | some e => .ret (some e)
              | none => Prog.act (.setDone name) fun _ => .ret none) T.deps 0) kn (BodyPost kn name) := by
      have hdeps : Wp (runDeps rec name fr
            (if T.run = [] then Prog.act (.setDone name) fun _ => .ret none
             else (executeTask c tasks rec name T fr).bind fun
              | some e => .ret (some e)
              | none => Prog.act (.setDone name) fun _ => .ret none) T.deps 0) kn (BodyPost kn name) := by
        refine wp_runDeps hrec name fr _ _ _ kn _ (fun d hd => hu d (Or.inl ⟨T, hT, Or.inl hd⟩)) ?_ herr
        intro kn1 hg
        split
        · exact hfin kn1 hg
        · refine wp_bind (wp_executeTask hrec c name T fr hT hsep kn1 fun d hd => ready_grow (hu d hd) hg) ?_
          intro kn2 r hpost
          cases r with
          | some e => exact herr _ _ (hpost.1 e rfl)
          | none => exact hfin kn2 (grow_trans hg (hpost.2 rfl))
      split
      · exact wp_note trivial hdeps
      · exact hdeps
    split
    · exact hgo
    · refine ⟨trivial, fun g _ => ?_⟩
      dsimp only [next]
      cases he : placed T.line (evaluate T.cond ⟨g, c.env⟩) with
      | error e =>
        exact herr _ _ (show NoCycle e from local_noCycle (placed_local he evaluate_local))
      | ok b =>
        replace he := of_placed_ok he
        cases b with
        | false => exact wp_note trivial (hfin kn (grow_refl kn))
        | true => exact wp_note trivial hgo

theorem wp_runTask (hr : ∀ a b, Refers tasks a b → rank b < rank a) (hsep : Separate tasks) (c : Cfg) (fuel : Nat) :
    RecOk tasks (runTask c tasks fuel) := by
  induction fuel with
  | zero =>
    intro fr b m kn _
    exact ⟨trivial, fun _ _ => ⟨acyclic_some trivial, fun h => by cases h⟩⟩
  | succ fuel ih =>
    intro fr b name kn hready
    refine ⟨hready name .self, fun s hf => ?_⟩
    have hf : kn name = some s := hf
    cases s with
    | some s =>
      cases s with
      | done => exact ⟨acyclic_none, fun _ => ⟨grow_refl kn, hf⟩⟩
      | running => rcases hready name .self with h | h <;> rw [hf] at h <;> cases h
    | none =>
      refine wp_bind (wp_runTaskBody ih c fr b name hsep (put kn name (some .running)) (by simp [put]) fun d hd => ready_child hr hready hf hd) ?_
      intro kn' r hpost
      refine wp_note hpost.1 ⟨hpost.1, ?_⟩
      intro hrn
      obtain ⟨kn1, hg, rfl⟩ := hpost.2 hrn
      refine ⟨?_, by simp [put]⟩
      intro x
      unfold put
      by_cases hx : x = name
      · subst hx; right; exact ⟨hf, by simp⟩
      · rw [if_neg hx]
        have := hg x
        unfold put at this
        rwa [if_neg hx] at this

end

end Bab.Claim
