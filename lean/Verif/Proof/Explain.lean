import Verif.Spec.Explain
import Verif.Proof.Chain
import Verif.Proof.Sim
import Verif.Props.Interpolate
import Verif.Props.ResolveVars
import Verif.Props.Condition
import Verif.Props.Confine
import Mathlib.Data.List.TakeWhile
/-
C63: the errors that the functions of the runner return and put into events are explained.
-/

namespace Bab
open Spec

namespace Expl

/-! ### the helpers -/

/-- the error is about a variable that one of the texts uses -/
def Missing (P : Str → Prop) (e : Err) : Prop := ∃ x t, e = .varNotFound x ∧ ¬ IsEnv x ∧ P t ∧ Uses t x

theorem interpolate_missing {t : Str} {ctx : Ctx} {e : Err} {P : Str → Prop} (ht : P t)
    (h : interpolate t ctx = .error e) : Missing P e := by
  obtain ⟨ts, hr⟩ := reads_exists t
  obtain ⟨x, he, a, b, hab, hx, _⟩ := (C02_interpolate_error_iff ctx t ts hr e).mp h
  refine ⟨x, t, he, ?_, ht, ts, hr, by rw [hab]; simp⟩
  rintro ⟨y, rfl⟩
  exact absurd hx (by simp [value])

theorem interpolateEnv_missing {ctx : Ctx} {m : GoMap Str} {e : Err} {P : Str → Prop} (hm : ∀ q ∈ m, P q.2)
    (h : interpolateEnv ctx m = .error e) : Missing P e := by
  induction m with
  | nil => cases h
  | cons q r ih =>
    obtain ⟨k, v⟩ := q
    unfold interpolateEnv at h
    split at h
    · rename_i e' he
      cases h
      exact interpolate_missing (hm (k, v) List.mem_cons_self) he
    · split at h
      · rename_i e' he
        cases h
        exact ih (fun q hq => hm q (List.mem_cons_of_mem _ hq)) he
      · cases h

theorem mem_set {m : GoMap Str} {k v : Str} {q : Str × Str} (h : q ∈ m.set k v) : q = (k, v) ∨ q ∈ m := by
  induction m with
  | nil => simpa [GoMap.set] using h
  | cons a m ih =>
    obtain ⟨a1, a2⟩ := a
    rw [GoMap.set] at h
    split at h
    · rcases List.mem_cons.mp h with h | h
      · exact Or.inl h
      · exact Or.inr (List.mem_cons_of_mem _ h)
    · rcases List.mem_cons.mp h with h | h
      · exact Or.inr (h ▸ List.mem_cons_self)
      · exact (ih h).imp id (List.mem_cons_of_mem _)

theorem mem_foldl_set {l acc : GoMap Str} {q : Str × Str} (h : q ∈ l.foldl (fun a p => GoMap.set a p.1 p.2) acc) :
    q ∈ l ∨ q ∈ acc := by
  induction l generalizing acc with
  | nil => exact Or.inr h
  | cons a l ih =>
    rcases ih h with h | h
    · exact Or.inl (List.mem_cons_of_mem _ h)
    · rcases mem_set h with h | h
      · exact Or.inl (h ▸ List.mem_cons_self)
      · exact Or.inr h

theorem mem_merge {a b : GoMap Str} {q : Str × Str} (h : q ∈ mergeEnvMaps [a, b]) : q ∈ a ∨ q ∈ b := by
  unfold mergeEnvMaps at h
  simp only [List.foldl_cons, List.foldl_nil] at h
  rcases mem_foldl_set h with h | h
  · exact Or.inr h
  · rcases mem_foldl_set h with h | h
    · exact Or.inl h
    · cases h

theorem interpolateList_missing {ctx : Ctx} {ss : List Str} {e : Err} {P : Str → Prop} (hm : ∀ x ∈ ss, P x)
    (h : interpolateList ctx ss = .error e) : Missing P e := by
  induction ss with
  | nil => cases h
  | cons t ss ih =>
    unfold interpolateList at h
    split at h
    · rename_i e' he
      cases h
      exact interpolate_missing (hm t List.mem_cons_self) he
    · split at h
      · rename_i e' he
        cases h
        exact ih (fun q hq => hm q (List.mem_cons_of_mem _ hq)) he
      · cases h

theorem interpolateOpt_missing {ctx : Ctx} {t : Str} {e : Err} {P : Str → Prop} (ht : P t)
    (h : interpolateOpt ctx t = .error e) : Missing P e := by
  unfold interpolateOpt at h
  split at h
  · cases h
  · exact interpolate_missing ht h

theorem interpolatePrompt_missing {p : PromptRun} {ctx : Ctx} {e : Err} (h : interpolatePrompt p ctx = .error e) :
    Missing (ItemText (.prompt p)) e := by
  unfold interpolatePrompt at h
  simp only [Bind.bind, Except.bind, Pure.pure, Except.pure] at h
  split at h
  · rename_i e' he; cases h; exact interpolate_missing (.message p) he
  · split at h
    · rename_i e' he; cases h; exact interpolateOpt_missing (.default p) he
    · split at h
      · rename_i e' he; cases h; exact interpolateOpt_missing (.placeholder p) he
      · split at h
        · rename_i e' he; cases h; exact interpolateList_missing (fun x hx => .option p hx) he
        · split at h
          · rename_i e' he; cases h; exact interpolateList_missing (fun x hx => .defaults p hx) he
          · cases h

theorem evaluate_missing {t : Str} {ctx : Ctx} {e : Err} {P : Str → Prop} (ht : P t) (h : evaluate t ctx = .error e) :
    ∃ w e', e = .wrap w e' ∧ Missing P e' := by
  unfold evaluate at h
  split at h
  · cases h
  · split at h
    · rename_i e' he
      cases h
      exact ⟨_, _, rfl, interpolate_missing ht he⟩
    · cases h

theorem trimSpace_nil {t : Str} (h : trimSpace t = []) : ∀ x ∈ t, WhiteSpace x := by
  unfold trimSpace trimFunc at h
  rw [List.reverse_eq_nil_iff] at h
  replace h := List.dropWhile_eq_nil_iff.mp h
  intro x hx
  rw [← isGoSpace_iff]
  by_contra hn
  have hmem : ∃ y ∈ t.dropWhile isGoSpace, isGoSpace y ≠ true := by
    clear h
    induction t with
    | nil => cases hx
    | cons a t ih =>
      rw [List.dropWhile_cons]
      split
      · rename_i ha
        rcases List.mem_cons.mp hx with rfl | hx
        · exact absurd ha hn
        · exact ih hx
      · exact ⟨x, hx, hn⟩
  obtain ⟨y, hy, hy'⟩ := hmem
  exact hy' (h y (List.mem_reverse.mpr hy))

/-! ### programs whose errors are explained -/

/-- the answers of the actions that can occur when the events `S` have happened -/
def Fine (S : List Ev) : (a : Act) → a.Resp → Prop
  | .cancelled _, b => b = true → ∃ id, .cancel id ∈ S
  | .prompt _ _, r => ∀ e, r = .error e → e = .canceled ∨ ∃ reason, e = .prompt reason
  | .fuel, _ => False
  | _, _ => True

/-- every error that the program returns or puts into an event, when started after the events `S`, satisfies `ψ` -/
def Ok (ψ : List Ev → Err → Prop) : Prog → List Ev → Prop
  | .ret r, S => ∀ e, r = some e → ψ S e
  | .act a k, S => ∀ x S', S ⊆ S' → Fine S' a x →
      (∀ v ∈ a.evs x, ∀ e, failure v = some e → ψ S' e) ∧ Ok ψ (k x) (S' ++ a.evs x)
  | .par _ _ _ _ _ st ps k, S => (∀ e, st.first = some e → ψ S e) ∧ (∀ i, Ok ψ (ps i) S) ∧
      ∀ r S', S ⊆ S' → (∀ e, r = some e → ψ S' e) → Ok ψ (k r) S'

/-- explanations stay valid -/
def Mono (ψ : List Ev → Err → Prop) : Prop := ∀ S S' e, S ⊆ S' → ψ S e → ψ S' e

section
variable {ψ : List Ev → Err → Prop}

theorem Ok.mono (hmono : Mono ψ) {p : Prog} {S S' : List Ev} (hs : S ⊆ S') (h : Ok ψ p S) : Ok ψ p S' := by
  induction p generalizing S S' with
  | ret r => exact fun e he => hmono _ _ _ hs (h e he)
  | act a k _ => exact fun x S'' hs' hf => h x S'' (hs.trans hs') hf
  | par lim ctx t it n st ps k ihp _ =>
    exact ⟨fun e he => hmono _ _ _ hs (h.1 e he), fun i => ihp i hs (h.2.1 i), fun r S'' hs' hr => h.2.2 r S'' (hs.trans hs') hr⟩

theorem Ok.bind {p : Prog} {f : Option Err → Prog} {S : List Ev} (h : Ok ψ p S)
    (hf : ∀ r S', S ⊆ S' → (∀ e, r = some e → ψ S' e) → Ok ψ (f r) S') : Ok ψ (p.bind f) S := by
  induction p generalizing S with
  | ret r => exact hf r S (List.Subset.refl _) h
  | act a k ih =>
    intro x S' hs hfi
    obtain ⟨h1, h2⟩ := h x S' hs hfi
    exact ⟨h1, ih x h2 fun r S'' hs' hr => hf r S'' ((hs.trans (List.subset_append_left _ _)).trans hs') hr⟩
  | par lim ctx t it n st ps k _ ihk =>
    exact ⟨h.1, h.2.1, fun r S' hs hr => ihk r (h.2.2 r S' hs hr) fun r' S'' hs' hr' => hf r' S'' (hs.trans hs') hr'⟩

theorem step (hmono : Mono ψ) {p p' : Prog} {σ σ' : Shared} (h : Step p σ p' σ') (hp : Ok ψ p σ.trace)
    (hc : ∀ id ∈ σ.cancelled, .cancel id ∈ σ.trace) (hpend : ¬ Sim.Pending p) :
    Ok ψ p' σ'.trace ∧ (∀ id ∈ σ'.cancelled, .cancel id ∈ σ'.trace) ∧
    ∃ es, σ'.trace = σ.trace ++ es ∧ ∀ v ∈ es, ∀ e, failure v = some e → ψ σ.trace e := by
  induction h with
  | @act a k σ x hx =>
    have hfine : Fine σ.trace a x := by
      cases a with
      | cancelled c =>
        intro hb
        have hb' : σ.isCancelled c = true := by
          have hx' : x = σ.isCancelled c := hx
          rw [← hx']; exact hb
        unfold Shared.isCancelled at hb'
        rw [List.any_eq_true] at hb'
        obtain ⟨id, _, hid⟩ := hb'
        exact ⟨id, hc id (by simpa using hid)⟩
      | prompt l p => exact hx
      | fuel => exact absurd trivial hpend
      | _ => trivial
    obtain ⟨h1, h2⟩ := hp x _ (List.Subset.refl _) hfine
    refine ⟨h2, ?_, _, rfl, h1⟩
    have hcan : (a.apply σ x).cancelled = σ.cancelled := by
      cases a with
      | claim n => cases x <;> rfl
      | _ => rfl
    intro id hid
    rw [hcan] at hid
    exact List.mem_append_left _ (hc id hid)
  | acquire i h hs => exact ⟨hp, hc, [], by simp, by simp⟩
  | abort i h hl hcan =>
    refine ⟨(⟨fun e he => hmono _ _ _ (List.subset_append_left _ _) (hp.1 e he), fun j => Ok.mono hmono (List.subset_append_left _ _) (hp.2.1 j), fun r S' hs hr => hp.2.2 r S' ((List.subset_append_left _ _).trans hs) hr⟩), fun id hid => List.mem_append_left _ (hc id hid), _, rfl, ?_⟩
    intro v hv e he
    rw [List.mem_singleton] at hv
    subst hv
    cases he
  | @child lim ctx t it n st ps k σ p' σ' i h hs ih =>
    obtain ⟨h1, h2, es, h3, h4⟩ := ih (hp.2.1 i) hc (fun hh => hpend ⟨i, hh⟩)
    have hsub : σ.trace ⊆ σ'.trace := by rw [h3]; exact List.subset_append_left _ _
    refine ⟨⟨fun e he => hmono _ _ _ hsub (hp.1 e he), fun j => ?_, fun r S' hs hr => hp.2.2 r S' (hsub.trans hs) hr⟩, h2, es, h3, h4⟩
    unfold upd
    split
    · exact h1
    · exact Ok.mono hmono hsub (hp.2.1 j)
  | @finish lim ctx t it n st ps k σ r i h hr =>
    refine ⟨⟨fun e he => ?_, hp.2.1, hp.2.2⟩, hc, [], by simp, by simp⟩
    have hi := hp.2.1 i
    rw [hr] at hi
    simp only [once] at he
    split at he
    · rename_i e' hf
      cases he
      exact hp.1 _ hf
    · exact hi e he
  | release i h => exact ⟨hp, hc, [], by simp, by simp⟩
  | wgDone i h => exact ⟨hp, hc, [], by simp, by simp⟩
  | join h => exact ⟨hp.2.2 _ _ (List.Subset.refl _) hp.1, hc, [], by simp, by simp⟩

/-! ### simple programs -/

theorem Ok.retNone {S : List Ev} : Ok ψ (.ret none) S := fun e he => by cases he

theorem Ok.err {S : List Ev} {e : Err} (h : ψ S e) : Ok ψ (.ret (some e)) S := fun e' he => by cases he; exact h

theorem Ok.note {v : Ev} {p : Prog} {S : List Ev} (hv : ∀ S', S ⊆ S' → ∀ e, failure v = some e → ψ S' e)
    (h : ∀ S', S ⊆ S' → Ok ψ p S') : Ok ψ (.note v p) S := by
  intro x S' hs _
  refine ⟨fun w hw => ?_, h _ (hs.trans (List.subset_append_left _ _))⟩
  simp only [Act.evs, List.mem_singleton] at hw
  subst hw
  exact hv S' hs

theorem Ok.mark {v : Ev} {p : Prog} {S : List Ev} (hv : failure v = none) (h : ∀ S', S ⊆ S' → Ok ψ p S') : Ok ψ (.note v p) S :=
  .note (fun S' _ e he => by rw [hv] at he; cases he) h

theorem Ok.act {a : Act} {k : a.Resp → Prog} {S : List Ev} (he : ∀ x, ∀ v ∈ a.evs x, failure v = none)
    (h : ∀ x S', S ⊆ S' → Fine S' a x → Ok ψ (k x) (S' ++ a.evs x)) : Ok ψ (.act a k) S :=
  fun x S' hs hf => ⟨fun v hv e hx => (by rw [he x v hv] at hx; cases hx), h x S' hs hf⟩

theorem Ok.quiet {a : Act} {k : a.Resp → Prog} {S : List Ev} (he : ∀ x, a.evs x = [])
    (h : ∀ x S', S ⊆ S' → Fine S' a x → Ok ψ (k x) S') : Ok ψ (.act a k) S :=
  .act (fun x v hv => by rw [he x] at hv; cases hv) fun x S' hs hf => by
    rw [he x, List.append_nil]
    exact h x S' hs hf

theorem Ok.readVars {v : VarEnv} {k : GoMap Str → Prog} {S : List Ev} (h : ∀ m S', S ⊆ S' → Ok ψ (k m) S') :
    Ok ψ (readVars v k) S := by
  cases v with
  | own m => exact h m S (List.Subset.refl _)
  | global => exact .quiet (fun _ => rfl) fun x S' hs _ => h x S' hs

theorem Ok.writeVar {v : VarEnv} {n x : Str} {k : VarEnv → Prog} {S : List Ev} (h : ∀ m S', S ⊆ S' → Ok ψ (k m) S') :
    Ok ψ (writeVar v n x k) S := by
  cases v with
  | own m => exact h _ S (List.Subset.refl _)
  | global => exact .quiet (fun _ => rfl) fun _ S' hs _ => h _ S' hs

end

/-! ### the functions of the runner -/

theorem explained_mono (c : Cfg) (tasks : TaskMap) (main : Str) : Mono (Explained c tasks main) := by
  intro S S' e hs h
  induction e with
  | wrap w e ih => exact ih h
  | exit code =>
    obtain ⟨loc, h | h⟩ := h
    · exact ⟨loc, Or.inl (hs h)⟩
    · exact ⟨loc, Or.inr ⟨hs h.1, h.2⟩⟩
  | canceled =>
    obtain ⟨id, h⟩ | ⟨loc, n, h⟩ := h
    · exact Or.inl ⟨id, hs h⟩
    · exact Or.inr ⟨loc, n, hs h⟩
  | prompt reason => obtain ⟨loc, n, h⟩ := h; exact ⟨loc, n, hs h⟩
  | tui => exact hs h
  | _ => exact h

section
variable {c : Cfg} {tasks : TaskMap} {main : Str}

local notation "G" => Ok (Explained c tasks main)

/-- the place in front changes nothing -/
theorem placed_explained {e : Err} {S : List Ev} (h : Explained c tasks main S e) (l : Nat) : Explained c tasks main S (e.placed l) := by
  induction e with
  | wrap w e ih => exact ih h
  | _ => exact h

theorem of_missing {n : Str} {T : Task} (hn : Needs tasks main n) (hT : tasks.get? n = some T) {P : Str → Prop} (hP : ∀ t, P t → TextOf c T t)
    {e : Err} {S : List Ev} (h : Missing P e) : Explained c tasks main S e := by
  obtain ⟨x, t, rfl, h1, h2, h3⟩ := h
  exact ⟨h1, n, T, t, hn, hT, hP t h2, h3⟩

theorem runProc {tn : Str} {fr : Frame} {loc : Loc} {spec : ProcSpec} {S : List Ev} : G (Bab.runProc tn fr loc spec) S := by
  have hf : ∀ (code : Nat) S, ((∃ loc, .procEnd loc (some code) ∈ S ∨ .procFail loc ∈ S ∧ code = 127)) →
      G (.act (.cancelled fr.ctx) fun (b : Bool) =>
        .ret (some (.wrap (.command tn spec.cmd) (if b then .canceled else .exit code)))) S := by
    intro code S hS
    refine .quiet (fun _ => rfl) fun b S' hs hfine => .err ?_
    cases b with
    | true => exact Or.inl (hfine rfl)
    | false =>
      obtain ⟨loc, h | h⟩ := hS
      · exact ⟨loc, Or.inl (hs h)⟩
      · exact ⟨loc, Or.inr ⟨hs h.1, h.2⟩⟩
  refine .act ?_ fun started S' hs _ => ?_
  · intro x v hv
    cases x <;> (simp only [Act.evs, List.mem_singleton] at hv; subst hv; rfl)
  · cases started with
    | true =>
      refine .act ?_ fun r S'' hs' _ => ?_
      · intro x v hv
        simp only [Act.evs, List.mem_singleton] at hv; subst hv; rfl
      · cases r with
        | none => exact .retNone
        | some code => exact hf code _ ⟨loc, Or.inl (by simp [Act.evs])⟩
    | false => exact hf 127 _ ⟨loc, Or.inr ⟨by simp [Act.evs], rfl⟩⟩

theorem resolveDir {n : Str} {T : Task} (hn : Needs tasks main n) (hT : tasks.get? n = some T) {d : Str} (hd : TextOf c T d)
    {ctx : Ctx} {e : Err} {S : List Ev} (h : Bab.resolveDir c T d ctx = .error e) : Explained c tasks main S e := by
  have htext : TextOf c T (if (if d = [] then T.dir else d) = [] then c.globalDir else if d = [] then T.dir else d) := by
    by_cases h1 : d = []
    · rw [if_pos h1]
      split
      · exact .globalDir
      · exact .dir
    · rw [if_neg h1, if_neg h1]
      exact hd
  unfold Bab.resolveDir at h
  simp only at h
  revert htext h
  generalize (if (if d = [] then T.dir else d) = [] then c.globalDir else if d = [] then T.dir else d) = d'
  intro htext h
  split at h
  · cases h
  · split at h
    · rename_i e' he
      cases h
      exact of_missing (S := S) (e := e') hn hT (fun _ h => h) (interpolate_missing htext he)
    · split at h
      · cases h
      · rename_i hst
        cases h
        exact hst

/-- what the walk needs to know about the task whose items run -/
structure Here (c : Cfg) (tasks : TaskMap) (main n : Str) (T : Task) : Prop where
  need : Needs tasks main n
  get : tasks.get? n = some T
  name : T.name = n

theorem executeCommand {n : Str} {T : Task} (H : Here c tasks main n T) {fr : Frame} {loc : Loc} {v : CommandRun} {vars : VarEnv}
    {tenv : GoMap Str} {S : List Ev} (hi : ItemOf T (.command v)) (hne : v.cmd ≠ []) (htenv : ∀ q ∈ tenv, TextOf c T q.2) :
    G (Bab.executeCommand c T fr loc v vars tenv) S := by
  unfold Bab.executeCommand
  split
  · rename_i hs
    refine .err ?_
    rw [H.name]
    exact ⟨H.need, T, v, H.get, hi, hne, trimSpace_nil hs⟩
  · refine .readVars fun m S1 hs1 => .mark rfl fun S2 hs2 => ?_
    split
    · rename_i e0 he0
      obtain ⟨e, he, rfl⟩ := of_placed_error he0
      refine .err (placed_explained ?_ _)
      unfold prepareCommand at he
      split at he
      · rename_i e' he'
        cases he
        exact of_missing H.need H.get (fun _ h => h) (interpolate_missing (.item hi (.cmd v)) he')
      · split at he
        · rename_i e' he'
          cases he
          refine of_missing H.need H.get (fun _ h => h) (interpolateEnv_missing ?_ he')
          intro q hq
          rcases mem_merge hq with hq | hq
          · exact htenv q hq
          · exact .item hi (.env v hq)
        · split at he
          · rename_i e' he'
            cases he
            exact resolveDir (S := S2) (e := e') H.need H.get (.item hi (.dir v)) he'
          · cases he
    · split
      · exact .mark rfl fun _ _ => .retNone
      · simp only
        split
        · exact runProc
        · exact .mark rfl fun _ _ => runProc

/-- recursive calls for needed tasks are fine -/
def RecOk (c : Cfg) (tasks : TaskMap) (main : Str) (rec : Rec) : Prop :=
  ∀ fr b n S, Needs tasks main n → Ok (Explained c tasks main) (rec fr b n) S

variable {rec : Rec} (hrec : RecOk c tasks main rec)
include hrec

theorem executeRunItem {n : Str} {T : Task} (H : Here c tasks main n T) (hready : Ready tasks main) {fr : Frame} {loc : Loc} {item : RunItem}
    {vars : VarEnv} {tenv : GoMap Str} {S : List Ev} (hi : ItemOf T item)
    (hk : (∃ v, item = .command v) ∨ (∃ t, item = .task t) ∨ ∃ l, item = .log l) (ht : ∀ t, item = .task t → Needs tasks main t.task)
    (htenv : ∀ q ∈ tenv, TextOf c T q.2) : G (Bab.executeRunItem c rec T fr loc item vars tenv) S := by
  unfold Bab.executeRunItem
  rcases hk with ⟨v, rfl⟩ | ⟨t, rfl⟩ | ⟨l, rfl⟩
  · exact executeCommand H hi (hready.commands n T v H.need H.get hi) htenv
  · simp only
    split
    · exact .mark rfl fun _ _ => .retNone
    · exact hrec _ _ _ _ (ht t rfl)
  · refine .readVars fun m S1 hs1 => .mark rfl fun S2 hs2 => ?_
    split
    · rename_i e0 he0
      obtain ⟨e, he, rfl⟩ := of_placed_error he0
      exact .err (placed_explained (of_missing H.need H.get (fun _ h => h) (interpolate_missing (.item hi (.log l)) he)) _)
    · split <;> exact .mark rfl fun _ _ => .retNone

theorem preDeps {fr : Frame} {ds seen : List Str} {k : List Str → Prog} {S : List Ev} (hd : ∀ d ∈ ds, Needs tasks main d)
    (hk : ∀ s S', S ⊆ S' → G (k s) S') : G (preDeps rec fr ds seen k) S := by
  induction ds generalizing seen S with
  | nil => exact hk seen S (List.Subset.refl _)
  | cons d ds ih =>
    have ih := fun seen S' (hs : S ⊆ S') => ih (seen := seen) (S := S') (fun x hx => hd x (List.mem_cons_of_mem _ hx))
      (fun s S'' hs' => hk s S'' (hs.trans hs'))
    unfold Bab.preDeps
    split
    · exact ih _ _ (List.Subset.refl _)
    · refine .quiet (fun _ => rfl) fun s S1 hs1 _ => ?_
      split
      · exact ih _ _ hs1
      · refine .bind (hrec _ _ _ _ (hd d List.mem_cons_self)) fun r S2 hs2 hr => ?_
        cases r with
        | none => exact ih _ _ (hs1.trans hs2)
        | some e => exact .err (hr e rfl)

theorem preResolveDeps (hready : Ready tasks main) {fr : Frame} {items : List RunItem} {seen : List Str} {k : Prog} {S : List Ev}
    (hi : ∀ t, .task t ∈ items → Needs tasks main t.task) (hk : ∀ S', S ⊆ S' → G k S') :
    G (preResolveDeps tasks rec fr items seen k) S := by
  induction items generalizing seen S with
  | nil => exact hk S (List.Subset.refl _)
  | cons item items ih =>
    have ih := fun seen S' (hs : S ⊆ S') => ih (seen := seen) (S := S') (fun t ht => hi t (List.mem_cons_of_mem _ ht))
      (fun S'' hs' => hk S'' (hs.trans hs'))
    cases item with
    | task t =>
      have ht := hi t List.mem_cons_self
      obtain ⟨T, hT, -⟩ := hready.exist _ ht
      unfold Bab.preResolveDeps
      rw [hT]
      exact preDeps hrec (fun d hd => Sim.needs_closed ht hT (Or.inl hd)) (fun s S' hs => ih s S' hs)
    | _ => exact ih seen S (List.Subset.refl _)

omit hrec in
theorem runBlock {lim : Nat} {ctx : CtxPath} {name : Str} {i : Nat} {items : List RunItem} {labels : List Str}
    {child : Nat → RunItem → Prog} {S : List Ev} (h : ∀ (j : Nat) item S', item ∈ items → G (child j item) S') :
    G (Bab.runBlock lim ctx name i items labels child) S := by
  refine ⟨fun e he => (by cases he), fun j => ?_, fun r S' hs hr => ?_⟩
  · refine .mark rfl fun S1 _ => .bind (h j _ _ (List.get_mem _ _)) fun r S2 _ hr => ?_
    refine .note (fun S3 hs3 e he => explained_mono _ _ _ _ _ _ hs3 (hr e he)) fun S3 hs3 => ?_
    intro e he
    cases r with
    | none => cases he
    | some e' =>
      cases he
      exact explained_mono _ _ _ _ _ e' hs3 (hr e' rfl)
  · exact .note (fun S3 hs3 e he => explained_mono _ _ _ _ _ _ hs3 (hr e he))
      fun S3 hs3 e he => explained_mono _ _ _ _ _ _ hs3 (hr e he)

theorem executeParallel {n : Str} {T : Task} (H : Here c tasks main n T) (hready : Ready tasks main) {fr : Frame} {i : Nat}
    {items : List RunItem} {labels : List Str} {mode : ParallelMode} {lim : Nat} {color silent output : Option Bool}
    {m tenv : GoMap Str} {S : List Ev} (hi : ∀ item ∈ items, ItemOf T item)
    (hk : ∀ item ∈ items, (∃ v, item = .command v) ∨ (∃ t, item = .task t) ∨ ∃ l, item = .log l)
    (ht : ∀ t, .task t ∈ items → Needs tasks main t.task) (htenv : ∀ q ∈ tenv, TextOf c T q.2) :
    G (executeParallel c tasks rec n T fr i items labels mode lim color silent output m tenv) S := by
  unfold Bab.executeParallel
  refine preResolveDeps hrec hready ht fun S1 _ => ?_
  have hchild : ∀ (fr : Frame) (j : Nat) (item : RunItem) S, item ∈ items →
      G (Bab.executeRunItem c rec T fr ⟨n, i, some j⟩ item (.own m) tenv) S :=
    fun fr j item S hm => executeRunItem hrec H hready (hi _ hm) (hk _ hm) (fun t h => ht t (h ▸ hm)) htenv
  have htui : ∀ (fr : Frame) S, G (executeParallelTUI c rec n T fr i items labels lim m tenv) S := by
    intro fr S
    unfold executeParallelTUI
    simp only
    split
    · exact .mark rfl fun _ _ => runBlock (fun j item S' hm => hchild _ j item S' hm)
    · refine .quiet (fun _ => rfl) fun id S2 _ _ => .act ?_ fun ok S3 _ _ => ?_
      · intro x v hv
        simp only [Act.evs, List.mem_singleton] at hv; subst hv; rfl
      · cases ok with
        | true => exact .mark rfl fun _ _ => runBlock (fun j item S' hm => hchild _ j item S' hm)
        | false =>
          refine Ok.err ?_
          show Ev.tuiStart false ∈ S3 ++ [Ev.tuiStart false]
          simp
  have hint : ∀ (fr : Frame) S, G (executeParallelInterleaved c rec n T fr i items labels lim m tenv) S :=
    fun fr S => .mark rfl fun _ _ => runBlock (fun j item S' hm => hchild _ j item S' hm)
  cases c.dry with
  | true => exact .mark rfl fun _ _ => .retNone
  | false =>
    simp only [Bool.false_eq_true, if_false]
    split
    · exact htui _ _
    · exact hint _ _

omit hrec in
theorem executePrompt {tn : Str} {n : Str} {T : Task} (H : Here c tasks main n T) {loc : Loc} {p : PromptRun} {vars : VarEnv}
    {k : Option Err → VarEnv → Prog} {S : List Ev} (hi : ItemOf T (.prompt p))
    (hk : ∀ r v S', S ⊆ S' → (∀ e, r = some e → Explained c tasks main S' e) → G (k r v) S') : G (executePrompt c tn loc p vars k) S := by
  unfold Bab.executePrompt
  refine .readVars fun m S1 hs1 => .mark rfl fun S2 hs2 => ?_
  have hs := hs1.trans hs2
  cases hp : placed p.line (interpolatePrompt p ⟨m, c.env⟩) with
  | error e =>
    obtain ⟨e1, hp1, rfl⟩ := of_placed_error hp
    exact hk _ _ _ hs fun e' he' => by
      cases he'
      exact placed_explained (of_missing H.need H.get (fun _ h => .item hi h) (interpolatePrompt_missing hp1)) _
  | ok p' =>
    replace hp := of_placed_ok hp
    simp only
    have hgot : ∀ (r : Except Err Str) S3, S2 ⊆ S3 → (∀ e, r = .error e → Explained c tasks main S3 e) →
        G (match r with
          | .error e => k (some (.wrap (.prompt tn p.prompt) e)) vars
          | .ok ans => Bab.writeVar vars p.prompt ans (k none)) S3 := by
      intro r S3 hs3 hr
      cases r with
      | error e => exact hk _ _ _ (hs.trans hs3) fun e' he' => by cases he'; exact hr e rfl
      | ok a => exact .writeVar fun m S4 hs4 => hk _ _ _ ((hs.trans hs3).trans hs4) fun e he => by cases he
    split
    · exact .mark rfl fun S3 hs3 => hk _ _ _ (hs.trans hs3) fun e he => by cases he
    · split
      · refine .act ?_ fun r S3 hs3 hfine => hgot r _ (hs3.trans (List.subset_append_left _ _)) fun e he => ?_
        · intro x v hv
          simp only [Act.evs, List.mem_singleton] at hv; subst hv; rfl
        · subst he
          rcases hfine e rfl with rfl | ⟨reason, rfl⟩
          · exact Or.inr ⟨loc, p'.prompt, by simp [Act.evs]⟩
          · exact ⟨loc, p'.prompt, by simp [Act.evs]⟩
      · intro x S3 hs3 _
        refine ⟨fun v hv => ?_, hgot _ _ (hs3.trans (List.subset_append_left _ _)) fun e he => ?_⟩
        · simp only [Act.evs, List.mem_singleton] at hv
          subst hv
          intro e he
          cases he
        · have : ∃ reason, e = .prompt reason := by
            unfold handleNonInteractive at he
            split at he
            all_goals first
              | (split at he
                 · cases he
                 · cases he; exact ⟨_, rfl⟩)
              | (cases he; exact ⟨_, rfl⟩)
          obtain ⟨reason, rfl⟩ := this
          exact ⟨loc, p'.prompt, by simp [Act.evs, he]⟩

theorem executeItem {n : Str} {T : Task} (H : Here c tasks main n T) (hready : Ready tasks main) {fr : Frame} {i : Nat}
    {item : RunItem} {vars : VarEnv} {tenv : GoMap Str} {k : Option Err → VarEnv → Prog} {S : List Ev} (hi : item ∈ T.run)
    (htenv : ∀ q ∈ tenv, TextOf c T q.2)
    (hk : ∀ r v S', S ⊆ S' → (∀ e, r = some e → Explained c tasks main S' e) → G (k r v) S') :
    G (executeItem c tasks rec n T fr i item vars tenv k) S := by
  have hcall : ∀ d, CallsIn d [item] → Needs tasks main d := by
    intro d hd
    refine Sim.needs_closed H.need H.get (Or.inr ?_)
    obtain ⟨a, b, hab⟩ := List.append_of_mem hi
    rw [hab]
    clear hab
    induction a with
    | nil =>
      cases hd with
      | here h => exact .here h
      | block h => exact .block h
      | later h => cases h
    | cons x a ih => exact .later ih
  unfold Bab.executeItem
  cases item with
  | prompt p => exact executePrompt H (.top hi) hk
  | parallel items labels mode lim color silent output pl w ln =>
    simp only
    split
    · exact .mark rfl fun S' hs => hk _ _ _ hs fun e he => by cases he
    · refine .readVars fun m S1 hs1 => .bind (executeParallel hrec H hready (fun item h => .sub hi h)
        (fun item h => hready.blocks n T _ _ _ _ _ _ _ _ _ _ _ H.need H.get hi h) ?_ htenv) fun r S2 hs2 hr => hk _ _ _ (hs1.trans hs2) hr
      intro t ht
      refine hcall _ (.block ?_)
      clear hcall hi
      induction items with
      | nil => cases ht
      | cons a l ih =>
        rcases List.mem_cons.mp ht with rfl | ht
        · exact .here rfl
        · exact .later (ih ht)
  | command v =>
    exact .bind (executeRunItem hrec H hready (.top hi) (Or.inl ⟨v, rfl⟩) (fun t ht => by cases ht) htenv) fun r S2 hs2 hr => hk _ _ _ hs2 hr
  | log l =>
    exact .bind (executeRunItem hrec H hready (.top hi) (Or.inr (Or.inr ⟨l, rfl⟩)) (fun t ht => by cases ht) htenv) fun r S2 hs2 hr => hk _ _ _ hs2 hr
  | task t =>
    exact .bind (executeRunItem hrec H hready (.top hi) (Or.inr (Or.inl ⟨t, rfl⟩))
      (fun t' ht => by cases ht; exact hcall _ (.here rfl)) htenv) fun r S2 hs2 hr => hk _ _ _ hs2 hr

theorem executeItems {n : Str} {T : Task} (H : Here c tasks main n T) (hready : Ready tasks main) (hrun : T.run ≠ []) {fr : Frame}
    {tenv : GoMap Str} {items : List RunItem} {i : Nat} {vars : VarEnv} {ex sk : Nat} {S : List Ev} (before : List RunItem)
    (hb : before ++ items = T.run) (hskip : ex = 0 ∧ sk = 0 → ∀ it ∈ before, it.onPlatform c.platform = false)
    (htenv : ∀ q ∈ tenv, TextOf c T q.2) :
    G (executeItems c tasks rec n T fr tenv items i vars ex sk) S := by
  induction items generalizing i vars ex sk S before with
  | nil =>
    unfold Bab.executeItems
    split
    · rename_i h0
      refine .err ?_
      rw [H.name]
      rw [List.append_nil] at hb
      exact ⟨H.need, T, H.get, hrun, hb ▸ hskip h0⟩
    · exact .retNone
  | cons item rest ih =>
    have hmem : item ∈ T.run := by rw [← hb]; simp
    have hb' : (before ++ [item]) ++ rest = T.run := by rw [← hb]; simp
    have hlater : ∀ i vars ex sk S, (ex = 0 ∧ sk = 0 → False) → G (Bab.executeItems c tasks rec n T fr tenv rest i vars ex sk) S :=
      fun i vars ex sk S h => ih (before ++ [item]) hb' (fun h0 => (h h0).elim)
    unfold Bab.executeItems
    refine .quiet (fun _ => rfl) fun b S1 hs1 hfine => ?_
    simp only
    have hgo : ∀ (w : Option (GoMap Str)) S, G (.note (.itemStart n i w) <|
          Bab.executeItem c tasks rec n T fr i item vars tenv fun r vars' =>
            .note (.itemEnd n i r) <|
            match r with
            | some e => .ret (some e)
            | none => Bab.executeItems c tasks rec n T fr tenv rest (i + 1) vars' (ex + 1) sk) S := by
      intro w S
      refine .mark rfl fun S2 _ => executeItem hrec H hready hmem htenv fun r v S3 _ hr => ?_
      refine .note (fun S4 hs4 e he => explained_mono _ _ _ _ _ _ hs4 (hr e he)) fun S4 hs4 => ?_
      cases r with
      | some e => exact .err (explained_mono _ _ _ _ _ _ hs4 (hr e rfl))
      | none => exact hlater _ _ _ _ _ (by omega)
    split
    · rename_i hb1
      exact .err (Or.inl (hfine hb1))
    · split
      · rename_i hoff
        refine .mark rfl fun S2 _ => ih (before ++ [item]) hb' fun h0 it hit => ?_
        rcases List.mem_append.mp hit with hit | hit
        · exact hskip h0 it hit
        · rw [List.mem_singleton] at hit; subst hit; exact hoff
      · split
        · exact hgo none _
        · refine .readVars fun m S2 hs2 => ?_
          split
          · rename_i e0 he0
            obtain ⟨e, he, rfl⟩ := of_placed_error he0
            obtain ⟨w, e', rfl, hm⟩ := evaluate_missing (P := TextOf c T) (.itemCond hmem) he
            exact .err (placed_explained (of_missing (S := S2) (e := e') H.need H.get (fun _ h => h) hm) _)
          · exact .mark rfl fun S3 _ => hlater _ _ _ _ _ (by omega)
          · exact hgo _ _

theorem runDeps {n : Str} {fr : Frame} {k : Prog} {ds : List Str} {i : Nat} {S : List Ev} (hd : ∀ d ∈ ds, Needs tasks main d)
    (hk : ∀ S', S ⊆ S' → G k S') : G (runDeps rec n fr k ds i) S := by
  induction ds generalizing i S with
  | nil => exact hk S (List.Subset.refl _)
  | cons d ds ih =>
    unfold Bab.runDeps
    refine .bind (hrec _ _ _ _ (hd d List.mem_cons_self)) fun r S1 hs1 hr => ?_
    cases r with
    | none =>
      exact .mark rfl fun S2 hs2 => ih (fun x hx => hd x (List.mem_cons_of_mem _ hx)) fun S3 hs3 => hk S3 ((hs1.trans hs2).trans hs3)
    | some e =>
      refine .note (fun S2 hs2 e' he' => ?_) fun S2 hs2 => .err (explained_mono _ _ _ _ _ e hs2 (hr e rfl))
      cases he'
      exact explained_mono _ _ _ _ _ e hs2 (hr e rfl)

omit hrec in
theorem interpolateEnv_texts {T : Task} {ctx : Ctx} {m r : GoMap Str} (hm : ∀ q ∈ m, (q.1, q.2) ∈ T.env ∨ (q.1, q.2) ∈ c.globalEnv)
    (h : interpolateEnv ctx m = .ok r) : ∀ q ∈ r, TextOf c T q.2 := by
  induction m generalizing r with
  | nil => cases h; intro q hq; cases hq
  | cons q m ih =>
    obtain ⟨k, v⟩ := q
    unfold interpolateEnv at h
    split at h
    · cases h
    · rename_i v' hv
      split at h
      · cases h
      · rename_i r' hr'
        cases h
        intro q hq
        rcases List.mem_cons.mp hq with rfl | hq
        · exact .again (hm (k, v) List.mem_cons_self) hv
        · exact ih (fun q hq => hm q (List.mem_cons_of_mem _ hq)) hr' q hq

theorem executeTask {n : Str} {T : Task} (H : Here c tasks main n T) (hready : Ready tasks main) (hrun : T.run ≠ []) {fr : Frame}
    {S : List Ev} : G (executeTask c tasks rec n T fr) S := by
  unfold Bab.executeTask
  refine .quiet (fun _ => rfl) fun g S1 _ _ => ?_
  cases hv : placed T.line (resolveVars T.vars g c.env) with
  | error e =>
    obtain ⟨e1, hv1, rfl⟩ := of_placed_error hv
    refine .err (placed_explained ?_ _)
    cases hvs : T.vars with
    | none => rw [hvs] at hv1; cases hv1
    | some m =>
      rw [hvs] at hv1
      rcases C05_resolveVars_error_kind m g c.env e1 hv1 with ⟨x, ch, rfl, h1, h2⟩ | ⟨x, rfl, ⟨k, raw, hk, hu⟩, hne, -, -⟩
      · exact ⟨n, T, m, H.need, H.get, hvs, h1, h2⟩
      · exact ⟨hne, n, T, raw, H.need, H.get, .var hvs hk, hu⟩
  | ok m =>
    replace hv := of_placed_ok hv
    refine .mark rfl fun S2 _ => ?_
    have hfrom : ∀ q ∈ mergeEnvMaps [c.globalEnv, T.env], (q.1, q.2) ∈ T.env ∨ (q.1, q.2) ∈ c.globalEnv :=
      fun q hq => (mem_merge hq).symm
    split
    · rename_i e0 he0
      obtain ⟨e, he, rfl⟩ := of_placed_error he0
      refine .err (placed_explained (of_missing H.need H.get (fun _ h => h) (interpolateEnv_missing ?_ he)) _)
      intro q hq
      rcases hfrom q hq with h | h
      · exact .env h
      · exact .globalEnv h
    · rename_i tenv htenv
      exact executeItems hrec H hready hrun [] rfl (fun _ it h => by cases h) (interpolateEnv_texts hfrom (of_placed_ok htenv))

theorem runTaskBody (hready : Ready tasks main) {n : Str} (hn : Needs tasks main n) {fr : Frame} {isMain : Bool} {S : List Ev} :
    G (runTaskBody c tasks rec fr isMain n) S := by
  obtain ⟨T, hT, hname⟩ := hready.exist n hn
  have H : Here c tasks main n T := ⟨hn, hT, hname⟩
  unfold Bab.runTaskBody
  rw [hT]
  simp only
  have hfin : ∀ S, G (.act (.setDone n) fun _ => .ret none) S := fun S => .act (fun x v hv => by
    simp only [Act.evs, List.mem_singleton] at hv; subst hv; rfl) fun _ _ _ _ => .retNone
  have hdeps : ∀ S, G (Bab.runDeps rec n fr
      (if T.run = [] then .act (.setDone n) fun _ => .ret none
       else (Bab.executeTask c tasks rec n T fr).bind fun
        | some e => .ret (some e)
        | none => .act (.setDone n) fun _ => .ret none) T.deps 0) S := by
    intro S
    refine runDeps hrec (fun d hd => Sim.needs_closed hn hT (Or.inl hd)) fun S1 _ => ?_
    split
    · exact hfin _
    · rename_i hrun
      refine .bind (executeTask hrec H hready hrun) fun r S2 _ hr => ?_
      cases r with
      | none => exact hfin _
      | some e => exact .err (hr e rfl)
  have hgo : ∀ {A : Prog}, (∀ S, G A S) → ∀ S,
      G (if !c.dry && !isSilent [fr.ovSilent, T.silent, c.globalSilent] then .note (.echoTask n isMain fr.out) A else A) S := by
    intro A h S
    split
    · exact .mark rfl fun S' _ => h S'
    · exact h S
  split
  · exact hgo hdeps S
  · refine .quiet (fun _ => rfl) fun g S1 _ _ => ?_
    split
    · rename_i e0 he0
      obtain ⟨e, he, rfl⟩ := of_placed_error he0
      obtain ⟨w, e', rfl, hm⟩ := evaluate_missing (P := TextOf c T) .cond he
      exact .err (placed_explained (of_missing (S := S1) (e := e') H.need H.get (fun _ h => h) hm) _)
    · exact .mark rfl fun S2 _ => hfin _
    · exact .mark rfl fun S2 _ => hgo hdeps _

omit hrec in
/-- the chain of a cycle error is a path of references -/
theorem chain_path {n : Str} (hn : Needs tasks main n) {st : GoMap Status} (S : List Ev) :
    Explained c tasks main S (.circularDep (buildChain n tasks st)) := by
  have key : ∀ (f : Nat) (chain seen r : List Str), chain ≠ [] → IsPath tasks chain → (∀ x ∈ chain, Needs tasks main x) →
      chainLoop n tasks st f chain seen = some r → r ≠ [] ∧ IsPath tasks r ∧ ∀ x ∈ r, Needs tasks main x := by
    intro f
    induction f with
    | zero => intro chain seen r _ _ _ h; cases h
    | succ f ih =>
      intro chain seen r h1 h2 h3 h
      obtain ⟨ini, last, rfl⟩ : ∃ ini last, chain = ini ++ [last] := ⟨_, _, (List.dropLast_append_getLast h1).symm⟩
      have hlast : ((ini ++ [last]).getLast?).getD [] = last := by simp
      unfold chainLoop at h
      simp only [hlast] at h
      split at h
      · cases h; exact ⟨h1, h2, h3⟩
      · cases hT : tasks.get? last with
        | none => simp only [hT] at h; cases h; exact ⟨h1, h2, h3⟩
        | some T =>
          simp only [hT] at h
          split at h
          · cases h; exact ⟨h1, h2, h3⟩
          · cases hfd : T.deps.find? (fun d => st.get? d = some .running) with
            | none => simp only [hfd] at h; exact ih _ _ _ h1 h2 h3 h
            | some d =>
              have hd := List.mem_of_find?_eq_some hfd
              have k1 : (ini ++ [last]) ++ [d] ≠ [] := by simp
              have k2 : IsPath tasks ((ini ++ [last]) ++ [d]) := by
                have href : Refers tasks last d := ⟨T, hT, Or.inl hd⟩
                clear h h1 h3 hlast k1
                induction ini with
                | nil => exact ⟨href, trivial⟩
                | cons a ini ih =>
                  cases ini with
                  | nil => exact ⟨h2.1, href, trivial⟩
                  | cons b ini => exact ⟨h2.1, ih h2.2⟩
              have k3 : ∀ x ∈ (ini ++ [last]) ++ [d], Needs tasks main x := by
                intro x hx
                rcases List.mem_append.mp hx with hx | hx
                · exact h3 x hx
                · rw [List.mem_singleton] at hx
                  subst hx
                  exact Sim.needs_closed (h3 last (by simp)) hT (Or.inl hd)
              simp only [hfd] at h
              split at h
              · cases h; exact ⟨k1, k2, k3⟩
              · exact ih _ _ _ k1 k2 k3 h
  obtain ⟨r, hr⟩ := Chain.build_some n tasks st
  have := key _ [n] _ r (by simp) trivial (by simpa using hn) hr
  unfold buildChain
  rw [hr]
  exact this

end

theorem runTask {c : Cfg} {tasks : TaskMap} {main : Str} (hready : Ready tasks main) (f : Nat) :
    RecOk c tasks main (Bab.runTask c tasks f) := by
  induction f with
  | zero => exact fun fr b n S _ x S' _ hf => hf.elim
  | succ f ih =>
    intro fr b n S hn
    unfold Bab.runTask
    refine .act ?_ fun s S1 _ _ => ?_
    · intro x v hv
      cases x with
      | none => simp only [Act.evs, List.mem_singleton] at hv; subst hv; rfl
      | some s => simp [Act.evs] at hv
    · cases s with
      | none =>
        refine .bind (runTaskBody ih hready hn) fun r S2 _ hr => .note (fun S3 hs3 e he => ?_) fun S3 hs3 e he => ?_
        · exact explained_mono _ _ _ _ _ _ hs3 (hr e he)
        · exact explained_mono _ _ _ _ _ _ hs3 (hr e he)
      | some s =>
        cases s with
        | done => exact .retNone
        | running => exact .quiet (fun _ => rfl) fun st S2 _ _ => .err (chain_path hn _)

/-- in every state of an invocation what has happened and what can happen is explained -/
theorem reach {c : Cfg} {tasks : TaskMap} {gvars : GoMap Str} {main : Str} (hready : Ready tasks main) {s : State}
    (h : Reach (start c tasks gvars main) s) :
    Ok (Explained c tasks main) s.prog s.sh.trace ∧ (∀ id ∈ s.sh.cancelled, .cancel id ∈ s.sh.trace) ∧
    ∀ a v b e, s.sh.trace = a ++ v :: b → failure v = some e → Explained c tasks main a e := by
  induction h with
  | refl =>
    refine ⟨runTask hready _ _ _ _ _ (Or.inl rfl), fun id hid => (by cases hid), fun a v b e hv => ?_⟩
    simp [start, Shared.init] at hv
  | @step t u ht hstep ih =>
    obtain ⟨h1, h2, h3⟩ := ih
    cases hstep with
    | @prog p σ p' σ' hst =>
      obtain ⟨k1, k2, es, k3, k4⟩ := step (explained_mono _ _ _) hst h1 h2 (Sim.reach_not_pending ht)
      refine ⟨k1, k2, fun a v b e hv he => ?_⟩
      simp only [k3] at hv
      rcases List.append_eq_append_iff.mp hv with ⟨x, hx1, hx2⟩ | ⟨x, hx1, hx2⟩
      · subst hx1
        exact explained_mono _ _ _ _ _ _ (List.subset_append_left _ _) (k4 v (by rw [hx2]; simp) e he)
      · cases x with
        | nil =>
          rw [List.append_nil] at hx1
          subst hx1
          exact k4 v (by rw [List.nil_append] at hx2; rw [← hx2]; simp) e he
        | cons y x =>
          rw [List.cons_append] at hx2
          obtain ⟨rfl, -⟩ := List.cons.inj hx2
          exact h3 a v x e hx1 he
    | @cancel p σ id hid =>
      refine ⟨Ok.mono (explained_mono _ _ _) (List.subset_append_left _ _) h1, fun id' hid' => ?_, fun a v b e hv he => ?_⟩
      · rcases List.mem_cons.mp hid' with rfl | hid'
        · simp
        · exact List.mem_append_left _ (h2 _ hid')
      · simp only at hv
        rcases List.append_eq_append_iff.mp hv with ⟨x, hx1, hx2⟩ | ⟨x, hx1, hx2⟩
        · have : v = .cancel id := by
            cases x with
            | nil => rw [List.nil_append] at hx2; exact (List.cons.inj hx2).1.symm
            | cons y x => simp at hx2
          subst this
          cases he
        · cases x with
          | nil =>
            rw [List.nil_append] at hx2
            obtain ⟨rfl, -⟩ := List.cons.inj hx2
            cases he
          | cons y x =>
            rw [List.cons_append] at hx2
            obtain ⟨rfl, -⟩ := List.cons.inj hx2
            exact h3 a v x e hx1 he

end Expl
end Bab
