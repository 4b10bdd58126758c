import Verif.Spec.Message
import Verif.Proof.Explain
import Verif.Proof.SafeRun
/-
C70: the errors that the functions of the runner return tell the way to the failure.
-/

namespace Bab
open Spec

namespace Msg

/-! ### the helpers -/

theorem interpolate_lacks {l : Nat} {t : Str} {m : GoMap Str} {env : Str → Option Str} {e : Err} (h : interpolate t ⟨m, env⟩ = .error e) : Lacks l t m (e.placed l) := by
  obtain ⟨ts, hr⟩ := reads_exists t
  obtain ⟨x, he, a, b, hab, hx, _⟩ := (C02_interpolate_error_iff ⟨m, env⟩ t ts hr e).mp h
  subst he
  refine ⟨x, rfl, ?_, ⟨ts, hr, by rw [hab]; simp⟩, ?_⟩
  · rintro ⟨y, rfl⟩
    exact absurd hx (by simp [value])
  · unfold value at hx
    split at hx
    · cases hx
    · exact hx

theorem interpolateEnv_lacks {l : Nat} {m : GoMap Str} {env : Str → Option Str} {q : GoMap Str} {e : Err} (h : interpolateEnv ⟨m, env⟩ q = .error e) :
    ∃ k x, (k, x) ∈ q ∧ Lacks l x m (e.placed l) := by
  induction q with
  | nil => cases h
  | cons a r ih =>
    obtain ⟨k, v⟩ := a
    unfold interpolateEnv at h
    split at h
    · rename_i e' he
      cases h
      exact ⟨k, v, List.mem_cons_self, interpolate_lacks he⟩
    · split at h
      · rename_i e' he
        cases h
        obtain ⟨k', x, h1, h2⟩ := ih he
        exact ⟨k', x, List.mem_cons_of_mem _ h1, h2⟩
      · cases h

theorem interpolateList_lacks {l : Nat} {m : GoMap Str} {env : Str → Option Str} {ss : List Str} {e : Err} (h : interpolateList ⟨m, env⟩ ss = .error e) :
    ∃ x ∈ ss, Lacks l x m (e.placed l) := by
  induction ss with
  | nil => cases h
  | cons t ss ih =>
    unfold interpolateList at h
    split at h
    · rename_i e' he
      cases h
      exact ⟨t, List.mem_cons_self, interpolate_lacks he⟩
    · split at h
      · rename_i e' he
        cases h
        obtain ⟨x, h1, h2⟩ := ih he
        exact ⟨x, List.mem_cons_of_mem _ h1, h2⟩
      · cases h

theorem interpolateOpt_lacks {l : Nat} {m : GoMap Str} {env : Str → Option Str} {t : Str} {e : Err} (h : interpolateOpt ⟨m, env⟩ t = .error e) : Lacks l t m (e.placed l) := by
  unfold interpolateOpt at h
  split at h
  · cases h
  · exact interpolate_lacks h

theorem interpolatePrompt_lacks {l : Nat} {p : PromptRun} {m : GoMap Str} {env : Str → Option Str} {e : Err} (h : interpolatePrompt p ⟨m, env⟩ = .error e) :
    ∃ x, ItemText (.prompt p) x ∧ Lacks l x m (e.placed l) := by
  unfold interpolatePrompt at h
  simp only [Bind.bind, Except.bind, Pure.pure, Except.pure] at h
  split at h
  · rename_i e' he; cases h; exact ⟨_, .message p, interpolate_lacks he⟩
  · split at h
    · rename_i e' he; cases h; exact ⟨_, .default p, interpolateOpt_lacks he⟩
    · split at h
      · rename_i e' he; cases h; exact ⟨_, .placeholder p, interpolateOpt_lacks he⟩
      · split at h
        · rename_i e' he; cases h; obtain ⟨x, h1, h2⟩ := interpolateList_lacks he; exact ⟨x, .option p h1, h2⟩
        · split at h
          · rename_i e' he; cases h; obtain ⟨x, h1, h2⟩ := interpolateList_lacks he; exact ⟨x, .defaults p h1, h2⟩
          · cases h

theorem evaluate_lacks {l : Nat} {t : Str} {m : GoMap Str} {env : Str → Option Str} {e : Err} (h : evaluate t ⟨m, env⟩ = .error e) :
    ∃ e', e = .wrap .condition e' ∧ Lacks l t m (e'.placed l) := by
  unfold evaluate at h
  split at h
  · cases h
  · split at h
    · rename_i e' he
      cases h
      exact ⟨_, rfl, interpolate_lacks he⟩
    · cases h

theorem label (items : List RunItem) (labels : List Str) (j : Nat) : Label items labels j (itemLabel items labels j) := by
  unfold itemLabel
  split
  · rename_i a l h
    exact .given h (by simp)
  · rename_i hno
    have hno : ∀ l, labels[j]? = some l → l = [] := by
      intro l hl
      cases l with
      | nil => rfl
      | cons a l => exact absurd hl (hno a l)
    cases hi : items[j]? with
    | none => exact .other hno (fun i h => by rw [hi] at h; cases h)
    | some i =>
      cases i with
      | task t => exact .task hno hi
      | command v => exact .command hno hi
      | log l => exact .log hno hi
      | prompt p => exact .other hno (fun i h => by rw [hi] at h; cases h; exact Or.inl ⟨p, rfl⟩)
      | parallel => exact .other hno (fun i h => by rw [hi] at h; cases h; exact Or.inr ⟨_, _, _, _, _, _, _, _, _, _, rfl⟩)

/-! ### programs and the errors they return -/

/-- the answers of the actions that can occur when the events `S` have happened -/
def Fine (S : List Ev) : (a : Act) → a.Resp → Prop
  | .claim n, s => s = some .running → .claimed n ∈ S
  | .cancelled _, b => b = true → ∃ id, .cancel id ∈ S
  | .fuel, _ => False
  | .prompt _ _, r => ∀ e, r = .error e → e = .canceled ∨ ∃ reason, e = .prompt reason
  | _, _ => True

/-- every error that the program returns when started after the events `S` satisfies `φ`, and what its events say is right -/
def Out (E : List Ev → Ev → Prop) : Prog → (List Ev → Err → Prop) → List Ev → Prop
  | .ret r, φ, S => ∀ e, r = some e → φ S e
  | .act a k, φ, S => ∀ x S', S ⊆ S' → Fine S' a x → (∀ v ∈ a.evs x, E S' v) ∧ Out E (k x) φ (S' ++ a.evs x)
  | .par _ _ _ _ _ st ps k, φ, S => ∃ χ : List Ev → Err → Prop, (∀ S S' e, S ⊆ S' → χ S e → χ S' e) ∧
      (∀ e, st.first = some e → χ S e) ∧ (∀ i, Out E (ps i) χ S) ∧
      ∀ r S', S ⊆ S' → (∀ e, r = some e → χ S' e) → Out E (k r) φ S'

/-- what has been found out stays right -/
def Mono (φ : List Ev → Err → Prop) : Prop := ∀ S S' e, S ⊆ S' → φ S e → φ S' e

section
variable {E : List Ev → Ev → Prop} {φ : List Ev → Err → Prop}

theorem Out.mono (hmono : Mono φ) {p : Prog} {S S' : List Ev} (hs : S ⊆ S') (h : Out E p φ S) : Out E p φ S' := by
  induction p generalizing S S' φ with
  | ret r => exact fun e he => hmono _ _ _ hs (h e he)
  | act a k _ => exact fun x S'' hs' hf => h x S'' (hs.trans hs') hf
  | par lim ctx t it n st ps k ihp _ =>
    obtain ⟨χ, hχ, h1, h2, h3⟩ := h
    exact ⟨χ, hχ, fun e he => hχ _ _ _ hs (h1 e he), fun i => ihp i hχ hs (h2 i), fun r S'' hs' hr => h3 r S'' (hs.trans hs') hr⟩

theorem Out.bind {ψ : List Ev → Err → Prop} {p : Prog} {f : Option Err → Prog} {S : List Ev} (h : Out E p ψ S)
    (hf : ∀ r S', S ⊆ S' → (∀ e, r = some e → ψ S' e) → Out E (f r) φ S') : Out E (p.bind f) φ S := by
  induction p generalizing S with
  | ret r => exact hf r S (List.Subset.refl _) h
  | act a k ih =>
    intro x S' hs hfi
    obtain ⟨h1, h2⟩ := h x S' hs hfi
    exact ⟨h1, ih x h2 fun r S'' hs' hr => hf r S'' ((hs.trans (List.subset_append_left _ _)).trans hs') hr⟩
  | par lim ctx t it n st ps k _ ihk =>
    obtain ⟨χ, hχ, h1, h2, h3⟩ := h
    exact ⟨χ, hχ, h1, h2, fun r S' hs hr => ihk r (h3 r S' hs hr) fun r' S'' hs' hr' => hf r' S'' (hs.trans hs') hr'⟩

theorem Out.weak {ψ : List Ev → Err → Prop} {p : Prog} {S : List Ev} (h : Out E p ψ S) (hw : ∀ S e, ψ S e → φ S e) : Out E p φ S := by
  induction p generalizing S with
  | ret r => exact fun e he => hw _ _ (h e he)
  | act a k ih => exact fun x S' hs hf => ⟨(h x S' hs hf).1, ih x (h x S' hs hf).2⟩
  | par lim ctx t it n st ps k _ ihk =>
    obtain ⟨χ, hχ, h1, h2, h3⟩ := h
    exact ⟨χ, hχ, h1, h2, fun r S' hs hr => ihk r (h3 r S' hs hr)⟩

theorem step (hmono : Mono φ) {p p' : Prog} {σ σ' : Shared} (h : Step p σ p' σ') (hp : Out E p φ σ.trace)
    (hr : ∀ n, σ.status.get? n = some .running → .claimed n ∈ σ.trace)
    (hc : ∀ id ∈ σ.cancelled, .cancel id ∈ σ.trace) (hpend : ¬ Sim.Pending p) (hab : ∀ S t i j, E S (.subAbort t i j)) :
    Out E p' φ σ'.trace ∧ ∃ es, σ'.trace = σ.trace ++ es ∧ ∀ v ∈ es, E σ.trace v := by
  induction h generalizing φ with
  | @act a k σ x hx =>
    have hfine : Fine σ.trace a x := by
      cases a with
      | claim n =>
        intro hb
        have hx' : x = σ.status.get? n := hx
        exact hr n (by rw [← hx']; exact hb)
      | cancelled c =>
        intro hb
        have hb' : σ.isCancelled c = true := by
          have hx' : x = σ.isCancelled c := hx
          rw [← hx']; exact hb
        unfold Shared.isCancelled at hb'
        rw [List.any_eq_true] at hb'
        obtain ⟨id, _, hid⟩ := hb'
        exact ⟨id, hc id (by simpa using hid)⟩
      | fuel => exact absurd trivial hpend
      | _ => trivial
    obtain ⟨h1, h2⟩ := hp x _ (List.Subset.refl _) hfine
    exact ⟨h2, _, rfl, h1⟩
  | acquire i h hs => exact ⟨hp, [], by simp, by simp⟩
  | abort i h hl hcan =>
    refine ⟨?_, _, rfl, ?_⟩
    · obtain ⟨χ, hχ, h1, h2, h3⟩ := hp
      exact ⟨χ, hχ, fun e he => hχ _ _ _ (List.subset_append_left _ _) (h1 e he), fun j => Out.mono hχ (List.subset_append_left _ _) (h2 j),
        fun r S' hs hr => h3 r S' ((List.subset_append_left _ _).trans hs) hr⟩
    · intro v hv
      rw [List.mem_singleton] at hv
      subst hv
      exact hab _ _ _ _
  | @child lim ctx t it n st ps k σ p' σ' i h hs ih =>
    obtain ⟨χ, hχ, g1, g2, g3⟩ := hp
    obtain ⟨h1, es, h3, h4⟩ := ih hχ (g2 i) hr hc (fun hh => hpend ⟨i, hh⟩)
    have hsub : σ.trace ⊆ σ'.trace := by rw [h3]; exact List.subset_append_left _ _
    refine ⟨⟨χ, hχ, fun e he => hχ _ _ _ hsub (g1 e he), fun j => ?_, fun r S' hs hr => g3 r S' (hsub.trans hs) hr⟩, es, h3, h4⟩
    unfold upd
    split
    · exact h1
    · exact Out.mono hχ hsub (g2 j)
  | @finish lim ctx t it n st ps k σ r i h hr' =>
    obtain ⟨χ, hχ, g1, g2, g3⟩ := hp
    refine ⟨⟨χ, hχ, fun e he => ?_, g2, g3⟩, [], by simp, by simp⟩
    have hi := g2 i
    rw [hr'] at hi
    simp only [once] at he
    split at he
    · rename_i e' hf
      cases he
      exact g1 _ hf
    · exact hi e he
  | release i h => exact ⟨hp, [], by simp, by simp⟩
  | wgDone i h => exact ⟨hp, [], by simp, by simp⟩
  | join h =>
    obtain ⟨χ, hχ, g1, g2, g3⟩ := hp
    exact ⟨g3 _ _ (List.Subset.refl _) g1, [], by simp, by simp⟩

/-! ### simple programs -/

theorem Out.retNone {S : List Ev} : Out E (.ret none) φ S := fun e he => by cases he

theorem Out.err {S : List Ev} {e : Err} (h : φ S e) : Out E (.ret (some e)) φ S := fun e' he => by cases he; exact h

theorem Out.note {v : Ev} {p : Prog} {S : List Ev} (hv : ∀ S', S ⊆ S' → E S' v)
    (h : ∀ S', S ⊆ S' → v ∈ S' → Out E p φ S') : Out E (.note v p) φ S := by
  intro x S' hs _
  refine ⟨fun w hw => ?_, h _ (hs.trans (List.subset_append_left _ _)) (by simp [Act.evs])⟩
  simp only [Act.evs, List.mem_singleton] at hw
  subst hw
  exact hv S' hs

theorem Out.act {a : Act} {k : a.Resp → Prog} {S : List Ev} (he : ∀ x S', ∀ v ∈ a.evs x, E S' v)
    (h : ∀ x S', S ⊆ S' → Fine S' a x → Out E (k x) φ (S' ++ a.evs x)) : Out E (.act a k) φ S :=
  fun x S' hs hf => ⟨fun v hv => he x S' v hv, h x S' hs hf⟩

theorem Out.quiet {a : Act} {k : a.Resp → Prog} {S : List Ev} (he : ∀ x, a.evs x = [])
    (h : ∀ x S', S ⊆ S' → Fine S' a x → Out E (k x) φ S') : Out E (.act a k) φ S :=
  .act (fun x _ v hv => by rw [he x] at hv; cases hv) fun x S' hs hf => by
    rw [he x, List.append_nil]
    exact h x S' hs hf

theorem Out.readVars {v : VarEnv} {k : GoMap Str → Prog} {S : List Ev} (h : ∀ m S', S ⊆ S' → Out E (k m) φ S') :
    Out E (readVars v k) φ S := by
  cases v with
  | own m => exact h m S (List.Subset.refl _)
  | global => exact .quiet (fun _ => rfl) fun x S' hs _ => h x S' hs

theorem Out.writeVar {v : VarEnv} {n x : Str} {k : VarEnv → Prog} {S : List Ev} (h : ∀ m S', S ⊆ S' → Out E (k m) φ S') :
    Out E (writeVar v n x k) φ S := by
  cases v with
  | own m => exact h _ S (List.Subset.refl _)
  | global => exact .quiet (fun _ => rfl) fun _ S' hs _ => h _ S' hs

end

/-! ### more events change nothing -/

theorem stepFails_mono {c : Cfg} {T : Task} {loc : Loc} {i : RunItem} {S S' : List Ev} {e : Err} (hs : S ⊆ S') (h : StepFails c S T loc i e) :
    StepFails c S' T loc i e := by
  cases h with
  | blank h => exact .blank h
  | text h1 h2 => exact .text (hs h1) h2
  | env h1 h2 h3 => exact .env (hs h1) h2 h3
  | dirText h1 h2 => exact .dirText (hs h1) h2
  | dir h1 h2 h3 h4 => exact .dir (hs h1) h2 h3 h4
  | failed h1 h2 h3 h4 => exact .failed (hs h1) h2 (hs h3) (hs h4)
  | notStarted h1 h2 h3 => exact .notStarted (hs h1) h2 (hs h3)
  | stopped h1 h2 h3 h4 => exact .stopped (hs h1) h2 (h3.imp (fun ⟨c, h⟩ => ⟨c, hs h⟩) (fun h => hs h)) (hs h4)
  | log h1 h2 => exact .log (hs h1) h2
  | kind h => exact .kind h

mutual
theorem taskFails_mono {c : Cfg} {tasks : TaskMap} {S S' : List Ev} {n : Str} {e : Err} (hs : S ⊆ S') : TaskFails c tasks S n e → TaskFails c tasks S' n e
  | .unknown h => .unknown h
  | .circular h hp => .circular (hs h) hp
  | .cond h1 h2 => .cond h1 h2
  | .dep h1 h2 h3 => .dep h1 h2 (taskFails_mono hs h3)
  | .var h1 h2 h3 => .var h1 h2 h3
  | .varCycle h1 h2 h3 h4 => .varCycle h1 h2 h3 h4
  | .env h1 h2 h3 h4 => .env h1 (hs h2) h3 h4
  | .cancelled h1 h2 h3 => .cancelled h1 h2 (hs h3)
  | .none h1 h2 h3 => .none h1 h2 h3
  | .itemCond h1 h2 h3 h4 => .itemCond h1 h2 h3 h4
  | .item h1 h2 h3 h4 => .item h1 h2 (hs h3) (itemFails_mono hs h4)
theorem itemFails_mono {c : Cfg} {tasks : TaskMap} {S S' : List Ev} {n : Str} {T : Task} {i : Nat} {item : RunItem} {e : Err} (hs : S ⊆ S') :
    ItemFails c tasks S n T i item e → ItemFails c tasks S' n T i item e
  | .step h => .step (stepFails_mono hs h)
  | .call h => .call (taskFails_mono hs h)
  | .promptText h1 h2 h3 => .promptText (hs h1) h2 h3
  | .prompt h he => .prompt (hs h) he
  | .preDep h1 h2 h3 h4 => .preDep h1 h2 h3 (taskFails_mono hs h4)
  | .blockUnknown h1 h2 => .blockUnknown h1 h2
  | .view h => .view (hs h)
  | .blockStep h1 h2 h3 h4 => .blockStep h1 h2 (hs h3) (stepFails_mono hs h4)
  | .blockCall h1 h2 h3 h4 => .blockCall h1 h2 (hs h3) (taskFails_mono hs h4)
end

/-! ### the functions of the runner -/

section
variable {c : Cfg} {tasks : TaskMap}

local notation "O" => Out (Right c tasks)

theorem mono_task (n : Str) : Mono (fun S e => TaskFails c tasks S n e) := fun _ _ _ hs h => taskFails_mono hs h

theorem plain {v : Ev} {p : Prog} {φ : List Ev → Err → Prop} {S : List Ev} (hv : ∀ S', Right c tasks S' v)
    (h : ∀ S', S ⊆ S' → v ∈ S' → O p φ S') : O (.note v p) φ S := .note (fun S' _ => hv S') h

theorem runProc {T : Task} {v : CommandRun} {m : GoMap Str} {fr : Frame} {loc : Loc} {spec : ProcSpec} {S : List Ev} (hs : .sees loc m ∈ S)
    (ht : interpolate v.cmd ⟨m, c.env⟩ = .ok spec.cmd) :
    O (Bab.runProc T.name fr loc spec) (fun S e => StepFails c S T loc (.command v) e) S := by
  refine .act ?_ fun started S1 hs1 _ => ?_
  · intro x S' v hv
    cases x <;> (simp only [Act.evs, List.mem_singleton] at hv; subst hv; trivial)
  · cases started with
    | true =>
      refine .act ?_ fun r S2 hs2 _ => ?_
      · intro x S' v hv
        simp only [Act.evs, List.mem_singleton] at hv; subst hv; trivial
      · cases r with
        | none => exact .retNone
        | some code =>
          refine .quiet (fun _ => rfl) fun b S3 hs3 hfine => .err ?_
          have h1 : .sees loc m ∈ S3 := hs3 (List.mem_append_left _ (hs2 (List.mem_append_left _ (hs1 hs))))
          have h2 : .procStart loc spec ∈ S3 := hs3 (List.mem_append_left _ (hs2 (by simp [Act.evs])))
          have h3 : .procEnd loc (some code) ∈ S3 := hs3 (by simp [Act.evs])
          cases b with
          | true =>
            obtain ⟨id, hid⟩ := hfine rfl
            exact .stopped h1 ht (Or.inl ⟨code, h3⟩) hid
          | false => exact .failed h1 ht h2 h3
    | false =>
      refine .quiet (fun _ => rfl) fun b S3 hs3 hfine => .err ?_
      have h1 : .sees loc m ∈ S3 := hs3 (List.mem_append_left _ (hs1 hs))
      have h3 : .procFail loc ∈ S3 := hs3 (by simp [Act.evs])
      cases b with
      | true =>
        obtain ⟨id, hid⟩ := hfine rfl
        exact .stopped h1 ht (Or.inr h3) hid
      | false => exact .notStarted h1 ht h3

theorem resolveDir {T : Task} {v : CommandRun} {m : GoMap Str} {e : Err} {S : List Ev} {loc : Loc} (hs : .sees loc m ∈ S)
    (h : Bab.resolveDir c T v.dir ⟨m, c.env⟩ = .error e) : StepFails c S T loc (.command v) ((Err.wrap (.dirOf T.name v.cmd) e).placed v.line) := by
  have hd : (if (if v.dir = [] then T.dir else v.dir) = [] then c.globalDir else if v.dir = [] then T.dir else v.dir) = givenDir c T v := by
    unfold givenDir
    by_cases h1 : v.dir = []
    · by_cases h2 : T.dir = []
      · simp [h1, h2]
      · simp [h1, h2]
    · simp [h1]
  unfold Bab.resolveDir at h
  simp only at h
  rw [hd] at h
  split at h
  · cases h
  · split at h
    · rename_i e' he
      cases h
      exact .dirText hs (interpolate_lacks he)
    · rename_i x hx
      split at h
      · cases h
      · rename_i hst
        cases h
        exact .dir hs hx rfl hst

theorem executeCommand {T : Task} {fr : Frame} {loc : Loc} {v : CommandRun} {vars : VarEnv}
    {tenv : GoMap Str} {S : List Ev} (htenv : ∀ q ∈ tenv, EnvText c T q.2) :
    O (Bab.executeCommand c T fr loc v vars tenv) (fun S e => StepFails c S T loc (.command v) e) S := by
  unfold Bab.executeCommand
  split
  · rename_i hs
    exact .err (.blank (Expl.trimSpace_nil hs))
  · refine .readVars fun m S1 hs1 => plain (fun _ => trivial) fun S2 hs2 hsee => ?_
    split
    · rename_i e0 he0
      obtain ⟨e, he, rfl⟩ := of_placed_error he0
      refine .err ?_
      unfold prepareCommand at he
      split at he
      · rename_i e' he'
        cases he
        exact .text hsee (interpolate_lacks he')
      · split at he
        · rename_i e' he'
          cases he
          obtain ⟨k, x, h1, h2⟩ := interpolateEnv_lacks he'
          rcases Expl.mem_merge h1 with h1 | h1
          · exact .env (k := k) hsee (Or.inr (htenv _ h1)) h2
          · exact .env hsee (Or.inl h1) h2
        · split at he
          · rename_i e' he'
            cases he
            exact resolveDir hsee he'
          · cases he
    · rename_i text env dir he0
      have he := of_placed_ok he0
      have ht : interpolate v.cmd ⟨m, c.env⟩ = .ok text := by
        unfold prepareCommand at he
        split at he
        · cases he
        · rename_i text' ht
          split at he
          · cases he
          · split at he
            · cases he
            · cases he; exact ht
      split
      · exact plain (fun _ => trivial) fun _ _ _ => .retNone
      · simp only
        split
        · exact runProc hsee ht
        · exact plain (fun _ => trivial) fun S3 hs3 _ => runProc (hs3 hsee) ht

/-- recursive calls tell the way -/
def RecOut (c : Cfg) (tasks : TaskMap) (rec : Rec) : Prop :=
  ∀ fr b n S, Out (Right c tasks) (rec fr b n) (fun S e => TaskFails c tasks S n e) S

variable {rec : Rec} (hrec : RecOut c tasks rec)
include hrec

/-- an item that is not a prompt and not a block -/
theorem executeRunItem {T : Task} {fr : Frame} {loc : Loc} {item : RunItem}
    {vars : VarEnv} {tenv : GoMap Str} {S : List Ev} (htenv : ∀ q ∈ tenv, EnvText c T q.2) :
    O (Bab.executeRunItem c rec T fr loc item vars tenv)
      (fun S e => StepFails c S T loc item e ∨ ∃ t, item = .task t ∧ TaskFails c tasks S t.task e) S := by
  unfold Bab.executeRunItem
  cases item with
  | command v => exact Out.weak (executeCommand htenv) fun _ _ h => Or.inl h
  | task t =>
    simp only
    split
    · exact plain (fun _ => trivial) fun _ _ _ => .retNone
    · exact Out.weak (hrec _ _ _ _) fun _ _ h => Or.inr ⟨t, rfl, h⟩
  | log l =>
    refine .readVars fun m S1 hs1 => plain (fun _ => trivial) fun S2 hs2 hsee => ?_
    split
    · rename_i e0 he0
      obtain ⟨e, he, rfl⟩ := of_placed_error he0
      exact .err (Or.inl (.log hsee (interpolate_lacks he)))
    · split <;> exact plain (fun _ => trivial) fun _ _ _ => .retNone
  | prompt p => exact .err (Or.inl (.kind (Or.inl ⟨p, rfl⟩)))
  | parallel => exact .err (Or.inl (.kind (Or.inr ⟨_, _, _, _, _, _, _, _, _, _, rfl⟩)))

theorem preDeps {φ : List Ev → Err → Prop} {fr : Frame} {ds seen : List Str} {k : List Str → Prog} {S : List Ev}
    (hd : ∀ d ∈ ds, ∀ S e, TaskFails c tasks S d e → φ S (.wrap (.preDep d) e))
    (hk : ∀ s S', S ⊆ S' → O (k s) φ S') : O (preDeps rec fr ds seen k) φ S := by
  induction ds generalizing seen S with
  | nil => exact hk seen S (List.Subset.refl _)
  | cons d ds ih =>
    have ih := fun seen S' (hs : S ⊆ S') => ih (seen := seen) (S := S') (fun x hx => hd x (List.mem_cons_of_mem _ hx))
      (fun s S'' hs' => hk s S'' (hs.trans hs'))
    unfold Bab.preDeps
    split
    · exact ih _ _ (List.Subset.refl _)
    · refine .quiet (fun _ => rfl) fun s S1 hs1 _ => ?_
      split
      · exact ih _ _ hs1
      · refine .bind (hrec _ _ _ _) fun r S2 hs2 hr => ?_
        cases r with
        | none => exact ih _ _ (hs1.trans hs2)
        | some e => exact .err (hd d List.mem_cons_self _ _ (hr e rfl))

theorem preResolveDeps {φ : List Ev → Err → Prop} {fr : Frame} {items : List RunItem} {seen : List Str} {k : Prog} {S : List Ev}
    (hd : ∀ t U d, .task t ∈ items → tasks.get? t.task = some U → d ∈ U.deps → ∀ S e, TaskFails c tasks S d e → φ S (.wrap (.preDep d) e))
    (hu : ∀ t, .task t ∈ items → tasks.get? t.task = none → ∀ S, φ S (.parallelUnknown t.task))
    (hk : ∀ S', S ⊆ S' → O k φ S') : O (preResolveDeps tasks rec fr items seen k) φ S := by
  induction items generalizing seen S with
  | nil => exact hk S (List.Subset.refl _)
  | cons item items ih =>
    have ih := fun seen S' (hs : S ⊆ S') => ih (seen := seen) (S := S') (fun t U d ht => hd t U d (List.mem_cons_of_mem _ ht))
      (fun t ht => hu t (List.mem_cons_of_mem _ ht)) (fun S'' hs' => hk S'' (hs.trans hs'))
    cases item with
    | task t =>
      unfold Bab.preResolveDeps
      cases hT : tasks.get? t.task with
      | none => exact .err (hu t List.mem_cons_self hT _)
      | some U => exact preDeps hrec (fun d hdd => hd t U d List.mem_cons_self hT hdd) (fun s S' hs => ih s S' hs)
    | _ => exact ih seen S (List.Subset.refl _)

omit hrec in
theorem runBlock {n : Str} {T : Task} {i : Nat} {lim : Nat} {ctx : CtxPath} {items : List RunItem} {labels : List Str} {mode : ParallelMode} {lim' : Nat}
    {color s o : Option Bool} {pl : List Str} {w : Str} {child : Nat → RunItem → Prog} {S : List Ev}
    (h : ∀ (j : Nat) item S', items[j]? = some item → O (child j item)
      (fun S e => StepFails c S T ⟨n, i, some j⟩ item e ∨ ∃ t, item = .task t ∧ TaskFails c tasks S t.task e) S') :
    O (Bab.runBlock lim ctx n i items labels child)
      (fun S e => ItemFails c tasks S n T i (.parallel items labels mode lim' color s o pl w ln) e) S := by
  refine ⟨fun S e => ItemFails c tasks S n T i (.parallel items labels mode lim' color s o pl w ln) e,
    fun _ _ _ hs h => itemFails_mono hs h, fun e he => (by cases he), fun j => ?_, fun r S' hs hr => ?_⟩
  · have hj : items[(j : Nat)]? = some (items.get j) := by simp
    refine plain (fun _ => trivial) fun S1 _ _ => .bind (h j _ _ hj) fun r S2 _ hr => ?_
    refine plain (fun _ => trivial) fun S3 hs3 hsub => ?_
    intro e he
    cases r with
    | none => cases he
    | some e' =>
      cases he
      rcases hr e' rfl with h1 | ⟨t, h1, h2⟩
      · exact .blockStep hj (label items labels j) hsub (stepFails_mono hs3 h1)
      · exact .blockCall (h1 ▸ hj) (label items labels j) hsub (taskFails_mono hs3 h2)
  · exact plain (fun _ => trivial) fun S3 hs3 _ e he => itemFails_mono hs3 (hr e he)

theorem executeParallel {n : Str} {T : Task} {fr : Frame} {i : Nat} {items : List RunItem} {labels : List Str} {mode : ParallelMode} {lim : Nat}
    {color silent output : Option Bool} {pl : List Str} {w : Str} {m tenv : GoMap Str} {S : List Ev} (htenv : ∀ q ∈ tenv, EnvText c T q.2) :
    O (executeParallel c tasks rec n T fr i items labels mode lim color silent output m tenv)
      (fun S e => ItemFails c tasks S n T i (.parallel items labels mode lim color silent output pl w ln) e) S := by
  unfold Bab.executeParallel
  refine preResolveDeps hrec (fun t U d h1 h2 h3 S e h => .preDep h1 h2 h3 h) (fun t h1 h2 S => .blockUnknown h1 h2) fun S1 _ => ?_
  have hchild : ∀ (fr : Frame) (j : Nat) (item : RunItem) S, items[j]? = some item →
      O (Bab.executeRunItem c rec T fr ⟨n, i, some j⟩ item (.own m) tenv)
        (fun S e => StepFails c S T ⟨n, i, some j⟩ item e ∨ ∃ t, item = .task t ∧ TaskFails c tasks S t.task e) S :=
    fun fr j item S _ => executeRunItem hrec htenv
  have htui : ∀ (fr : Frame) S, O (executeParallelTUI c rec n T fr i items labels lim m tenv)
      (fun S e => ItemFails c tasks S n T i (.parallel items labels mode lim color silent output pl w ln) e) S := by
    intro fr S
    unfold executeParallelTUI
    simp only
    split
    · exact plain (fun _ => trivial) fun _ _ _ => runBlock (fun j item S' hm => hchild _ j item S' hm)
    · refine .quiet (fun _ => rfl) fun id S2 _ _ => .act ?_ fun ok S3 _ _ => ?_
      · intro x S' v hv
        simp only [Act.evs, List.mem_singleton] at hv; subst hv; trivial
      · cases ok with
        | true => exact plain (fun _ => trivial) fun _ _ _ => runBlock (fun j item S' hm => hchild _ j item S' hm)
        | false => exact .err (.view (by simp [Act.evs]))
  have hint : ∀ (fr : Frame) S, O (executeParallelInterleaved c rec n T fr i items labels lim m tenv)
      (fun S e => ItemFails c tasks S n T i (.parallel items labels mode lim color silent output pl w ln) e) S :=
    fun fr S => plain (fun _ => trivial) fun _ _ _ => runBlock (fun j item S' hm => hchild _ j item S' hm)
  cases c.dry with
  | true => exact plain (fun _ => trivial) fun _ _ _ => .retNone
  | false =>
    simp only [Bool.false_eq_true, if_false]
    split
    · exact htui _ _
    · exact hint _ _

omit hrec in
theorem interpolatePrompt_prompt {p p' : PromptRun} {x : Ctx} (h : interpolatePrompt p x = .ok p') : p'.prompt = p.prompt := by
  unfold interpolatePrompt at h
  simp only [Bind.bind, Except.bind, Pure.pure, Except.pure] at h
  repeat' split at h
  all_goals first | cases h; rfl | cases h

omit hrec in
theorem nonInteractive_error {p : PromptRun} {e : Err} (h : handleNonInteractive p = .error e) : ∃ reason, e = .prompt reason := by
  unfold handleNonInteractive at h
  split at h <;> first
    | (split at h <;> cases h; exact ⟨_, rfl⟩)
    | (cases h; exact ⟨_, rfl⟩)

omit hrec in
theorem executePrompt {n : Str} {T : Task} {i : Nat} {p : PromptRun} {vars : VarEnv} {φ : List Ev → Err → Prop}
    {k : Option Err → VarEnv → Prog} {S : List Ev}
    (hk : ∀ r v S', S ⊆ S' → (∀ e, r = some e → ItemFails c tasks S' n T i (.prompt p) e) → O (k r v) φ S') :
    O (executePrompt c T.name ⟨n, i, none⟩ p vars k) φ S := by
  unfold Bab.executePrompt
  refine .readVars fun m S1 hs1 => plain (fun _ => trivial) fun S2 hs2 hsee => ?_
  have hs := hs1.trans hs2
  cases hp : placed p.line (interpolatePrompt p ⟨m, c.env⟩) with
  | error e =>
    obtain ⟨e1, hp1, rfl⟩ := of_placed_error hp
    exact hk _ _ _ hs fun e' he' => by
      cases he'
      obtain ⟨x, h1, h2⟩ := interpolatePrompt_lacks hp1
      exact .promptText hsee h1 h2
  | ok p' =>
    replace hp := of_placed_ok hp
    simp only
    have hname := interpolatePrompt_prompt hp
    have hgot : ∀ (r : Except Err Str) S3, S2 ⊆ S3 → .answered ⟨n, i, none⟩ p'.prompt r ∈ S3 →
        (∀ e, r = .error e → e = .canceled ∨ ∃ reason, e = .prompt reason) →
        O (match r with
          | .error e => k (some (.wrap (.prompt T.name p.prompt) e)) vars
          | .ok ans => Bab.writeVar vars p.prompt ans (k none)) φ S3 := by
      intro r S3 hs3 hr hre
      cases r with
      | error e => exact hk _ _ _ (hs.trans hs3) fun e' he' => by cases he'; exact .prompt (hname ▸ hr) (hre _ rfl)
      | ok a => exact .writeVar fun m S4 hs4 => hk _ _ _ ((hs.trans hs3).trans hs4) fun e he => by cases he
    split
    · exact plain (fun _ => trivial) fun S3 hs3 _ => hk _ _ _ (hs.trans hs3) fun e he => by cases he
    · split
      · refine .act ?_ fun r S3 hs3 hfine => hgot r _ (hs3.trans (List.subset_append_left _ _)) (by simp [Act.evs]) hfine
        intro x S' v hv
        simp only [Act.evs, List.mem_singleton] at hv; subst hv; trivial
      · exact plain (fun _ => trivial) fun S3 hs3 hmem => hgot _ _ hs3 hmem fun e he => Or.inr (nonInteractive_error he)

theorem executeItem {n : Str} {T : Task} {fr : Frame} {i : Nat} {φ : List Ev → Err → Prop}
    {item : RunItem} {vars : VarEnv} {tenv : GoMap Str} {k : Option Err → VarEnv → Prog} {S : List Ev}
    (htenv : ∀ q ∈ tenv, EnvText c T q.2)
    (hk : ∀ r v S', S ⊆ S' → (∀ e, r = some e → ItemFails c tasks S' n T i item e) → O (k r v) φ S') :
    O (executeItem c tasks rec n T fr i item vars tenv k) φ S := by
  have simple : ∀ S', (∀ e, StepFails c S' T ⟨n, i, none⟩ item e ∨ (∃ t, item = .task t ∧ TaskFails c tasks S' t.task e) →
      ItemFails c tasks S' n T i item e) := by
    rintro S' e (h | ⟨t, rfl, h⟩)
    · exact .step h
    · exact .call h
  unfold Bab.executeItem
  cases item with
  | prompt p => exact executePrompt hk
  | parallel items labels mode lim color silent output pl w ln =>
    simp only
    split
    · exact plain (fun _ => trivial) fun S' hs _ => hk _ _ _ hs fun e he => by cases he
    · exact .readVars fun m S1 hs1 => .bind (executeParallel hrec htenv) fun r S2 hs2 hr => hk _ _ _ (hs1.trans hs2) hr
  | command v => exact .bind (executeRunItem hrec htenv) fun r S2 hs2 hr => hk _ _ _ hs2 fun e he => simple _ e (hr e he)
  | log l => exact .bind (executeRunItem hrec htenv) fun r S2 hs2 hr => hk _ _ _ hs2 fun e he => simple _ e (hr e he)
  | task t => exact .bind (executeRunItem hrec htenv) fun r S2 hs2 hr => hk _ _ _ hs2 fun e he => simple _ e (hr e he)

theorem executeItems {n : Str} {T : Task} (hT : tasks.get? n = some T) (hrun : T.run ≠ []) {fr : Frame}
    {tenv : GoMap Str} {items : List RunItem} {i : Nat} {vars : VarEnv} {ex sk : Nat} {S : List Ev} (before : List RunItem)
    (hb : before ++ items = T.run) (hi : before.length = i) (hskip : ex = 0 ∧ sk = 0 → ∀ it ∈ before, it.onPlatform c.platform = false)
    (htenv : ∀ q ∈ tenv, EnvText c T q.2) :
    O (executeItems c tasks rec n T fr tenv items i vars ex sk) (fun S e => TaskFails c tasks S n e) S := by
  induction items generalizing i vars ex sk S before with
  | nil =>
    unfold Bab.executeItems
    split
    · rename_i h0
      rw [List.append_nil] at hb
      exact .err (.none hT hrun (hb ▸ hskip h0))
    · exact .retNone
  | cons item rest ih =>
    have hat : T.run[i]? = some item := by rw [← hb, ← hi]; simp
    have hb' : (before ++ [item]) ++ rest = T.run := by rw [← hb]; simp
    have hi' : (before ++ [item]).length = i + 1 := by simp [hi]
    have hlater : ∀ vars ex sk S, (ex = 0 ∧ sk = 0 → False) →
        O (Bab.executeItems c tasks rec n T fr tenv rest (i + 1) vars ex sk) (fun S e => TaskFails c tasks S n e) S :=
      fun vars ex sk S h => ih (before ++ [item]) hb' hi' (fun h0 => (h h0).elim)
    unfold Bab.executeItems
    refine .quiet (fun _ => rfl) fun b S1 hs1 hfine => ?_
    simp only
    have hgo : ∀ (w : Option (GoMap Str)) S, O (.note (.itemStart n i w) <|
          Bab.executeItem c tasks rec n T fr i item vars tenv fun r vars' =>
            .note (.itemEnd n i r) <|
            match r with
            | some e => .ret (some e)
            | none => Bab.executeItems c tasks rec n T fr tenv rest (i + 1) vars' (ex + 1) sk) (fun S e => TaskFails c tasks S n e) S := by
      intro w S
      refine plain (fun _ => trivial) fun S2 _ hst => executeItem hrec htenv fun r v S3 hs3 hr => ?_
      refine .note (fun S4 hs4 => ?_) fun S4 hs4 _ => ?_
      · cases r with
        | none => trivial
        | some e => exact ⟨T, item, hT, hat, itemFails_mono hs4 (hr e rfl)⟩
      · cases r with
        | some e => exact .err (.item hT hat (hs4 (hs3 hst)) (itemFails_mono hs4 (hr e rfl)))
        | none => exact hlater _ _ _ _ (by omega)
    split
    · rename_i hb1
      obtain ⟨id, hid⟩ := hfine hb1
      exact .err (.cancelled hT hrun hid)
    · split
      · rename_i hoff
        refine plain (fun _ => trivial) fun S2 _ _ => ih (before ++ [item]) hb' hi' fun h0 it hit => ?_
        rcases List.mem_append.mp hit with hit | hit
        · exact hskip h0 it hit
        · rw [List.mem_singleton] at hit; subst hit; exact hoff
      · rename_i hon
        split
        · exact hgo _ _
        · refine .readVars fun m S2 hs2 => ?_
          split
          · rename_i e0 he0
            obtain ⟨e, he, rfl⟩ := of_placed_error he0
            obtain ⟨e', rfl, hm⟩ := evaluate_lacks he
            exact .err (.itemCond hT hat (by simpa using hon) hm)
          · exact plain (fun _ => trivial) fun S3 _ _ => hlater _ _ _ _ (by omega)
          · exact hgo _ _

theorem runDeps {n : Str} {T : Task} (hT : tasks.get? n = some T) {fr : Frame} {k : Prog} {ds : List Str} {i : Nat} {S : List Ev} (before : List Str)
    (hb : before ++ ds = T.deps) (hi : before.length = i) (hk : ∀ S', S ⊆ S' → O k (fun S e => TaskFails c tasks S n e) S') :
    O (runDeps rec n fr k ds i) (fun S e => TaskFails c tasks S n e) S := by
  induction ds generalizing i S before with
  | nil => exact hk S (List.Subset.refl _)
  | cons d ds ih =>
    have hat : T.deps[i]? = some d := by rw [← hb, ← hi]; simp
    unfold Bab.runDeps
    refine .bind (hrec _ _ _ _) fun r S1 hs1 hr => ?_
    cases r with
    | none =>
      exact plain (fun _ => trivial) fun S2 hs2 _ => ih (before ++ [d]) (by rw [← hb]; simp) (by simp [hi]) fun S3 hs3 => hk S3 ((hs1.trans hs2).trans hs3)
    | some e =>
      refine .note (fun S2 hs2 => ⟨T, d, hT, hat, taskFails_mono hs2 (hr e rfl)⟩) fun S2 hs2 _ => .err ?_
      exact .dep hT (by rw [← hb]; simp) (taskFails_mono hs2 (hr e rfl))

omit hrec in
theorem interpolateEnv_texts {T : Task} {ctx : Ctx} {m r : GoMap Str} (hm : ∀ q ∈ m, (q.1, q.2) ∈ T.env ∨ (q.1, q.2) ∈ c.globalEnv)
    (h : interpolateEnv ctx m = .ok r) : ∀ q ∈ r, EnvText c T q.2 := by
  induction m generalizing r with
  | nil => cases h; intro q hq; cases hq
  | cons q m ih =>
    obtain ⟨k, v⟩ := q
    unfold interpolateEnv at h
    split at h
    · cases h
    · rename_i v' hv
      split at h
      · cases h
      · rename_i r' hr'
        cases h
        intro q hq
        rcases List.mem_cons.mp hq with rfl | hq
        · exact .mk (hm (k, v) List.mem_cons_self) hv
        · exact ih (fun q hq => hm q (List.mem_cons_of_mem _ hq)) hr' q hq

theorem executeTask {n : Str} {T : Task} (hT : tasks.get? n = some T) (hrun : T.run ≠ []) {fr : Frame}
    {S : List Ev} : O (executeTask c tasks rec n T fr) (fun S e => TaskFails c tasks S n e) S := by
  unfold Bab.executeTask
  refine .quiet (fun _ => rfl) fun g S1 _ _ => ?_
  cases hv : placed T.line (resolveVars T.vars g c.env) with
  | error e =>
    obtain ⟨e1, hv1, rfl⟩ := of_placed_error hv
    refine .err ?_
    cases hvs : T.vars with
    | none => rw [hvs] at hv1; cases hv1
    | some m =>
      rw [hvs] at hv1
      rcases C05_resolveVars_error_kind m g c.env e1 hv1 with ⟨x, ch, rfl, h1, h2⟩ | ⟨x, rfl, h⟩
      · exact .varCycle hT hvs h1 h2
      · exact .var hT hvs h
  | ok m =>
    replace hv := of_placed_ok hv
    refine plain (fun _ => trivial) fun S2 _ hvars => ?_
    have hfrom : ∀ q ∈ mergeEnvMaps [c.globalEnv, T.env], (q.1, q.2) ∈ T.env ∨ (q.1, q.2) ∈ c.globalEnv :=
      fun q hq => (Expl.mem_merge hq).symm
    split
    · rename_i e0 he0
      obtain ⟨e, he, rfl⟩ := of_placed_error he0
      obtain ⟨k, x, h1, h2⟩ := interpolateEnv_lacks he
      exact .err (.env hT hvars (hfrom _ h1) h2)
    · rename_i tenv htenv
      exact executeItems hrec hT hrun [] rfl rfl (fun _ it h => by cases h) (interpolateEnv_texts hfrom (of_placed_ok htenv))

theorem runTaskBody {n : Str} {fr : Frame} {isMain : Bool} {S : List Ev} :
    O (runTaskBody c tasks rec fr isMain n) (fun S e => TaskFails c tasks S n e) S := by
  unfold Bab.runTaskBody
  cases hT : tasks.get? n with
  | none => exact .err (.unknown hT)
  | some T =>
  simp only
  have hfin : ∀ S, O (.act (.setDone n) fun _ => .ret none) (fun S e => TaskFails c tasks S n e) S := fun S => .act (fun x S' v hv => by
    simp only [Act.evs, List.mem_singleton] at hv; subst hv; trivial) fun _ _ _ _ => .retNone
  have hdeps : ∀ S, O (Bab.runDeps rec n fr
      (if T.run = [] then .act (.setDone n) fun _ => .ret none
       else (Bab.executeTask c tasks rec n T fr).bind fun
        | some e => .ret (some e)
        | none => .act (.setDone n) fun _ => .ret none) T.deps 0) (fun S e => TaskFails c tasks S n e) S := by
    intro S
    refine runDeps hrec hT [] rfl rfl fun S1 _ => ?_
    split
    · exact hfin _
    · rename_i hrun
      refine .bind (executeTask hrec hT hrun) fun r S2 _ hr => ?_
      cases r with
      | none => exact hfin _
      | some e => exact .err (hr e rfl)
  have hgo : ∀ {A : Prog}, (∀ S, O A (fun S e => TaskFails c tasks S n e) S) → ∀ S,
      O (if !c.dry && !isSilent [fr.ovSilent, T.silent, c.globalSilent] then .note (.echoTask n isMain fr.out) A else A)
        (fun S e => TaskFails c tasks S n e) S := by
    intro A h S
    split
    · exact plain (fun _ => trivial) fun S' _ _ => h S'
    · exact h S
  split
  · exact hgo hdeps S
  · refine .quiet (fun _ => rfl) fun g S1 _ _ => ?_
    split
    · rename_i e0 he0
      obtain ⟨e, he, rfl⟩ := of_placed_error he0
      obtain ⟨e', rfl, hm⟩ := evaluate_lacks he
      exact .err (.cond hT hm)
    · exact plain (fun _ => trivial) fun S2 _ _ => hfin _
    · exact plain (fun _ => trivial) fun S2 _ _ => hgo hdeps _

omit hrec in
theorem chain_head (n : Str) (st : GoMap Status) : ∃ l, buildChain n tasks st = n :: l := by
  have key : ∀ (f : Nat) (l seen r : List Str), chainLoop n tasks st f (n :: l) seen = some r → ∃ l', r = n :: l' := by
    intro f
    induction f with
    | zero => intro l seen r h; cases h
    | succ f ih =>
      intro l seen r h
      unfold chainLoop at h
      simp only at h
      split at h
      · cases h; exact ⟨l, rfl⟩
      · split at h
        · cases h; exact ⟨l, rfl⟩
        · split at h
          · cases h; exact ⟨l, rfl⟩
          · split at h
            · exact ih _ _ _ h
            · split at h
              · cases h; exact ⟨_, rfl⟩
              · exact ih _ _ _ h
  obtain ⟨r, hr⟩ := Chain.build_some n tasks st
  obtain ⟨l, rfl⟩ := key _ _ _ _ hr
  exact ⟨l, by unfold buildChain; rw [hr]; rfl⟩

end

theorem runTask {c : Cfg} {tasks : TaskMap} (f : Nat) : RecOut c tasks (Bab.runTask c tasks f) := by
  induction f with
  | zero => exact fun fr b n S x S' _ hf => hf.elim
  | succ f ih =>
    intro fr b n S
    unfold Bab.runTask
    refine .act ?_ fun s S1 _ hfine => ?_
    · intro x S' v hv
      cases x with
      | none => simp only [Act.evs, List.mem_singleton] at hv; subst hv; trivial
      | some s => simp [Act.evs] at hv
    · cases s with
      | none =>
        refine .bind (runTaskBody ih) fun r S2 _ hr => .note (fun S3 hs3 => ?_) fun S3 hs3 _ e he => taskFails_mono hs3 (hr e he)
        cases r with
        | none => trivial
        | some e => exact taskFails_mono hs3 (hr e rfl)
      | some s =>
        cases s with
        | done => exact .retNone
        | running =>
          refine .quiet (fun _ => rfl) fun st S2 hs2 _ => .err ?_
          obtain ⟨l, hl⟩ := chain_head (tasks := tasks) n st
          have hp := (Expl.chain_path (c := c) (tasks := tasks) (main := n) (Or.inl rfl) (st := st) []).2.1
          rw [hl] at hp ⊢
          exact .circular (hs2 (List.mem_append_left _ (hfine rfl))) hp

/-- the invariant of an invocation for a judgement about events that more events do not change -/
theorem reach_of {E : List Ev → Ev → Prop} {φ : List Ev → Err → Prop} {c : Cfg} {tasks : TaskMap} {gvars : GoMap Str} {main : Str} {s : State}
    (hE : ∀ S S' v, S ⊆ S' → E S v → E S' v) (hφ : Mono φ) (hab : ∀ S t i j, E S (.subAbort t i j)) (hcan : ∀ S id, E S (.cancel id))
    (h0 : Out E (runWithTasks c tasks main) φ []) (h : Reach (start c tasks gvars main) s) :
    Out E s.prog φ s.sh.trace ∧ ∀ a v b, s.sh.trace = a ++ v :: b → E a v := by
  induction h with
  | refl =>
    refine ⟨h0, fun a v b hv => ?_⟩
    simp [start, Shared.init] at hv
  | @step t u ht hstep ih =>
    obtain ⟨h1, h3⟩ := ih
    have hinv := (Safe.runner_safe ht)
    have old : ∀ es : List Ev, (∀ v ∈ es, E t.sh.trace v) → ∀ a v b, t.sh.trace ++ es = a ++ v :: b → E a v := by
      intro es k4 a v b hv
      rcases List.append_eq_append_iff.mp hv with ⟨x, hx1, hx2⟩ | ⟨x, hx1, hx2⟩
      · subst hx1
        exact hE _ _ _ (List.subset_append_left _ _) (k4 v (by rw [hx2]; simp))
      · cases x with
        | nil =>
          rw [List.append_nil] at hx1
          subst hx1
          exact k4 v (by rw [List.nil_append] at hx2; rw [← hx2]; simp)
        | cons y x =>
          rw [List.cons_append] at hx2
          obtain ⟨rfl, -⟩ := List.cons.inj hx2
          exact h3 a v x hx1
    cases hstep with
    | @prog p σ p' σ' hst =>
      obtain ⟨k1, es, k3, k4⟩ := step hφ hst h1 hinv.1.running hinv.1.cancel (Sim.reach_not_pending ht) hab
      exact ⟨k1, by rw [show (State.mk p' σ').sh.trace = σ.trace ++ es from k3]; exact old es k4⟩
    | @cancel p σ id hid =>
      exact ⟨Out.mono hφ (List.subset_append_left _ _) h1, old [.cancel id] (fun v hv => by
        rw [List.mem_singleton] at hv; subst hv; exact hcan _ _)⟩

/-- in every state of an invocation what has been said about failures is right, and so is what will be returned -/
theorem reach {c : Cfg} {tasks : TaskMap} {gvars : GoMap Str} {main : Str} {s : State} (h : Reach (start c tasks gvars main) s) :
    Out (Right c tasks) s.prog (fun S e => TaskFails c tasks S main e) s.sh.trace ∧
    ∀ a v b, s.sh.trace = a ++ v :: b → Right c tasks a v := by
  refine reach_of ?_ (mono_task main) (fun _ _ _ _ => trivial) (fun _ _ => trivial) (runTask _ _ _ _ _) h
  intro S S' v hs hv
  cases v with
  | taskEnd n r =>
    cases r with
    | none => trivial
    | some e => exact taskFails_mono hs hv
  | depFail n k e => obtain ⟨T, d, h1, h2, h3⟩ := hv; exact ⟨T, d, h1, h2, taskFails_mono hs h3⟩
  | itemEnd n i r =>
    cases r with
    | none => trivial
    | some e => obtain ⟨T, d, h1, h2, h3⟩ := hv; exact ⟨T, d, h1, h2, itemFails_mono hs h3⟩
  | _ => trivial

end Msg

end Bab
