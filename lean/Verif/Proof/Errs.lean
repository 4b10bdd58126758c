import Verif.Model.Runner
/-
Which errors the helpers of the runner can produce.
-/

namespace Bab

/-- an error that is neither "no run items for this platform" nor a circular dependency -/
def Err.Local : Err → Prop
  | .noItems _ => False
  | .circularDep _ => False
  | .wrap _ e => e.Local
  | _ => True

theorem placed_local {α : Type} {l : Nat} {r : Except Err α} {e : Err} (h : placed l r = .error e)
    (hr : ∀ {e'}, r = .error e' → e'.Local) : e.Local := by
  obtain ⟨e', he, rfl⟩ := of_placed_error h
  have := hr he
  clear he h
  induction e' with
  | wrap w e ih => exact ih this
  | _ => exact this

theorem Err.Local.ne {e : Err} (h : e.Local) (x : Str) : e ≠ .noItems x := by
  rintro rfl; exact h

theorem resolveVar_local {ctx : Ctx} {n : Str} {e : Err} (h : resolveVar ctx n = .error e) : e.Local := by
  unfold resolveVar at h
  split at h
  · cases h
  · split at h
    · cases h
    · cases h; trivial

theorem substRefs_local {ctx : Ctx} (n : Nat) (s : Str) : ∀ e ∈ (substRefs (resolveVar ctx) n s).2, e.Local := by
  induction s generalizing n with
  | nil => intro e he; cases n <;> simp [substRefs] at he
  | cons c r ih =>
    cases n with
    | succ n => exact ih n
    | zero =>
      unfold substRefs
      split
      · rename_i name rest _
        simp only
        cases hl : resolveVar ctx name with
        | ok v => exact ih _
        | error e =>
          intro e' he'
          rcases List.mem_cons.mp he' with rfl | he'
          · exact resolveVar_local hl
          · exact ih _ _ he'
      · exact ih 0

theorem interpolate_local {s : Str} {ctx : Ctx} {e : Err} (h : interpolate s ctx = .error e) : e.Local := by
  unfold interpolate interpolateFull at h
  have := substRefs_local (ctx := ctx) 0 (replaceEscapes s)
  cases hh : (substRefs (resolveVar ctx) 0 (replaceEscapes s)).2 with
  | nil => simp [hh] at h
  | cons a b =>
    simp [hh] at h
    subst h
    exact this _ (by rw [hh]; exact List.mem_cons_self)

theorem evaluate_local {s : Str} {ctx : Ctx} {e : Err} (h : evaluate s ctx = .error e) : e.Local := by
  unfold evaluate at h
  split at h
  · cases h
  · split at h
    · rename_i e' he
      cases h
      exact (interpolate_local he : e'.Local)
    · cases h

theorem resolveRefs_local {vars : GoMap Str} {one : Str → RState → Except Err (Str × RState)}
    (hone : ∀ n st e, one n st = .error e → e.Local) {refs : List Str} {st : RState} {e : Err}
    (h : resolveRefs vars one refs st = .error e) : e.Local := by
  induction refs generalizing st with
  | nil => cases h
  | cons r rs ih =>
    unfold resolveRefs at h
    split at h
    · exact ih h
    · split at h
      · split at h
        · rename_i e' he
          cases h
          exact hone _ _ _ he
        · exact ih h
      · exact ih h

theorem resolveOne_local {vars parent : GoMap Str} {env : Str → Option Str} (fuel : Nat) :
    ∀ n st e, resolveOne vars parent env fuel n st = .error e → e.Local := by
  induction fuel with
  | zero => intro n st e h; cases h; trivial
  | succ fuel ih =>
    intro n st e h
    unfold resolveOne at h
    split at h
    · cases h
    · split at h
      · cases h; trivial
      · split at h
        · split at h
          · cases h
          · cases h; trivial
        · simp only at h
          split at h
          · rename_i e' he
            cases h
            exact resolveRefs_local ih he
          · split at h
            · rename_i e' he
              cases h
              exact interpolate_local he
            · cases h

theorem resolveAll_local {one : Str → RState → Except Err (Str × RState)}
    (hone : ∀ n st e, one n st = .error e → e.Local) {ns : List Str} {st : RState} {e : Err}
    (h : resolveAll one ns st = .error e) : e.Local := by
  induction ns generalizing st with
  | nil => cases h
  | cons r rs ih =>
    unfold resolveAll at h
    split at h
    · rename_i e' he
      cases h
      exact hone _ _ _ he
    · exact ih h

theorem resolveVars_local {vars : Option (GoMap Str)} {parent : GoMap Str} {env : Str → Option Str} {e : Err}
    (h : resolveVars vars parent env = .error e) : e.Local := by
  unfold resolveVars at h
  split at h
  · cases h
  · split at h
    · rename_i e' he
      cases h
      exact resolveAll_local (resolveOne_local _) he
    · cases h

theorem interpolateEnv_local {ctx : Ctx} {m : GoMap Str} {e : Err} (h : interpolateEnv ctx m = .error e) :
    e.Local := by
  induction m with
  | nil => cases h
  | cons p r ih =>
    obtain ⟨k, v⟩ := p
    unfold interpolateEnv at h
    split at h
    · rename_i e' he
      cases h
      exact interpolate_local he
    · split at h
      · rename_i e' he
        cases h
        exact ih he
      · cases h

theorem resolveDir_local {c : Cfg} {T : Task} {d : Str} {ctx : Ctx} {e : Err}
    (h : resolveDir c T d ctx = .error e) : e.Local := by
  unfold resolveDir at h
  simp only at h
  generalize (if (if d = [] then T.dir else d) = [] then c.globalDir else if d = [] then T.dir else d) = d' at h
  split at h
  · cases h
  · split at h
    · rename_i e' he
      cases h
      exact (interpolate_local he : e'.Local)
    · split at h
      · cases h
      · cases h; trivial

theorem prepareCommand_local {c : Cfg} {T : Task} {v : CommandRun} {tenv m : GoMap Str} {e : Err}
    (h : prepareCommand c T v tenv m = .error e) : e.Local := by
  unfold prepareCommand at h
  split at h
  · rename_i e' he
    cases h
    exact interpolate_local he
  · split at h
    · rename_i e' he
      cases h
      exact interpolateEnv_local he
    · split at h
      · rename_i e' he
        cases h
        exact (resolveDir_local he : e'.Local)
      · cases h

theorem interpolateOpt_local {ctx : Ctx} {s : Str} {e : Err} (h : interpolateOpt ctx s = .error e) : e.Local := by
  unfold interpolateOpt at h
  split at h
  · cases h
  · exact interpolate_local h

theorem interpolateList_local {ctx : Ctx} {ss : List Str} {e : Err} (h : interpolateList ctx ss = .error e) :
    e.Local := by
  induction ss with
  | nil => cases h
  | cons s ss ih =>
    unfold interpolateList at h
    split at h
    · rename_i e' he
      cases h
      exact interpolate_local he
    · split at h
      · rename_i e' he
        cases h
        exact ih he
      · cases h

theorem interpolatePrompt_local {p : PromptRun} {ctx : Ctx} {e : Err} (h : interpolatePrompt p ctx = .error e) :
    e.Local := by
  unfold interpolatePrompt at h
  simp only [bind, Except.bind, pure, Except.pure] at h
  split at h
  · rename_i e' he; cases h; exact interpolate_local he
  · split at h
    · rename_i e' he; cases h; exact interpolateOpt_local he
    · split at h
      · rename_i e' he; cases h; exact interpolateOpt_local he
      · split at h
        · rename_i e' he; cases h; exact interpolateList_local he
        · split at h
          · rename_i e' he; cases h; exact interpolateList_local he
          · cases h

end Bab
