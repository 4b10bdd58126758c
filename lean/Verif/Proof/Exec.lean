import Verif.Model.Runner
/-
An executable scheduler, used to exhibit concrete executions: `drive` performs the steps that a
schedule prescribes, and every state it yields is reachable.
-/

namespace Bab
namespace Exec

/-- what to do next -/
inductive Pick
  /-- perform the next action; processes start and succeed, prompts are answered with "" -/
  | go
  /-- the process cannot be started, exits with this status, or the prompt fails -/
  | fail (code : Nat)
  /-- the prompt is answered -/
  | say (s : Str)
  /-- goroutine `i` of the block moves; inside its item according to `p` -/
  | sub (i : Nat) (p : Pick)
  /-- goroutine `i` stops waiting for the limit -/
  | abort (i : Nat)
  /-- the block ends -/
  | join
  deriving Repr

/-- the answer a pick prescribes for an action -/
def answer (σ : Shared) (pick : Pick) : (a : Act) → Option a.Resp
  | .claim n => some (σ.status.get? n)
  | .setDone _ => some ()
  | .status n => some (σ.status.get? n)
  | .snapshot => some σ.status
  | .globals => some σ.gvars
  | .setGlobal _ _ => some ()
  | .cancelled c => some (σ.isCancelled c)
  | .newCtx => some σ.ctxs
  | .start c _ _ => match pick with
    | .fail _ => some false
    | _ => some (!σ.isCancelled c)
  | .wait _ => match pick with
    | .fail n => some (some n)
    | _ => some none
  | .prompt _ _ => match pick with
    | .fail _ => some (.error .canceled)
    | .say s => some (.ok s)
    | _ => some (.ok [])
  | .tui => match pick with
    | .fail _ => some false
    | _ => some true
  | .emit _ => some ()
  | .fuel => some ()

theorem answer_ok {σ : Shared} {pick : Pick} {a : Act} {x : a.Resp} (h : answer σ pick a = some x) :
    a.Answers σ x := by
  cases a with
  | start c l s =>
    intro hx
    simp only [answer] at h
    split at h
    · cases h; cases hx
    · cases h; exact (Bool.not_eq_true' _).mp hx
  | claim n => simp only [answer] at h; injection h with h; exact h.symm
  | status n => simp only [answer] at h; injection h with h; exact h.symm
  | snapshot => simp only [answer] at h; injection h with h; exact h.symm
  | globals => simp only [answer] at h; injection h with h; exact h.symm
  | cancelled c => simp only [answer] at h; injection h with h; exact h.symm
  | newCtx => simp only [answer] at h; injection h with h; exact h.symm
  | prompt l p =>
    simp only [answer] at h
    intro e he
    split at h
    · cases h; cases he; exact Or.inl rfl
    · cases h; cases he
    · cases h; cases he
  | _ => trivial

/-- one step of a program -/
def step : Pick → Prog → Shared → Option (Prog × Shared)
  | _, .ret _, _ => none
  | pick, .act a k, σ =>
    match answer σ pick a with
    | some x => some (k x, a.apply σ x)
    | none => none
  | .sub j p, .par lim ctx t it n st ps k, σ =>
    if hj : j < n then
      let i : Fin n := ⟨j, hj⟩
      match st.tag i with
      | .init =>
        if lim = 0 ∨ st.held < lim then
          some (.par lim ctx t it n
            { st with held := if lim = 0 then st.held else st.held + 1, tag := upd st.tag i .running } ps k, σ)
        else none
      | .running =>
        match ps i with
        | .ret r => some (.par lim ctx t it n
            { st with first := once st.first r, tag := upd st.tag i .returned } ps k, σ)
        | q => match step p q σ with
          | some (q', σ') => some (.par lim ctx t it n st (upd ps i q') k, σ')
          | none => none
      | .returned => some (.par lim ctx t it n
          { st with held := if lim = 0 then st.held else st.held - 1, tag := upd st.tag i .released } ps k, σ)
      | .released => some (.par lim ctx t it n { st with wg := st.wg - 1, tag := upd st.tag i .done } ps k, σ)
      | .done => none
    else none
  | .abort j, .par lim ctx t it n st ps k, σ =>
    if hj : j < n then
      if st.tag ⟨j, hj⟩ = .init ∧ lim ≠ 0 ∧ σ.isCancelled ctx = true then
        some (.par lim ctx t it n { st with wg := st.wg - 1, tag := upd st.tag ⟨j, hj⟩ .done } ps k,
          { σ with trace := σ.trace ++ [.subAbort t it j] })
      else none
    else none
  | .join, .par _ _ _ _ _ st _ k, σ => if st.wg = 0 then some (k st.first, σ) else none
  | _, .par _ _ _ _ _ _ _ _, _ => none

theorem step_ok {pick : Pick} {p : Prog} {σ : Shared} {p' : Prog} {σ' : Shared}
    (h : step pick p σ = some (p', σ')) : Step p σ p' σ' := by
  induction pick generalizing p σ p' σ' with
  | sub j pk ih =>
    cases p with
    | ret r => simp [step] at h
    | act a k =>
      simp only [step] at h
      split at h
      · rename_i x hx
        cases h
        exact .act x (answer_ok hx)
      · cases h
    | par lim ctx t it n st ps k =>
      simp only [step] at h
      split at h
      · rename_i hj
        split at h
        · rename_i ht
          split at h
          · rename_i hs
            cases h
            exact .acquire _ ht hs
          · cases h
        · rename_i ht
          split at h
          · rename_i r hr
            cases h
            exact .finish _ ht hr
          · split at h
            · rename_i q' σ1 hq
              cases h
              exact .child _ ht (ih hq)
            · cases h
        · rename_i ht
          cases h
          exact .release _ ht
        · rename_i ht
          cases h
          exact .wgDone _ ht
        · cases h
      · cases h
  | _ =>
    cases p with
    | ret r => simp [step] at h
    | act a k =>
      simp only [step] at h
      split at h
      · rename_i x hx
        cases h
        exact .act x (answer_ok hx)
      · cases h
    | par lim ctx t it n st ps k =>
      simp only [step] at h
      first
        | (cases h; done)
        | (split at h
           · first
              | (cases h; exact .join (by assumption))
              | (split at h
                 · rename_i hs
                   cases h
                   exact .abort ⟨_, by assumption⟩ hs.1 hs.2.1 hs.2.2
                 · cases h)
           · cases h)

/-- a default choice: the first goroutine that can move, else the end of the block -/
def pickOf : Prog → Pick
  | .ret _ => .go
  | .act _ _ => .go
  | .par lim _ _ _ n st ps _ =>
    ((List.finRange n).findSome? fun i =>
      match st.tag i with
      | .init => if lim = 0 ∨ st.held < lim then some (Pick.sub i .go) else none
      | .running => some (.sub i (pickOf (ps i)))
      | .returned => some (.sub i .go)
      | .released => some (.sub i .go)
      | .done => none).getD .join

/-- an entry of a schedule -/
inductive Do
  /-- at most `n` default choices -/
  | auto (n : Nat)
  /-- repeat a pick at most `n` times, while it is possible -/
  | rep (p : Pick) (n : Nat)
  /-- cancel a context -/
  | cancel (id : Nat)
  deriving Repr

/-- repeat a pick while it is possible -/
def repeated (p : Pick) : Nat → State → State
  | 0, s => s
  | n + 1, s =>
    match step p s.prog s.sh with
    | some (q, σ) => repeated p n ⟨q, σ⟩
    | none => s

/-- default choices -/
def automatic : Nat → State → State
  | 0, s => s
  | n + 1, s =>
    match step (pickOf s.prog) s.prog s.sh with
    | some (q, σ) => automatic n ⟨q, σ⟩
    | none => s

/-- perform a schedule -/
def drive : List Do → State → State
  | [], s => s
  | .auto n :: r, s => drive r (automatic n s)
  | .rep p n :: r, s => drive r (repeated p n s)
  | .cancel id :: r, s =>
    if id < s.sh.ctxs then
      drive r ⟨s.prog, { s.sh with cancelled := id :: s.sh.cancelled, trace := s.sh.trace ++ [.cancel id] }⟩
    else drive r s

theorem repeated_reach {s0 s : State} (h : Reach s0 s) (p : Pick) (n : Nat) : Reach s0 (repeated p n s) := by
  induction n generalizing s with
  | zero => exact h
  | succ n ih =>
    simp only [repeated]
    split
    · rename_i q σ hq
      exact ih (.step h (.prog (step_ok hq)))
    · exact h

theorem automatic_reach {s0 s : State} (h : Reach s0 s) (n : Nat) : Reach s0 (automatic n s) := by
  induction n generalizing s with
  | zero => exact h
  | succ n ih =>
    simp only [automatic]
    split
    · rename_i q σ hq
      exact ih (.step h (.prog (step_ok hq)))
    · exact h

theorem drive_reach {s0 s : State} (h : Reach s0 s) (l : List Do) : Reach s0 (drive l s) := by
  induction l generalizing s with
  | nil => exact h
  | cons d r ih =>
    cases d with
    | auto n => exact ih (automatic_reach h n)
    | rep p n => exact ih (repeated_reach h p n)
    | cancel id =>
      simp only [drive]
      split
      · rename_i hid
        exact ih (.step h (.cancel id hid))
      · exact ih h

/-- the states a schedule leads to are reachable -/
theorem reach (s : State) (l : List Do) : Reach s (drive l s) := drive_reach .refl l

/-- what a finished program returned -/
def result (s : State) : Option (Option Err) :=
  match s.prog with
  | .ret r => some r
  | _ => none

end Exec
end Bab
