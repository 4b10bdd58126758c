import Verif.Spec.Asked
import Verif.Proof.ResolveVars
import Verif.Proof.SecretRun
import Verif.Props.Interpolate
/-
What the runner does depends on the process environment only through the names that the Babfile uses.
-/

namespace Bab
open Spec Spec.Asked

namespace Asked

variable {N : Str → Prop} {env env' : Str → Option Str}

/-! ### texts -/

theorem names_interpolate (he : ∀ x, N x → env x = env' x) {t : Str} (ht : Names N t) (m : GoMap Str) :
    interpolate t ⟨m, env⟩ = interpolate t ⟨m, env'⟩ := by
  obtain ⟨ts, hts⟩ := reads_exists t
  have : substRefs (resolveVar ⟨m, env⟩) 0 (replaceEscapes t) = substRefs (resolveVar ⟨m, env'⟩) 0 (replaceEscapes t) := by
    apply substRefs_congr
    intro n hn
    rw [extract_replaceEscapes hts] at hn
    rw [resolveVar_value, resolveVar_value]
    by_cases hi : IsEnv n
    · obtain ⟨x, rfl⟩ := hi
      rw [value_env, value_env]
      simp only
      rw [he x (ht x ⟨ts, hts, hn⟩)]
    · rw [value_var _ _ hi, value_var _ _ hi]
  unfold interpolate interpolateFull
  simp only [this]

theorem names_env (he : ∀ x, N x → env x = env' x) {l : GoMap Str} (hl : ∀ p ∈ l, Names N p.2) (m : GoMap Str) :
    interpolateEnv ⟨m, env⟩ l = interpolateEnv ⟨m, env'⟩ l := by
  induction l with
  | nil => rfl
  | cons q l ih =>
    obtain ⟨k, v⟩ := q
    simp only [interpolateEnv]
    rw [names_interpolate he (hl _ List.mem_cons_self), ih fun p hp => hl p (List.mem_cons_of_mem _ hp)]

theorem names_list (he : ∀ x, N x → env x = env' x) {l : List Str} (hl : ∀ t ∈ l, Names N t) (m : GoMap Str) :
    interpolateList ⟨m, env⟩ l = interpolateList ⟨m, env'⟩ l := by
  induction l with
  | nil => rfl
  | cons s l ih =>
    simp only [interpolateList]
    rw [names_interpolate he (hl _ List.mem_cons_self), ih fun p hp => hl p (List.mem_cons_of_mem _ hp)]

theorem names_opt (he : ∀ x, N x → env x = env' x) {t : Str} (ht : Names N t) (m : GoMap Str) :
    interpolateOpt ⟨m, env⟩ t = interpolateOpt ⟨m, env'⟩ t := by
  unfold interpolateOpt
  rw [names_interpolate he ht]

theorem names_prompt (he : ∀ x, N x → env x = env' x) {p : PromptRun} (hp : NamesItem N (.prompt p)) (m : GoMap Str) :
    interpolatePrompt p ⟨m, env⟩ = interpolatePrompt p ⟨m, env'⟩ := by
  obtain ⟨-, h1, h2, h3, h4, h5⟩ := hp
  unfold interpolatePrompt
  rw [names_interpolate he h1, names_opt he h2, names_opt he h3, names_list he h4, names_list he h5]

theorem names_evaluate (he : ∀ x, N x → env x = env' x) {t : Str} (ht : Names N t) (m : GoMap Str) :
    evaluate t ⟨m, env⟩ = evaluate t ⟨m, env'⟩ := by
  unfold evaluate
  rw [names_interpolate he ht]

theorem names_dir (he : ∀ x, N x → env x = env' x) {c c' : Cfg} (hc : c'.globalDir = c.globalDir) (hs : c'.stat = c.stat) {T : Task} {d : Str}
    (h1 : Names N d) (h2 : Names N T.dir) (h3 : Names N c.globalDir) (m : GoMap Str) :
    resolveDir c T d ⟨m, env⟩ = resolveDir c' T d ⟨m, env'⟩ := by
  unfold resolveDir
  dsimp only
  rw [hc, hs]
  have hx : Names N (if (if d = [] then T.dir else d) = [] then c.globalDir else if d = [] then T.dir else d) := by
    have h4 : Names N (if d = [] then T.dir else d) := by
      split
      · exact h2
      · exact h1
    generalize (if d = [] then T.dir else d) = e at h4
    split
    · exact h3
    · exact h4
  rw [names_interpolate he hx]

theorem names_one (he : ∀ x, N x → env x = env' x) {vars : GoMap Str} (hv : ∀ k raw, vars.get? k = some raw → Names N raw)
    (parent : GoMap Str) (fuel : Nat) : resolveOne vars parent env fuel = resolveOne vars parent env' fuel := by
  induction fuel with
  | zero => rfl
  | succ fuel ih =>
    funext n s
    unfold resolveOne
    rw [ih]
    cases hg : vars.get? n with
    | none => rfl
    | some raw =>
      dsimp only
      cases resolveRefs vars (resolveOne vars parent env' fuel) (extractVarRefs 0 raw) _ with
      | error e => rfl
      | ok s2 => simp only [names_interpolate he (hv n raw hg)]

theorem names_vars (he : ∀ x, N x → env x = env' x) {vars : Option (GoMap Str)}
    (hv : ∀ k raw, (vars.getD []).get? k = some raw → Names N raw) (parent : GoMap Str) :
    resolveVars vars parent env = resolveVars vars parent env' := by
  unfold resolveVars
  cases vars with
  | none => rfl
  | some vars =>
    have hv : ∀ k raw, vars.get? k = some raw → Names N raw := hv
    dsimp only
    rw [names_one he hv]

/-! ### the values of `env` for tasks -/

theorem inert_names {t : Str} (h : '$' ∉ t) : Names N t := by
  rintro x ⟨ts, hr, hx⟩
  exfalso
  have : ∀ {t ts}, Reads t ts → '$' ∉ t → refs ts = [] := by
    intro t ts hr
    induction hr with
    | nil => exact fun _ => rfl
    | esc _ _ => exact fun hn => absurd (List.mem_append_left _ (by decide)) hn
    | ref hi _ _ =>
      obtain ⟨w1, w2, rfl, -⟩ := hi
      exact fun hn => absurd (by simp) hn
    | chr _ _ _ ih => exact fun hn => ih fun hm => hn (List.mem_cons_of_mem _ hm)
  rw [this hr h] at hx
  cases hx

theorem settled_interpolate {t : Str} (h : Settled env t) {m : GoMap Str} {v : Str} (hi : interpolate t ⟨m, env⟩ = .ok v) : '$' ∉ v := by
  obtain ⟨hn, ts, hr, hk⟩ := h
  have hval : ∀ n v, n ∈ refs ts → value m.get? env n = some v → '$' ∉ v ∧ NoNul v := by
    clear hr hi
    induction ts with
    | nil => rintro n v ⟨⟩
    | cons k ts ih =>
      have hrest := ih fun k' hk' => hk k' (List.mem_cons_of_mem _ hk')
      rcases hk k List.mem_cons_self with ⟨c, rfl, -⟩ | ⟨x, rfl, hx⟩
      · exact hrest
      · intro n v hnv hv
        rcases List.mem_cons.mp hnv with rfl | hnv
        · rw [value_env] at hv
          cases hv
          exact hx
        · exact hrest n v hnv hv
  rw [C01_interpolate_single_pass ⟨m, env⟩ t ts hr hn fun n v h1 h2 => (hval n v h1 h2).2] at hi
  clear hr hn hval
  induction ts generalizing v with
  | nil => cases hi; exact fun h => by cases h
  | cons k ts ih =>
    have hrest := fun k' hk' => hk k' (List.mem_cons_of_mem _ hk')
    rcases hk k List.mem_cons_self with ⟨c, rfl, hc⟩ | ⟨x, rfl, hx⟩
    · simp only [render, Option.map_eq_some_iff] at hi
      obtain ⟨o, ho, rfl⟩ := hi
      intro hm
      rcases List.mem_cons.mp hm with h | h
      · exact hc h.symm
      · exact ih ho hrest h
    · simp only [render] at hi
      split at hi
      · rename_i w o hw ho
        cases hi
        rw [value_env] at hw
        cases hw
        intro hm
        rcases List.mem_append.mp hm with h | h
        · exact hx.1 h
        · exact ih ho hrest h
      · cases hi

theorem settled_env {l : GoMap Str} (hl : ∀ p ∈ l, Settled env p.2) {m r : GoMap Str} (h : interpolateEnv ⟨m, env⟩ l = .ok r) :
    ∀ p ∈ r, Names N p.2 := by
  induction l generalizing r with
  | nil => cases h; rintro p ⟨⟩
  | cons q l ih =>
    obtain ⟨k, v⟩ := q
    simp only [interpolateEnv] at h
    split at h
    · cases h
    · rename_i v' hv
      split at h
      · cases h
      · rename_i r' hr
        cases h
        intro p hp
        rcases List.mem_cons.mp hp with rfl | hp
        · exact inert_names (settled_interpolate (hl _ List.mem_cons_self) hv)
        · exact ih (fun p hp => hl p (List.mem_cons_of_mem _ hp)) hr p hp

/-! ### the functions of the runner -/

section Run
variable {c : Cfg} {tasks : TaskMap} (he : ∀ x, N x → c.env x = env' x) (hd : Names N c.globalDir)
include he hd

theorem prepare {T : Task} (hT : NamesTask N T) {v : CommandRun} (h2 : Names N v.cmd) (h3 : Names N v.dir) (h4 : ∀ p ∈ v.env, Names N p.2)
    {tenv : GoMap Str} (ht : ∀ p ∈ tenv, Names N p.2) (m : GoMap Str) :
    prepareCommand { c with env := env' } T v tenv m = prepareCommand c T v tenv m := by
  have hm : ∀ p ∈ mergeEnvMaps [tenv, v.env], Names N p.2 := by
    intro p hp
    obtain ⟨l, hl, hp'⟩ := Secret.mem_merge hp
    simp only [List.mem_cons, List.not_mem_nil, or_false] at hl
    rcases hl with rfl | rfl
    · exact ht p hp'
    · exact h4 p hp'
  unfold prepareCommand
  dsimp only
  rw [← names_interpolate he h2, ← names_env he hm, names_dir (c := c) (c' := { c with env := env' }) he rfl rfl h3 hT.dir hd]

theorem command {T : Task} (hT : NamesTask N T) {v : CommandRun} (h2 : Names N v.cmd) (h3 : Names N v.dir) (h4 : ∀ p ∈ v.env, Names N p.2)
    {tenv : GoMap Str} (ht : ∀ p ∈ tenv, Names N p.2) (fr : Frame) (loc : Loc) (vars : VarEnv) :
    executeCommand { c with env := env' } T fr loc v vars tenv = executeCommand c T fr loc v vars tenv := by
  unfold executeCommand
  simp only [prepare he hd hT h2 h3 h4 ht]
  rfl

theorem runItem {T : Task} (hT : NamesTask N T) {item : RunItem}
    (hc : ∀ v, item = .command v → Names N v.cmd ∧ Names N v.dir ∧ ∀ p ∈ v.env, Names N p.2) (hl : ∀ l, item = .log l → Names N l.log)
    {tenv : GoMap Str} (ht : ∀ p ∈ tenv, Names N p.2) (rec : Rec) (fr : Frame) (loc : Loc) (vars : VarEnv) :
    executeRunItem { c with env := env' } rec T fr loc item vars tenv = executeRunItem c rec T fr loc item vars tenv := by
  unfold executeRunItem
  cases item with
  | command v => exact command he hd hT (hc v rfl).1 (hc v rfl).2.1 (hc v rfl).2.2 ht fr loc vars
  | log l =>
    dsimp only
    simp only [← names_interpolate he (hl l rfl)]
  | _ => rfl

theorem parallel {T : Task} (hT : NamesTask N T) {items : List RunItem}
    (hc : ∀ v, .command v ∈ items → Names N v.cmd ∧ Names N v.dir ∧ ∀ p ∈ v.env, Names N p.2) (hl : ∀ l, .log l ∈ items → Names N l.log)
    {tenv : GoMap Str} (ht : ∀ p ∈ tenv, Names N p.2) (rec : Rec) (name : Str) (fr : Frame) (i : Nat) (labels : List Str) (mode : ParallelMode)
    (lim : Nat) (color silent output : Option Bool) (m : GoMap Str) :
    executeParallel { c with env := env' } tasks rec name T fr i items labels mode lim color silent output m tenv
      = executeParallel c tasks rec name T fr i items labels mode lim color silent output m tenv := by
  have key : ∀ (f : Nat → Frame) (g : Nat → Loc) (lim : Nat) (ctx : CtxPath),
      (runBlock lim ctx name i items labels fun j item => executeRunItem { c with env := env' } rec T (f j) (g j) item (.own m) tenv)
        = runBlock lim ctx name i items labels fun j item => executeRunItem c rec T (f j) (g j) item (.own m) tenv := by
    intro f g lim ctx
    unfold runBlock
    congr 1
    funext j
    have hj := List.get_mem items j
    dsimp only
    rw [runItem he hd hT (fun v hv => hc v (hv ▸ hj)) (fun l hv => hl l (hv ▸ hj)) ht]
  unfold executeParallel executeParallelTUI executeParallelInterleaved
  dsimp only
  simp only [key]

theorem item {T : Task} (hT : NamesTask N T) {item : RunItem} (hi : NamesItem N item)
    {tenv : GoMap Str} (ht : ∀ p ∈ tenv, Names N p.2) (rec : Rec) (name : Str) (fr : Frame) (i : Nat) (vars : VarEnv)
    (k : Option Err → VarEnv → Prog) :
    executeItem { c with env := env' } tasks rec name T fr i item vars tenv k = executeItem c tasks rec name T fr i item vars tenv k := by
  unfold executeItem
  cases item with
  | prompt p =>
    dsimp only
    unfold executePrompt
    simp only [← names_prompt he hi]
  | parallel items labels mode lim color silent output l w ln =>
    dsimp only
    simp only [parallel he hd hT hi.2.1 hi.2.2 ht]
  | command v =>
    dsimp only
    rw [runItem he hd hT (fun v' hv => by cases hv; exact hi.2) (fun l hv => by cases hv) ht]
  | log l =>
    dsimp only
    rw [runItem he hd hT (fun v' hv => by cases hv) (fun l hv => by cases hv; exact hi.2) ht]
  | task t =>
    dsimp only
    rw [runItem he hd hT (fun v' hv => by cases hv) (fun l hv => by cases hv) ht]

omit he hd in
theorem itemCond {item : RunItem} (hi : NamesItem N item) : Names N item.cond := by
  cases item with
  | task t => exact hi
  | _ => exact hi.1

theorem items {T : Task} (hT : NamesTask N T) {tenv : GoMap Str} (ht : ∀ p ∈ tenv, Names N p.2) (rec : Rec) (name : Str) (fr : Frame)
    {l : List RunItem} (hl : ∀ i ∈ l, NamesItem N i) (i : Nat) (vars : VarEnv) (e s : Nat) :
    executeItems { c with env := env' } tasks rec name T fr tenv l i vars e s = executeItems c tasks rec name T fr tenv l i vars e s := by
  induction l generalizing i vars e s with
  | nil => rfl
  | cons it l ih =>
    have hit := hl it List.mem_cons_self
    have ih := ih fun i hi => hl i (List.mem_cons_of_mem _ hi)
    unfold executeItems
    simp only [ih, item he hd hT hit ht, ← names_evaluate he (itemCond hit)]

end Run

section Task
variable {c : Cfg} {tasks : TaskMap} (he : ∀ x, N x → c.env x = env' x) (hN : NamesAll N c tasks) (hs : SettledAll c.env c tasks)
include he hN hs

theorem task {n : Str} {T : Task} (hT : tasks.get? n = some T) (rec : Rec) (fr : Frame) :
    executeTask { c with env := env' } tasks rec n T fr = executeTask c tasks rec n T fr := by
  have h1 := hN.tasks n T hT
  have hm : ∀ p ∈ mergeEnvMaps [c.globalEnv, T.env], Names N p.2 ∧ Settled c.env p.2 := by
    intro p hp
    obtain ⟨l, hl, hp'⟩ := Secret.mem_merge hp
    simp only [List.mem_cons, List.not_mem_nil, or_false] at hl
    rcases hl with rfl | rfl
    · exact ⟨hN.env p hp', hs.all p hp'⟩
    · exact ⟨h1.env p hp', hs.tasks n T hT p hp'⟩
  unfold executeTask
  congr 1
  funext g
  dsimp only
  rw [← names_vars he h1.vars g]
  cases placed T.line (resolveVars T.vars g c.env) with
  | error e => rfl
  | ok m =>
    dsimp only
    rw [← names_env he (fun p hp => (hm p hp).1) m]
    cases hr : interpolateEnv ⟨m, c.env⟩ (mergeEnvMaps [c.globalEnv, T.env]) with
    | error e => simp only [placed_error]
    | ok tenv =>
      have ht : ∀ p ∈ tenv, Names N p.2 := settled_env (fun p hp => (hm p hp).2) hr
      simp only [placed_ok]
      rw [items he hN.dir h1 ht rec n fr h1.run]

theorem body (rec : Rec) (fr : Frame) (b : Bool) (n : Str) :
    runTaskBody { c with env := env' } tasks rec fr b n = runTaskBody c tasks rec fr b n := by
  unfold runTaskBody
  cases hT : tasks.get? n with
  | none => rfl
  | some T =>
    dsimp only
    simp only [task he hN hs hT, ← names_evaluate he (hN.tasks n T hT).cond]

theorem run (fuel : Nat) : Bab.runTask { c with env := env' } tasks fuel = Bab.runTask c tasks fuel := by
  induction fuel with
  | zero => rfl
  | succ fuel ih =>
    funext fr b n
    unfold Bab.runTask
    rw [ih]
    simp only [body he hN hs]

end Task

end Asked
end Bab
