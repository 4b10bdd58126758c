import Verif.Spec.Settings
import Verif.Proof.Layer
import Verif.Props.Order
/-
C119: where a setting is written does not matter.
-/

namespace Bab
open Spec

namespace Settings

theorem silent_or {l : List (Option Bool)} {a b a' b' : Option Bool} (h : a'.or b' = a.or b) :
    isSilent (l ++ [a', b']) = isSilent (l ++ [a, b]) := by
  induction l with
  | nil => cases a <;> cases b <;> cases a' <;> cases b' <;> simp_all [isSilent]
  | cons x l ih => cases x <;> simp_all [isSilent]

theorem output_or {l : List (Option Bool)} {a b a' b' : Option Bool} (h : a'.or b' = a.or b) :
    isOutput (l ++ [a', b']) = isOutput (l ++ [a, b]) := by
  induction l with
  | nil => cases a <;> cases b <;> cases a' <;> cases b' <;> simp_all [isOutput]
  | cons x l ih => cases x <;> simp_all [isOutput]

theorem firstText_three (a b d : Str) : firstText [a, b, d] = (if (if a = [] then b else a) = [] then d else (if a = [] then b else a)) := by
  cases a <;> cases b <;> cases d <;> rfl

variable {c : Cfg} {ge : GoMap Str} {gs go : Option Bool} {gd : Str} {tasks tasks' : TaskMap}

/-- the other configuration -/
abbrev other (c : Cfg) (ge : GoMap Str) (gs go : Option Bool) (gd : Str) : Cfg :=
  { c with globalEnv := ge, globalSilent := gs, globalOutput := go, globalDir := gd }

variable {T T' : Task} (hT : AlikeTask c (other c ge gs go gd) T T')
include hT

theorem dir_eq {v : CommandRun} {d : Str} (h : firstText [v.dir, T.dir, c.globalDir] = firstText [d, T'.dir, gd]) (ctx : Ctx) :
    resolveDir (other c ge gs go gd) T' d ctx = resolveDir c T v.dir ctx := by
  unfold resolveDir
  rw [firstText_three, firstText_three] at h
  simp only [hT.source]
  rw [← h]

theorem command_eq {v : CommandRun} {d : Str} (h : firstText [v.dir, T.dir, c.globalDir] = firstText [d, T'.dir, gd]) (fr : Frame) (loc : Loc)
    (vars : VarEnv) (tenv : GoMap Str) :
    executeCommand (other c ge gs go gd) T' fr loc { v with dir := d } vars tenv = executeCommand c T fr loc v vars tenv := by
  have hp : ∀ m, prepareCommand (other c ge gs go gd) T' { v with dir := d } tenv m = prepareCommand c T v tenv m := by
    intro m
    unfold prepareCommand
    simp only [dir_eq hT h, hT.name]
  have hs : ∀ text env dir, procSpec (other c ge gs go gd) fr T' { v with dir := d } text env dir = procSpec c fr T v text env dir := by
    intro text env dir
    unfold procSpec
    have := output_or (l := [v.output, fr.ovOutput]) hT.output
    simp only [List.cons_append, List.nil_append] at this
    simp only [this]
  have he := silent_or (l := [v.silent, fr.ovSilent]) hT.silent
  simp only [List.cons_append, List.nil_append] at he
  unfold executeCommand
  simp only [hp, hs, he, hT.name]

theorem one_eq {x y : RunItem} (h : AlikeOne c (other c ge gs go gd) T T' x y) (rec : Rec) (fr : Frame) (loc : Loc) (vars : VarEnv) (tenv : GoMap Str) :
    executeRunItem (other c ge gs go gd) rec T' fr loc y vars tenv = executeRunItem c rec T fr loc x vars tenv := by
  cases h with
  | command h => exact command_eq hT h ..
  | other h =>
    cases x with
    | command v => exact absurd rfl (h v)
    | _ => rfl

omit hT in
theorem label_eq {items items' : List RunItem} (h : List.Forall₂ (AlikeOne c (other c ge gs go gd) T T') items items') (labels : List Str) (i : Nat) :
    itemLabel items' labels i = itemLabel items labels i := by
  have key : (items[i]? = none ∧ items'[i]? = none) ∨ ∃ x y, items[i]? = some x ∧ items'[i]? = some y ∧ AlikeOne c (other c ge gs go gd) T T' x y := by
    clear labels
    induction h generalizing i with
    | nil => exact .inl ⟨rfl, rfl⟩
    | @cons x y l l' h _ ih =>
      cases i with
      | zero => exact .inr ⟨x, y, rfl, rfl, h⟩
      | succ i => simpa using ih i
  unfold itemLabel
  rcases key with ⟨h1, h2⟩ | ⟨x, y, h1, h2, h3⟩
  · rw [h1, h2]
  · rw [h1, h2]
    cases h3 <;> rfl

omit hT in
theorem par_eq {lim : Nat} {ctx : CtxPath} {name : Str} {i : Nat} {k : Option Err → Prog} {n n' : Nat} (e : n' = n) {f : Fin n → Prog} {f' : Fin n' → Prog}
    (h : ∀ j, f' j = f (Fin.cast e j)) :
    Prog.par lim ctx name i n' { held := 0, wg := n', first := none, tag := fun _ => .init } f' k =
      Prog.par lim ctx name i n { held := 0, wg := n, first := none, tag := fun _ => .init } f k := by
  subst e
  have : f' = f := funext h
  rw [this]

omit hT in
theorem block_eq {items items' : List RunItem} (h : List.Forall₂ (AlikeOne c (other c ge gs go gd) T T') items items') {lim : Nat} {ctx : CtxPath}
    {name : Str} {i : Nat} {labels : List Str} {child child' : Nat → RunItem → Prog}
    (hc : ∀ j x y, AlikeOne c (other c ge gs go gd) T T' x y → child' j y = child j x) :
    runBlock lim ctx name i items' labels child' = runBlock lim ctx name i items labels child := by
  unfold runBlock
  refine par_eq h.length_eq.symm fun j => ?_
  have hj : AlikeOne c (other c ge gs go gd) T T' (items.get (Fin.cast h.length_eq.symm j)) (items'.get j) := by
    have := List.forall₂_iff_get.mp h
    exact this.2 j (by have := h.length_eq; omega) j.2
  dsimp only [Fin.val_cast]
  rw [hc j _ _ hj, label_eq h]

omit hT in
theorem get_eq (h : List.Forall₂ (fun q q' => q'.1 = q.1 ∧ AlikeTask c (other c ge gs go gd) q.2 q'.2) tasks tasks') (k : Str) :
    (tasks.get? k = none ∧ tasks'.get? k = none) ∨
      ∃ U U', tasks.get? k = some U ∧ tasks'.get? k = some U' ∧ AlikeTask c (other c ge gs go gd) U U' := by
  induction h with
  | nil => exact .inl ⟨rfl, rfl⟩
  | @cons q q' l l' h _ ih =>
    obtain ⟨a, U⟩ := q
    obtain ⟨a', U'⟩ := q'
    obtain ⟨rfl, h2⟩ := h
    by_cases e : a' = k
    · exact .inr ⟨U, U', by simp [GoMap.get?, e], by simp [GoMap.get?, e], h2⟩
    · simpa [GoMap.get?, e] using ih

omit hT in
theorem pre_eq (ht : List.Forall₂ (fun q q' => q'.1 = q.1 ∧ AlikeTask c (other c ge gs go gd) q.2 q'.2) tasks tasks')
    {items items' : List RunItem} (h : List.Forall₂ (AlikeOne c (other c ge gs go gd) T T') items items') (rec : Rec) (fr : Frame) (k : Prog) :
    ∀ seen, preResolveDeps tasks' rec fr items' seen k = preResolveDeps tasks rec fr items seen k := by
  induction h with
  | nil => intro seen; rfl
  | @cons x y _ _ h _ ih =>
    intro seen
    cases h with
    | command => exact ih seen
    | other hx =>
      cases x with
      | task t =>
        simp only [preResolveDeps]
        rcases get_eq ht t.task with ⟨h1, h2⟩ | ⟨U, U', h1, h2, h3⟩
        · rw [h1, h2]
        · rw [h1, h2]
          dsimp only
          rw [h3.deps]
          congr 1
          funext seen'
          exact ih seen'
      | command v => exact absurd rfl (hx v)
      | _ => simpa only [preResolveDeps] using ih seen

theorem parallel_eq (ht : List.Forall₂ (fun q q' => q'.1 = q.1 ∧ AlikeTask c (other c ge gs go gd) q.2 q'.2) tasks tasks')
    {items items' : List RunItem} (h : List.Forall₂ (AlikeOne c (other c ge gs go gd) T T') items items') (rec : Rec) (name : Str) (fr : Frame)
    (i : Nat) (labels : List Str) (mode : ParallelMode) (lim : Nat) (color silent output : Option Bool) (m tenv : GoMap Str) :
    executeParallel (other c ge gs go gd) tasks' rec name T' fr i items' labels mode lim color silent output m tenv =
      executeParallel c tasks rec name T fr i items labels mode lim color silent output m tenv := by
  unfold executeParallel
  dsimp only
  rw [pre_eq ht h]
  congr 1
  have h1 : ∀ fr, executeParallelInterleaved (other c ge gs go gd) rec name T' fr i items' labels lim m tenv =
      executeParallelInterleaved c rec name T fr i items labels lim m tenv := by
    intro fr
    unfold executeParallelInterleaved
    dsimp only
    congr 1
    exact block_eq h fun j x y hxy => one_eq hT hxy ..
  have h2 : ∀ fr, executeParallelTUI (other c ge gs go gd) rec name T' fr i items' labels lim m tenv =
      executeParallelTUI c rec name T fr i items labels lim m tenv := by
    intro fr
    have hb : ∀ (ctx : CtxPath) (base : List Nat), runBlock lim ctx name i items' labels (fun j item =>
        executeRunItem (other c ge gs go gd) rec T' { fr with ctx := ctx, out := some ⟨base ++ [j], []⟩, pctx := some (base ++ [j]) } ⟨name, i, some j⟩ item (.own m) tenv) =
        runBlock lim ctx name i items labels (fun j item =>
        executeRunItem c rec T { fr with ctx := ctx, out := some ⟨base ++ [j], []⟩, pctx := some (base ++ [j]) } ⟨name, i, some j⟩ item (.own m) tenv) :=
      fun ctx base => block_eq h fun j x y hxy => one_eq hT hxy ..
    unfold executeParallelTUI
    simp only [hb]
  simp only [h1, h2]

theorem item_eq (ht : List.Forall₂ (fun q q' => q'.1 = q.1 ∧ AlikeTask c (other c ge gs go gd) q.2 q'.2) tasks tasks')
    {x y : RunItem} (h : AlikeItem c (other c ge gs go gd) T T' x y) (rec : Rec) (name : Str) (fr : Frame) (i : Nat) (vars : VarEnv) (tenv : GoMap Str)
    (k : Option Err → VarEnv → Prog) :
    executeItem (other c ge gs go gd) tasks' rec name T' fr i y vars tenv k = executeItem c tasks rec name T fr i x vars tenv k := by
  cases h with
  | block h =>
    simp only [executeItem, parallel_eq hT ht h]
  | one hx h =>
    cases h with
    | command h => simp only [executeItem, one_eq hT (.command h)]
    | other h =>
      have := fun rec fr loc vars tenv => one_eq hT (.other h) rec fr loc vars tenv
      cases x with
      | parallel => exact absurd rfl (hx _ _ _ _ _ _ _ _ _ _)
      | prompt p => simp only [executeItem, executePrompt, hT.name]
      | _ => simp only [executeItem, this]

omit hT in
theorem item_facts {x y : RunItem} (h : AlikeItem c (other c ge gs go gd) T T' x y) :
    y.platforms = x.platforms ∧ y.cond = x.cond ∧ y.line = x.line := by
  cases h with
  | block => exact ⟨rfl, rfl, rfl⟩
  | one _ h => cases h <;> exact ⟨rfl, rfl, rfl⟩

theorem items_eq (ht : List.Forall₂ (fun q q' => q'.1 = q.1 ∧ AlikeTask c (other c ge gs go gd) q.2 q'.2) tasks tasks')
    {l l' : List RunItem} (h : List.Forall₂ (AlikeItem c (other c ge gs go gd) T T') l l') (rec : Rec) (name : Str) (fr : Frame) (tenv : GoMap Str) :
    ∀ i vars e k, executeItems (other c ge gs go gd) tasks' rec name T' fr tenv l' i vars e k = executeItems c tasks rec name T fr tenv l i vars e k := by
  induction h with
  | nil => intro i vars e k; simp only [executeItems, hT.name]
  | cons h _ ih =>
    intro i vars e k
    obtain ⟨h1, h2, h3⟩ := item_facts h
    simp only [executeItems, RunItem.onPlatform, h1, h2, h3, item_eq hT ht h, ih, hT.name]

theorem task_eq (ht : List.Forall₂ (fun q q' => q'.1 = q.1 ∧ AlikeTask c (other c ge gs go gd) q.2 q'.2) tasks tasks')
    (rec : Rec) (name : Str) (fr : Frame) :
    executeTask (other c ge gs go gd) tasks' rec name T' fr = executeTask c tasks rec name T fr := by
  unfold executeTask
  simp only [hT.line, hT.vars, items_eq hT ht hT.run]
  have := hT.env
  simp only [this]

omit hT in
theorem chain_eq (ht : List.Forall₂ (fun q q' => q'.1 = q.1 ∧ AlikeTask c (other c ge gs go gd) q.2 q'.2) tasks tasks') (current : Str)
    (state : GoMap Status) : ∀ fuel chain seen, chainLoop current tasks' state fuel chain seen = chainLoop current tasks state fuel chain seen
  | 0, _, _ => rfl
  | fuel + 1, chain, seen => by
    simp only [chainLoop, chain_eq ht current state fuel]
    rcases get_eq ht (chain.getLast?.getD []) with ⟨h1, h2⟩ | ⟨U, U', h1, h2, h3⟩
    · rw [h1, h2]
    · rw [h1, h2]
      dsimp only
      rw [h3.deps]

omit hT in
theorem body_eq (ht : List.Forall₂ (fun q q' => q'.1 = q.1 ∧ AlikeTask c (other c ge gs go gd) q.2 q'.2) tasks tasks')
    (rec : Rec) (fr : Frame) (isMain : Bool) (name : Str) :
    runTaskBody (other c ge gs go gd) tasks' rec fr isMain name = runTaskBody c tasks rec fr isMain name := by
  unfold runTaskBody
  rcases get_eq ht name with ⟨h1, h2⟩ | ⟨U, U', h1, h2, h3⟩
  · rw [h1, h2]
  · rw [h1, h2]
    have hs := silent_or (l := [fr.ovSilent]) h3.silent
    simp only [List.cons_append, List.nil_append] at hs
    have hr : U'.run = [] ↔ U.run = [] := by
      have := h3.run.length_eq
      rw [← List.length_eq_zero_iff, ← List.length_eq_zero_iff, this]
    simp only [task_eq h3 ht, hs, h3.cond, h3.line, h3.deps, hr]

omit hT in
theorem run_eq (ht : List.Forall₂ (fun q q' => q'.1 = q.1 ∧ AlikeTask c (other c ge gs go gd) q.2 q'.2) tasks tasks') :
    ∀ fuel, runTask (other c ge gs go gd) tasks' fuel = runTask c tasks fuel
  | 0 => rfl
  | fuel + 1 => by
    funext fr isMain name
    simp only [runTask, run_eq ht fuel, body_eq ht, buildChain, chain_eq ht, ht.length_eq]

end Settings

section
variable {c c' : Cfg} {tasks tasks' : TaskMap}

/-- **C119** If two Babfiles have the same settings in the end, whether they are written at the Babfile, at the tasks or, for `dir`, at the
commands, then everything that can happen with one of them can happen with the other one: the same events in the same order, with
the same results. -/
theorem C119_same (h : AlikeSettings c c' tasks tasks') (g : GoMap Str) (main : Str) (s : State) :
    Reach (start c tasks g main) s ↔ Reach (start c' tasks' g main) s := by
  have : start c' tasks' g main = start c tasks g main := by
    obtain ⟨hc, ht⟩ := h
    rw [hc] at ht ⊢
    unfold start runWithTasks
    rw [Settings.run_eq ht, ht.length_eq]
  rw [this]

theorem alike_pushOne (T : Task) (x : RunItem) : AlikeOne c (bare c) T (pushTask c T) x (pushOne c T x) := by
  cases x with
  | command v =>
    refine .command ?_
    show _ = firstText [firstText [v.dir, T.dir, c.globalDir], [], []]
    generalize firstText [v.dir, T.dir, c.globalDir] = y
    cases y <;> rfl
  | _ => exact .other (fun v h => nomatch h)

theorem alike_push (T : Task) : AlikeTask c (bare c) T (pushTask c T) where
  name := rfl
  source := rfl
  vars := rfl
  cond := rfl
  deps := rfl
  line := rfl
  silent := by simp [pushTask, bare]
  output := by simp [pushTask, bare]
  env := merge_empty (WF_mergeEnvMaps _)
  run := by
    refine List.forall₂_map_right_iff.mpr (List.forall₂_same.mpr fun x _ => ?_)
    cases x with
    | parallel items => exact .block (List.forall₂_map_right_iff.mpr (List.forall₂_same.mpr fun y _ => alike_pushOne T y))
    | _ => exact .one (fun _ _ _ _ _ _ _ _ _ _ h => nomatch h) (alike_pushOne T _)

/-- **C119** In particular, all settings of a Babfile can be moved to its tasks, and `dir` further to the commands. -/
theorem C119_moved (c : Cfg) (tasks : TaskMap) (g : GoMap Str) (main : Str) (s : State) :
    Reach (start c tasks g main) s ↔ Reach (start (bare c) (pushTasks c tasks) g main) s := by
  have h : AlikeSettings c (bare c) tasks (pushTasks c tasks) := by
    refine ⟨rfl, ?_⟩
    unfold pushTasks
    exact List.forall₂_map_right_iff.mpr (List.forall₂_same.mpr fun q _ => ⟨rfl, alike_push q.2⟩)
  exact C119_same h g main s

end

namespace Sample

/-- a Babfile with all settings, and a block -/
def settled : Cfg := { globalEnv := [(s "A", s "1")], globalSilent := some true, globalOutput := some false, globalDir := s "/src" }

def settledTasks : TaskMap :=
  [(s "t", { name := s "t", sourcePath := s "/p/babfile.yml", env := [(s "B", s "2")], dir := s "/lib", deps := [s "u"],
             run := [cmd "ls", par [cmd "a", .command { cmd := s "b", dir := s "/own" }]] }),
   (s "u", { name := s "u", sourcePath := s "/p/babfile.yml", silent := some false, run := [cmd "make"] })]

/-- a command with its directory and environment, and whether it is shown -/
structure Begun where
  cmd : Str
  dir : Str
  env : Option (List (Str × Str))
  shown : Bool
  deriving DecidableEq

/-- the commands that were started -/
def started (x : State) : List Begun :=
  x.sh.trace.filterMap fun e => match e with
    | .procStart loc spec => some ⟨spec.cmd, spec.dir, spec.env, x.sh.trace.any fun e' => match e' with | .echoCmd loc' _ _ => decide (loc = loc') | _ => false⟩
    | _ => none

/-- the task is silent, and its caller says that it is not -/
def loudCall (atTask : Bool) : TaskMap :=
  [(s "t", { name := s "t", run := [.task { task := s "u", silent := some false }] }),
   (s "u", { name := s "u", silent := if atTask then some true else none, run := [.command { cmd := s "make", silent := if atTask then none else some true }] })]

/-- the environment is given by the task or by the command -/
def twiceAt (atTask : Bool) : TaskMap :=
  [(s "t", { name := s "t", vars := some [(s "x", s "v")], env := if atTask then [(s "A", s "$${{ x }}")] else [],
             run := [.command { cmd := s "make", env := if atTask then [] else [(s "A", s "$${{ x }}")] }] })]

end Sample
open Sample

/-- the settings of the first example are gone from the Babfile and the tasks have them -/
example : started (Exec.drive [.auto 400] (start settled settledTasks [] (s "t"))) =
      [⟨s "make", s "/src", some [(s "A", s "1")], true⟩, ⟨s "ls", s "/lib", some [(s "A", s "1"), (s "B", s "2")], false⟩,
       ⟨s "a", s "/lib", some [(s "A", s "1"), (s "B", s "2")], false⟩, ⟨s "b", s "/own", some [(s "A", s "1"), (s "B", s "2")], false⟩] ∧
    started (Exec.drive [.auto 400] (start (bare settled) (pushTasks settled settledTasks) [] (s "t"))) =
      started (Exec.drive [.auto 400] (start settled settledTasks [] (s "t"))) ∧
    (pushTasks settled settledTasks).map (fun q => (q.2.silent, q.2.output, q.2.dir)) = [(some true, some false, []), (some false, some false, [])] := by
  decide +kernel

/-- C119 ends here: `silent` of a task cannot be moved on to its commands, because what the caller says comes between the two. -/
theorem C119_silent_stays :
    started (Exec.drive [.auto 400] (start {} (loudCall true) [] (s "t"))) = [⟨s "make", s ".", none, true⟩] ∧
    started (Exec.drive [.auto 400] (start {} (loudCall false) [] (s "t"))) = [⟨s "make", s ".", none, false⟩] := by
  decide +kernel

/-- C119 ends here: `env` of a task cannot be moved on to its commands, because what the task says is expanded twice (finding 4). -/
theorem C119_env_stays :
    started (Exec.drive [.auto 400] (start {} (twiceAt true) [] (s "t"))) = [⟨s "make", s ".", some [(s "A", s "v")], true⟩] ∧
    started (Exec.drive [.auto 400] (start {} (twiceAt false) [] (s "t"))) = [⟨s "make", s ".", some [(s "A", s "${{ x }}")], true⟩] := by
  decide +kernel

end Bab
