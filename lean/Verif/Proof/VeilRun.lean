import Verif.Proof.Veil
/-
C121: the programs of the runner for a Babfile and for the same one without settings `output` and `color`.
-/

namespace Bab
open Spec

namespace Veil

/-- the same parameters, without an override of `output` and with colours -/
def hf (fr : Frame) : Frame := { fr with ovOutput := none, noColor := false }

variable {c : Cfg} {tasks : TaskMap}

theorem same (p : Prog) : Q c.environ p p := by
  induction p with
  | ret r => exact .ret r
  | act a k ih => exact .act a ih
  | par lim ctx t i n st ps k ihp ihk => exact .par ihp ihk

theorem note {e : Ev} {p q : Prog} (h : Q c.environ p q) : Q c.environ (.note e p) (.note e q) := .emit rfl h

theorem bind {p q : Prog} {f f' : Option Err → Prog} (h : Q c.environ p q) (hf : ∀ r, Q c.environ (f r) (f' r)) : Q c.environ (p.bind f) (q.bind f') := by
  induction h with
  | ret r => exact hf r
  | act a _ ih => exact .act a ih
  | emit he _ ih => exact .emit he ih
  | par hp _ ih2 ih => exact .par hp ih
  | start hp _ ih => exact .start hp ih

theorem andThen {p q : Prog} {w : Err → Err} {f f' : Prog} (h : Q c.environ p q) (hf : Q c.environ f f') : Q c.environ (p.andThen w f) (q.andThen w f') :=
  bind h fun r => by
    cases r with
    | none => exact hf
    | some e => exact .ret _

theorem readVars {v : VarEnv} {k k' : GoMap Str → Prog} (h : ∀ m, Q c.environ (k m) (k' m)) : Q c.environ (readVars v k) (readVars v k') := by
  cases v with
  | own m => exact h m
  | global => exact .act _ h

theorem writeVar {v : VarEnv} {n x : Str} {k k' : VarEnv → Prog} (h : ∀ v, Q c.environ (k v) (k' v)) : Q c.environ (writeVar v n x k) (writeVar v n x k') := by
  cases v with
  | own m => exact h _
  | global => exact .act _ fun _ => h _

/-- recursive calls -/
def RecQ (c : Cfg) (rec rec' : Rec) : Prop := ∀ fr b n, Q c.environ (rec fr b n) (rec' (hf fr) b n)

theorem env_form (E : List (Str × Str)) (env : GoMap Str) (b n : Bool) : ((if env ≠ [] ∨ b = true then some (E
      ++ (if b then (if n then [("TERM".toList, "dumb".toList), ("NO_COLOR".toList, "1".toList)] else [("FORCE_COLOR".toList, "1".toList)]) else [])
      ++ (if env = [] then [] else mergeEnvMaps [env])) else none).getD E).filter plain =
    E.filter plain ++ (if env = [] then [] else mergeEnvMaps [env]).filter plain := by
  have h1 : [("TERM".toList, "dumb".toList), ("NO_COLOR".toList, "1".toList)].filter plain = [] := by decide
  have h2 : [("FORCE_COLOR".toList, "1".toList)].filter plain = [] := by decide
  cases b <;> cases n <;> by_cases he : env = [] <;>
    simp only [he, ne_eq, not_true, not_false_iff, or_true, true_or, or_self, if_true, if_false, Option.getD_some, Option.getD_none, List.filter_append,
      List.filter_nil, List.append_nil, h1, h2, reduceCtorEq]

/-- what the process is, apart from its output -/
theorem hidden_form (c : Cfg) (T : Task) (fr : Frame) (v : CommandRun) (text : Str) (env : GoMap Str) (dir : Str) :
    hidden c.environ (procSpec c fr T v text env dir) =
      { shell := (shellCommand c.platform).1, arg := (shellCommand c.platform).2, cmd := text, dir := dir, out := .discard, stdin := false,
        env := some (c.environ.filter plain ++ (if env = [] then [] else mergeEnvMaps [env]).filter plain) } := by
  unfold hidden procSpec
  dsimp only
  rw [env_form]

theorem hidden_spec {T : Task} {fr : Frame} {v : CommandRun} {text : Str} {env : GoMap Str} {dir : Str} :
    hidden c.environ (procSpec c fr T v text env dir) =
      hidden c.environ (procSpec (veil c) (hf fr) (veilTask T) { v with output := none } text env dir) :=
  (hidden_form c T fr v text env dir).trans (hidden_form (veil c) (veilTask T) (hf fr) { v with output := none } text env dir).symm

theorem proc {tn : Str} {fr fr' : Frame} {loc : Loc} {p p' : ProcSpec} (hp : hidden c.environ p = hidden c.environ p') (hc : fr.ctx = fr'.ctx) :
    Q c.environ (runProc tn fr loc p) (runProc tn fr' loc p') := by
  have hcmd : p.cmd = p'.cmd := by injection hp
  unfold runProc
  rw [hc, hcmd]
  exact .start hp fun x => same _

theorem command {T : Task} {fr : Frame} {loc : Loc} {v : CommandRun} {vars : VarEnv} {tenv : GoMap Str} :
    Q c.environ (executeCommand c T fr loc v vars tenv) (executeCommand (veil c) (veilTask T) (hf fr) loc { v with output := none } vars tenv) := by
  unfold executeCommand
  dsimp only [veilTask]
  split
  · exact .ret _
  · refine readVars fun m => note ?_
    have hp : prepareCommand (veil c) (veilTask T) { v with output := none } tenv m = prepareCommand c T v tenv m := rfl
    dsimp only [veilTask] at hp
    rw [hp]
    cases placed v.line (prepareCommand c T v tenv m) with
    | error e => exact .ret _
    | ok x =>
      obtain ⟨text, env, dir⟩ := x
      dsimp only
      by_cases hd : c.dry = true
      · have hd' : (veil c).dry = true := hd
        rw [if_pos hd, if_pos hd']
        exact same _
      · have hd' : ¬ (veil c).dry = true := hd
        rw [if_neg hd, if_neg hd']
        have hp := proc (tn := T.name) (fr := fr) (fr' := hf fr) (loc := loc)
          (hidden_spec (c := c) (T := T) (fr := fr) (v := v) (text := text) (env := env) (dir := dir)) rfl
        have go : ∀ b : Bool, Q c.environ (if b = true then runProc T.name fr loc (procSpec c fr T v text env dir)
              else .note (.echoCmd loc text fr.out) (runProc T.name fr loc (procSpec c fr T v text env dir)))
            (if b = true then runProc T.name (hf fr) loc (procSpec (veil c) (hf fr) (veilTask T) { v with output := none } text env dir)
              else .note (.echoCmd loc text fr.out) (runProc T.name (hf fr) loc (procSpec (veil c) (hf fr) (veilTask T) { v with output := none } text env dir))) := by
          intro b
          cases b
          · exact note hp
          · exact hp
        exact go (isSilent [v.silent, fr.ovSilent, T.silent, c.globalSilent])

theorem runItem {rec rec' : Rec} (hr : RecQ c rec rec') {T : Task} {fr : Frame} {loc : Loc} {x : RunItem} {vars : VarEnv} {tenv : GoMap Str} :
    Q c.environ (executeRunItem c rec T fr loc x vars tenv) (executeRunItem (veil c) rec' (veilTask T) (hf fr) loc (veilOne x) vars tenv) := by
  cases x with
  | command v => exact command
  | task t =>
    simp only [executeRunItem, veilOne]
    by_cases hd : c.dry = true
    · have hd' : (veil c).dry = true := hd
      rw [if_pos hd, if_pos hd']
      exact same _
    · have hd' : ¬ (veil c).dry = true := hd
      rw [if_neg hd, if_neg hd']
      exact hr _ _ _
  | log l => exact same _
  | prompt p => exact same _
  | parallel => exact same _

theorem preDeps {rec rec' : Rec} (hr : RecQ c rec rec') {fr : Frame} : ∀ {ds seen : List Str} {k k' : List Str → Prog}, (∀ s, Q c.environ (k s) (k' s)) →
    Q c.environ (preDeps rec fr ds seen k) (preDeps rec' (hf fr) ds seen k')
  | [], seen, k, k', h => h seen
  | d :: ds, seen, k, k', h => by
    simp only [Bab.preDeps]
    split
    · exact preDeps hr h
    · refine .act _ fun s => ?_
      split
      · exact preDeps hr h
      · exact andThen (hr _ _ _) (preDeps hr h)

theorem get_veil (k : Str) : (veilTasks tasks).get? k = (tasks.get? k).map veilTask := by
  induction tasks with
  | nil => rfl
  | cons q l ih =>
    obtain ⟨a, T⟩ := q
    have e : veilTasks ((a, T) :: l) = (a, veilTask T) :: veilTasks l := rfl
    rw [e]
    by_cases h : a = k
    · simp [GoMap.get?, h]
    · simp only [GoMap.get?, if_neg h]
      exact ih

theorem preResolve {rec rec' : Rec} (hr : RecQ c rec rec') {fr : Frame} {k k' : Prog} (hk : Q c.environ k k') : ∀ {items : List RunItem} {seen : List Str},
    Q c.environ (preResolveDeps tasks rec fr items seen k) (preResolveDeps (veilTasks tasks) rec' (hf fr) (items.map veilOne) seen k')
  | [], seen => hk
  | x :: items, seen => by
    cases x with
    | task t =>
      simp only [List.map_cons, veilOne, preResolveDeps, get_veil]
      cases tasks.get? t.task with
      | none => exact .ret _
      | some T => exact preDeps hr fun s => preResolve hr hk
    | _ => simpa only [List.map_cons, veilOne, preResolveDeps] using preResolve hr hk

theorem label (items : List RunItem) (labels : List Str) (j : Nat) : itemLabel (items.map veilOne) labels j = itemLabel items labels j := by
  unfold itemLabel
  rw [List.getElem?_map]
  cases items[j]? with
  | none => rfl
  | some x => cases x <;> rfl

theorem par_q {lim : Nat} {ctx : CtxPath} {name : Str} {i : Nat} {k : Option Err → Prog} {n n' : Nat} (e : n' = n) {f : Fin n → Prog} {f' : Fin n' → Prog}
    (h : ∀ j : Fin n', Q c.environ (f (Fin.cast e j)) (f' j)) :
    Q c.environ (.par lim ctx name i n { held := 0, wg := n, first := none, tag := fun _ => .init } f k)
      (.par lim ctx name i n' { held := 0, wg := n', first := none, tag := fun _ => .init } f' k) := by
  subst e
  exact .par h fun r => same _

theorem block {lim : Nat} {ctx : CtxPath} {name : Str} {i : Nat} {items : List RunItem} {labels : List Str} {child child' : Nat → RunItem → Prog}
    (h : ∀ j x, Q c.environ (child j x) (child' j (veilOne x))) :
    Q c.environ (runBlock lim ctx name i items labels child) (runBlock lim ctx name i (items.map veilOne) labels child') := by
  unfold runBlock
  refine par_q (by simp) fun j => ?_
  rw [label]
  refine note (bind ?_ fun r => same _)
  have : (items.map veilOne).get j = veilOne (items.get (Fin.cast (by simp) j)) := by simp
  rw [this]
  exact h _ _

theorem parallel {rec rec' : Rec} (hr : RecQ c rec rec') {name : Str} {T : Task} {fr : Frame} {i : Nat} {items : List RunItem} {labels : List Str}
    {mode : ParallelMode} {lim : Nat} {color silent output : Option Bool} {m tenv : GoMap Str} :
    Q c.environ (executeParallel c tasks rec name T fr i items labels mode lim color silent output m tenv)
      (executeParallel (veil c) (veilTasks tasks) rec' name (veilTask T) (hf fr) i (items.map veilOne) labels mode lim none silent none m tenv) := by
  unfold executeParallel
  dsimp only
  refine preResolve (fr := { fr with noColor := _, ovSilent := _, ovOutput := _ }) hr ?_
  by_cases hd : c.dry = true
  · have hd' : (veil c).dry = true := hd
    rw [if_pos hd, if_pos hd']
    exact same _
  · have hd' : ¬ (veil c).dry = true := hd
    rw [if_neg hd, if_neg hd']
    have e1 : (veil c).stderrTTY = c.stderrTTY := rfl
    have e2 : (hf fr).out = fr.out := rfl
    have e3 : (hf fr).pctx = fr.pctx := rfl
    simp only [e1, e2, e3]
    split
    · unfold executeParallelTUI
      dsimp only
      cases fr.pctx with
      | some path => exact note (block fun j x => runItem (fr := { fr with ctx := _, out := _, pctx := _, noColor := _, ovSilent := _, ovOutput := _ }) hr)
      | none =>
        refine .act _ fun id => .act _ fun ok => ?_
        split
        · exact note (block fun j x => runItem (fr := { fr with ctx := _, out := _, pctx := _, noColor := _, ovSilent := _, ovOutput := _ }) hr)
        · exact .ret _
    · unfold executeParallelInterleaved
      dsimp only
      exact note (block fun j x => runItem (fr := { fr with out := _, pctx := _, noColor := _, ovSilent := _, ovOutput := _ }) hr)

theorem prompt {tn : Str} {loc : Loc} {p : PromptRun} {vars : VarEnv} {k k' : Option Err → VarEnv → Prog} (h : ∀ r v, Q c.environ (k r v) (k' r v)) :
    Q c.environ (executePrompt c tn loc p vars k) (executePrompt (veil c) tn loc p vars k') := by
  unfold executePrompt
  refine readVars fun m => note ?_
  have e : (veil c).env = c.env := rfl
  rw [e]
  cases placed p.line (interpolatePrompt p ⟨m, c.env⟩) with
  | error e => exact h _ _
  | ok p' =>
    dsimp only
    have got : ∀ r : Except Err Str, Q c.environ (match r with
        | .error e => k (some (.wrap (.prompt tn p.prompt) e)) vars
        | .ok ans => Bab.writeVar vars p.prompt ans (k none)) (match r with
        | .error e => k' (some (.wrap (.prompt tn p.prompt) e)) vars
        | .ok ans => Bab.writeVar vars p.prompt ans (k' none)) := by
      intro r
      cases r with
      | error e => exact h _ _
      | ok a => exact writeVar fun v => h _ _
    by_cases hd : c.dry = true
    · have hd' : (veil c).dry = true := hd
      rw [if_pos hd, if_pos hd']
      exact note (h _ _)
    · have hd' : ¬ (veil c).dry = true := hd
      rw [if_neg hd, if_neg hd']
      have e' : (veil c).stdinTTY = c.stdinTTY := rfl
      rw [e']
      split
      · exact .act _ got
      · exact note (got _)

theorem item {rec rec' : Rec} (hr : RecQ c rec rec') {name : Str} {T : Task} {fr : Frame} {i : Nat} {x : RunItem} {vars : VarEnv} {tenv : GoMap Str}
    {k k' : Option Err → VarEnv → Prog} (h : ∀ r v, Q c.environ (k r v) (k' r v)) :
    Q c.environ (executeItem c tasks rec name T fr i x vars tenv k) (executeItem (veil c) (veilTasks tasks) rec' name (veilTask T) (hf fr) i (veilItem x) vars tenv k') := by
  cases x with
  | prompt p => exact prompt h
  | parallel items labels mode lim color bs bo pl w ln =>
    simp only [executeItem, veilItem]
    by_cases hd : c.dry = true
    · have hd' : (veil c).dry = true := hd
      rw [if_pos hd, if_pos hd']
      exact note (h _ _)
    · have hd' : ¬ (veil c).dry = true := hd
      rw [if_neg hd, if_neg hd']
      exact readVars fun m => bind (parallel hr) fun r => h _ _
  | command v => exact bind (runItem (x := .command v) hr) fun r => h _ _
  | task t => exact bind (runItem (x := .task t) hr) fun r => h _ _
  | log l => exact bind (runItem (x := .log l) hr) fun r => h _ _

theorem facts (x : RunItem) : (veilItem x).platforms = x.platforms ∧ (veilItem x).cond = x.cond ∧ (veilItem x).line = x.line := by
  cases x <;> exact ⟨rfl, rfl, rfl⟩

theorem items {rec rec' : Rec} (hr : RecQ c rec rec') {name : Str} {T : Task} {fr : Frame} {tenv : GoMap Str} :
    ∀ {l : List RunItem} {i : Nat} {vars : VarEnv} {e k : Nat}, Q c.environ (executeItems c tasks rec name T fr tenv l i vars e k)
      (executeItems (veil c) (veilTasks tasks) rec' name (veilTask T) (hf fr) tenv (l.map veilItem) i vars e k)
  | [], i, vars, e, k => same _
  | x :: l, i, vars, e, k => by
    obtain ⟨h1, h2, h3⟩ := facts x
    simp only [List.map_cons, executeItems, RunItem.onPlatform, h1, h2, h3]
    refine .act _ fun b => ?_
    split
    · exact same _
    · have e1 : (veil c).platform = c.platform := rfl
      have e2 : (veil c).env = c.env := rfl
      simp only [e1, e2]
      split
      · exact note (items hr)
      · have go : ∀ w, Q c.environ (.note (.itemStart name i w) (executeItem c tasks rec name T fr i x vars tenv fun r vars' =>
              .note (.itemEnd name i r) (match r with
                | some e => .ret (some e)
                | none => executeItems c tasks rec name T fr tenv l (i + 1) vars' (e + 1) k)))
            (.note (.itemStart name i w) (executeItem (veil c) (veilTasks tasks) rec' name (veilTask T) (hf fr) i (veilItem x) vars tenv fun r vars' =>
              .note (.itemEnd name i r) (match r with
                | some e => .ret (some e)
                | none => executeItems (veil c) (veilTasks tasks) rec' name (veilTask T) (hf fr) tenv (l.map veilItem) (i + 1) vars' (e + 1) k))) := by
          intro w
          refine note (item hr fun r v => note ?_)
          cases r with
          | some e => exact .ret _
          | none => exact items hr
        split
        · exact go none
        · refine readVars fun m => ?_
          cases placed x.line (evaluate x.cond ⟨m, c.env⟩) with
          | error e => exact same _
          | ok b =>
            cases b with
            | false => exact note (items hr)
            | true => exact go _

theorem task {rec rec' : Rec} (hr : RecQ c rec rec') {name : Str} {T : Task} {fr : Frame} :
    Q c.environ (executeTask c tasks rec name T fr) (executeTask (veil c) (veilTasks tasks) rec' name (veilTask T) (hf fr)) := by
  unfold executeTask
  refine .act _ fun g => ?_
  have e1 : (veilTask T).line = T.line := rfl
  have e2 : (veilTask T).vars = T.vars := rfl
  have e3 : (veilTask T).env = T.env := rfl
  have e4 : (veil c).env = c.env := rfl
  have e5 : (veil c).globalEnv = c.globalEnv := rfl
  rw [e1, e2, e3, e4, e5]
  cases placed T.line (resolveVars T.vars g c.env) with
  | error e => exact .ret _
  | ok m =>
    refine .emit rfl ?_
    cases placed T.line (interpolateEnv ⟨m, c.env⟩ (mergeEnvMaps [c.globalEnv, T.env])) with
    | error e => exact .ret _
    | ok tenv => exact items hr

theorem deps {rec rec' : Rec} (hr : RecQ c rec rec') {name : Str} {fr : Frame} {k k' : Prog} (hk : Q c.environ k k') : ∀ {ds : List Str} {i : Nat},
    Q c.environ (runDeps rec name fr k ds i) (runDeps rec' name (hf fr) k' ds i)
  | [], _ => hk
  | d :: ds, i => by
    simp only [runDeps]
    refine bind (hr { fr with ovSilent := none, ovOutput := none } false d) fun r => ?_
    cases r with
    | none => exact note (deps hr hk)
    | some e => exact same _

theorem body {rec rec' : Rec} (hr : RecQ c rec rec') {fr : Frame} {b : Bool} {name : Str} :
    Q c.environ (runTaskBody c tasks rec fr b name) (runTaskBody (veil c) (veilTasks tasks) rec' (hf fr) b name) := by
  unfold runTaskBody
  rw [get_veil]
  cases tasks.get? name with
  | none => exact .ret _
  | some T =>
    have hd : Q c.environ (runDeps rec name fr (if T.run = [] then .act (.setDone name) fun _ => .ret none
          else (executeTask c tasks rec name T fr).bind fun
          | some e => .ret (some e)
          | none => .act (.setDone name) fun _ => .ret none) T.deps 0)
        (runDeps rec' name (hf fr) (if (veilTask T).run = [] then .act (.setDone name) fun _ => .ret none
          else (executeTask (veil c) (veilTasks tasks) rec' name (veilTask T) (hf fr)).bind fun
          | some e => .ret (some e)
          | none => .act (.setDone name) fun _ => .ret none) (veilTask T).deps 0) := by
      refine deps hr ?_
      have e : (veilTask T).run = [] ↔ T.run = [] := List.map_eq_nil_iff
      simp only [e]
      split
      · exact same _
      · exact bind (task hr) fun r => by cases r <;> exact same _
    have hs : (!(veil c).dry && !isSilent [(hf fr).ovSilent, (veilTask T).silent, (veil c).globalSilent]) = (!c.dry && !isSilent [fr.ovSilent, T.silent, c.globalSilent]) := rfl
    have go : ∀ {P P' : Prog}, Q c.environ P P' → Q c.environ (if (!c.dry && !isSilent [fr.ovSilent, T.silent, c.globalSilent]) = true then .note (.echoTask name b fr.out) P else P)
        (if (!c.dry && !isSilent [fr.ovSilent, T.silent, c.globalSilent]) = true then .note (.echoTask name b (hf fr).out) P' else P') := by
      intro P P' h
      split
      · exact note h
      · exact h
    simp only [Option.map_some, hs]
    have e1 : (veilTask T).cond = T.cond := rfl
    have e2 : (veilTask T).line = T.line := rfl
    have e3 : (veil c).env = c.env := rfl
    rw [e1, e2, e3]
    split
    · exact go hd
    · refine .act _ fun g => ?_
      cases placed T.line (evaluate T.cond ⟨g, c.env⟩) with
      | error e => exact .ret _
      | ok b =>
        cases b with
        | false => exact same _
        | true => exact note (go hd)

theorem chain (current : Str) (state : GoMap Status) : ∀ fuel ch seen,
    chainLoop current (veilTasks tasks) state fuel ch seen = chainLoop current tasks state fuel ch seen
  | 0, _, _ => rfl
  | fuel + 1, ch, seen => by
    simp only [chainLoop, chain current state fuel, get_veil]
    cases tasks.get? (ch.getLast?.getD []) <;> rfl

theorem length_veil : (veilTasks tasks).length = tasks.length := List.length_map ..

theorem chain_veil (current : Str) (state : GoMap Status) : buildChain current (veilTasks tasks) state = buildChain current tasks state := by
  unfold buildChain
  rw [length_veil, chain]

theorem run : ∀ fuel, RecQ c (runTask c tasks fuel) (runTask (veil c) (veilTasks tasks) fuel)
  | 0 => fun _ _ _ => same _
  | fuel + 1 => fun fr b name => by
    simp only [runTask]
    refine .act _ fun s => ?_
    cases s with
    | none => exact bind (body (run fuel)) fun r => same _
    | some st =>
      cases st with
      | done => exact .ret _
      | running =>
        refine .act _ fun x => ?_
        rw [chain_veil (tasks := tasks) name x]
        exact same _

theorem start_q (g : GoMap Str) (main : Str) :
    start c tasks g main = ⟨runWithTasks c tasks main, Shared.init g⟩ ∧ start (veil c) (veilTasks tasks) g main = ⟨runWithTasks (veil c) (veilTasks tasks) main, Shared.init g⟩ ∧
    Q c.environ (runWithTasks c tasks main) (runWithTasks (veil c) (veilTasks tasks) main) := by
  refine ⟨rfl, rfl, ?_⟩
  unfold runWithTasks
  rw [length_veil]
  exact run _ {} true main

end Veil
end Bab
