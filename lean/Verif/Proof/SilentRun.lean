import Verif.Proof.Silent
/-
C120: the programs of the runner for a Babfile and for the same one with everything silent.
-/

namespace Bab
open Spec

namespace Silent

/-- the same parameters, without an override of `silent` -/
def hf (fr : Frame) : Frame := { fr with ovSilent := none }

variable {c : Cfg} {tasks : TaskMap}

theorem same (p : Prog) : Q p p := by
  induction p with
  | ret r => exact .ret r
  | act a k ih => exact .act a ih
  | par lim ctx t i n st ps k ihp ihk => exact .par ihp ihk

theorem note {e : Ev} {p q : Prog} (h : Q p q) : Q (.note e p) (.note e q) := .emit rfl h

theorem bind {p q : Prog} {f f' : Option Err → Prog} (h : Q p q) (hf : ∀ r, Q (f r) (f' r)) : Q (p.bind f) (q.bind f') := by
  induction h with
  | ret r => exact hf r
  | act a _ ih => exact .act a ih
  | emit he _ ih => exact .emit he ih
  | par hp _ ih2 ih => exact .par hp ih
  | left he _ ih => exact .left he ih

theorem andThen {p q : Prog} {w : Err → Err} {f f' : Prog} (h : Q p q) (hf : Q f f') : Q (p.andThen w f) (q.andThen w f') :=
  bind h fun r => by
    cases r with
    | none => exact hf
    | some e => exact .ret _

theorem readVars {v : VarEnv} {k k' : GoMap Str → Prog} (h : ∀ m, Q (k m) (k' m)) : Q (readVars v k) (readVars v k') := by
  cases v with
  | own m => exact h m
  | global => exact .act _ h

theorem writeVar {v : VarEnv} {n x : Str} {k k' : VarEnv → Prog} (h : ∀ v, Q (k v) (k' v)) : Q (writeVar v n x k) (writeVar v n x k') := by
  cases v with
  | own m => exact h _
  | global => exact .act _ fun _ => h _

/-- recursive calls -/
def RecQ (rec rec' : Rec) : Prop := ∀ fr b n, Q (rec fr b n) (rec' (hf fr) b n)

theorem command {T : Task} {fr : Frame} {loc : Loc} {v : CommandRun} {vars : VarEnv} {tenv : GoMap Str} :
    Q (executeCommand c T fr loc v vars tenv) (executeCommand (hush c) (hushTask T) (hf fr) loc { v with silent := none } vars tenv) := by
  unfold executeCommand
  dsimp only [hushTask]
  split
  · exact .ret _
  · refine readVars fun m => note ?_
    have hp : prepareCommand (hush c) (hushTask T) { v with silent := none } tenv m = prepareCommand c T v tenv m := rfl
    dsimp only [hushTask] at hp
    rw [hp]
    cases placed v.line (prepareCommand c T v tenv m) with
    | error e => exact .ret _
    | ok x =>
      obtain ⟨text, env, dir⟩ := x
      dsimp only
      by_cases hd : c.dry = true
      · have hd' : (hush c).dry = true := hd
        rw [if_pos hd, if_pos hd']
        exact same _
      · have hd' : ¬ (hush c).dry = true := hd
        rw [if_neg hd, if_neg hd']
        change Q _ (runProc T.name fr loc (procSpec c fr T v text env dir))
        split
        · exact same _
        · exact .left rfl (same _)

theorem runItem {rec rec' : Rec} (hr : RecQ rec rec') {T : Task} {fr : Frame} {loc : Loc} {x : RunItem} {vars : VarEnv} {tenv : GoMap Str} :
    Q (executeRunItem c rec T fr loc x vars tenv) (executeRunItem (hush c) rec' (hushTask T) (hf fr) loc (hushOne x) vars tenv) := by
  cases x with
  | command v => exact command
  | task t =>
    simp only [executeRunItem, hushOne]
    by_cases hd : c.dry = true
    · have hd' : (hush c).dry = true := hd
      rw [if_pos hd, if_pos hd']
      exact same _
    · have hd' : ¬ (hush c).dry = true := hd
      rw [if_neg hd, if_neg hd']
      exact hr _ _ _
  | log l => exact same _
  | prompt p => exact same _
  | parallel => exact same _

theorem preDeps {rec rec' : Rec} (hr : RecQ rec rec') {fr : Frame} : ∀ {ds seen : List Str} {k k' : List Str → Prog}, (∀ s, Q (k s) (k' s)) →
    Q (preDeps rec fr ds seen k) (preDeps rec' (hf fr) ds seen k')
  | [], seen, k, k', h => h seen
  | d :: ds, seen, k, k', h => by
    simp only [Bab.preDeps]
    split
    · exact preDeps hr h
    · refine .act _ fun s => ?_
      split
      · exact preDeps hr h
      · exact andThen (hr _ _ _) (preDeps hr h)

theorem get_hush (k : Str) : (hushTasks tasks).get? k = (tasks.get? k).map hushTask := by
  induction tasks with
  | nil => rfl
  | cons q l ih =>
    obtain ⟨a, T⟩ := q
    have e : hushTasks ((a, T) :: l) = (a, hushTask T) :: hushTasks l := rfl
    rw [e]
    by_cases h : a = k
    · simp [GoMap.get?, h]
    · simp only [GoMap.get?, if_neg h]
      exact ih

theorem preResolve {rec rec' : Rec} (hr : RecQ rec rec') {fr : Frame} {k k' : Prog} (hk : Q k k') : ∀ {items : List RunItem} {seen : List Str},
    Q (preResolveDeps tasks rec fr items seen k) (preResolveDeps (hushTasks tasks) rec' (hf fr) (items.map hushOne) seen k')
  | [], seen => hk
  | x :: items, seen => by
    cases x with
    | task t =>
      simp only [List.map_cons, hushOne, preResolveDeps, get_hush]
      cases tasks.get? t.task with
      | none => exact .ret _
      | some T => exact preDeps hr fun s => preResolve hr hk
    | _ => simpa only [List.map_cons, hushOne, preResolveDeps] using preResolve hr hk

theorem label (items : List RunItem) (labels : List Str) (j : Nat) : itemLabel (items.map hushOne) labels j = itemLabel items labels j := by
  unfold itemLabel
  rw [List.getElem?_map]
  cases items[j]? with
  | none => rfl
  | some x => cases x <;> rfl

theorem par_q {lim : Nat} {ctx : CtxPath} {name : Str} {i : Nat} {k : Option Err → Prog} {n n' : Nat} (e : n' = n) {f : Fin n → Prog} {f' : Fin n' → Prog}
    (h : ∀ j : Fin n', Q (f (Fin.cast e j)) (f' j)) :
    Q (.par lim ctx name i n { held := 0, wg := n, first := none, tag := fun _ => .init } f k)
      (.par lim ctx name i n' { held := 0, wg := n', first := none, tag := fun _ => .init } f' k) := by
  subst e
  exact .par h fun r => same _

theorem block {lim : Nat} {ctx : CtxPath} {name : Str} {i : Nat} {items : List RunItem} {labels : List Str} {child child' : Nat → RunItem → Prog}
    (h : ∀ j x, Q (child j x) (child' j (hushOne x))) :
    Q (runBlock lim ctx name i items labels child) (runBlock lim ctx name i (items.map hushOne) labels child') := by
  unfold runBlock
  refine par_q (by simp) fun j => ?_
  rw [label]
  refine note (bind ?_ fun r => same _)
  have : (items.map hushOne).get j = hushOne (items.get (Fin.cast (by simp) j)) := by simp
  rw [this]
  exact h _ _

theorem parallel {rec rec' : Rec} (hr : RecQ rec rec') {name : Str} {T : Task} {fr : Frame} {i : Nat} {items : List RunItem} {labels : List Str}
    {mode : ParallelMode} {lim : Nat} {color silent output : Option Bool} {m tenv : GoMap Str} :
    Q (executeParallel c tasks rec name T fr i items labels mode lim color silent output m tenv)
      (executeParallel (hush c) (hushTasks tasks) rec' name (hushTask T) (hf fr) i (items.map hushOne) labels mode lim color none output m tenv) := by
  unfold executeParallel
  dsimp only
  refine preResolve (fr := { fr with noColor := _, ovSilent := _, ovOutput := _ }) hr ?_
  by_cases hd : c.dry = true
  · have hd' : (hush c).dry = true := hd
    rw [if_pos hd, if_pos hd']
    exact same _
  · have hd' : ¬ (hush c).dry = true := hd
    rw [if_neg hd, if_neg hd']
    have e1 : (hush c).stderrTTY = c.stderrTTY := rfl
    have e2 : (hf fr).out = fr.out := rfl
    have e3 : (hf fr).pctx = fr.pctx := rfl
    simp only [e1, e2, e3]
    split
    · unfold executeParallelTUI
      dsimp only
      cases fr.pctx with
      | some path => exact note (block fun j x => runItem (fr := { fr with ctx := _, out := _, pctx := _, noColor := _, ovSilent := _, ovOutput := _ }) hr)
      | none =>
        refine .act _ fun id => .act _ fun ok => ?_
        split
        · exact note (block fun j x => runItem (fr := { fr with ctx := _, out := _, pctx := _, noColor := _, ovSilent := _, ovOutput := _ }) hr)
        · exact .ret _
    · unfold executeParallelInterleaved
      dsimp only
      exact note (block fun j x => runItem (fr := { fr with out := _, pctx := _, noColor := _, ovSilent := _, ovOutput := _ }) hr)

theorem prompt {tn : Str} {loc : Loc} {p : PromptRun} {vars : VarEnv} {k k' : Option Err → VarEnv → Prog} (h : ∀ r v, Q (k r v) (k' r v)) :
    Q (executePrompt c tn loc p vars k) (executePrompt (hush c) tn loc p vars k') := by
  unfold executePrompt
  refine readVars fun m => note ?_
  have e : (hush c).env = c.env := rfl
  rw [e]
  cases placed p.line (interpolatePrompt p ⟨m, c.env⟩) with
  | error e => exact h _ _
  | ok p' =>
    dsimp only
    have got : ∀ r : Except Err Str, Q (match r with
        | .error e => k (some (.wrap (.prompt tn p.prompt) e)) vars
        | .ok ans => Bab.writeVar vars p.prompt ans (k none)) (match r with
        | .error e => k' (some (.wrap (.prompt tn p.prompt) e)) vars
        | .ok ans => Bab.writeVar vars p.prompt ans (k' none)) := by
      intro r
      cases r with
      | error e => exact h _ _
      | ok a => exact writeVar fun v => h _ _
    by_cases hd : c.dry = true
    · have hd' : (hush c).dry = true := hd
      rw [if_pos hd, if_pos hd']
      exact note (h _ _)
    · have hd' : ¬ (hush c).dry = true := hd
      rw [if_neg hd, if_neg hd']
      have e' : (hush c).stdinTTY = c.stdinTTY := rfl
      rw [e']
      split
      · exact .act _ got
      · exact note (got _)

theorem item {rec rec' : Rec} (hr : RecQ rec rec') {name : Str} {T : Task} {fr : Frame} {i : Nat} {x : RunItem} {vars : VarEnv} {tenv : GoMap Str}
    {k k' : Option Err → VarEnv → Prog} (h : ∀ r v, Q (k r v) (k' r v)) :
    Q (executeItem c tasks rec name T fr i x vars tenv k) (executeItem (hush c) (hushTasks tasks) rec' name (hushTask T) (hf fr) i (hushItem x) vars tenv k') := by
  cases x with
  | prompt p => exact prompt h
  | parallel items labels mode lim color bs bo pl w ln =>
    simp only [executeItem, hushItem]
    by_cases hd : c.dry = true
    · have hd' : (hush c).dry = true := hd
      rw [if_pos hd, if_pos hd']
      exact note (h _ _)
    · have hd' : ¬ (hush c).dry = true := hd
      rw [if_neg hd, if_neg hd']
      exact readVars fun m => bind (parallel hr) fun r => h _ _
  | command v => exact bind (runItem (x := .command v) hr) fun r => h _ _
  | task t => exact bind (runItem (x := .task t) hr) fun r => h _ _
  | log l => exact bind (runItem (x := .log l) hr) fun r => h _ _

theorem facts (x : RunItem) : (hushItem x).platforms = x.platforms ∧ (hushItem x).cond = x.cond ∧ (hushItem x).line = x.line := by
  cases x <;> exact ⟨rfl, rfl, rfl⟩

theorem items {rec rec' : Rec} (hr : RecQ rec rec') {name : Str} {T : Task} {fr : Frame} {tenv : GoMap Str} :
    ∀ {l : List RunItem} {i : Nat} {vars : VarEnv} {e k : Nat}, Q (executeItems c tasks rec name T fr tenv l i vars e k)
      (executeItems (hush c) (hushTasks tasks) rec' name (hushTask T) (hf fr) tenv (l.map hushItem) i vars e k)
  | [], i, vars, e, k => same _
  | x :: l, i, vars, e, k => by
    obtain ⟨h1, h2, h3⟩ := facts x
    simp only [List.map_cons, executeItems, RunItem.onPlatform, h1, h2, h3]
    refine .act _ fun b => ?_
    split
    · exact same _
    · have e1 : (hush c).platform = c.platform := rfl
      have e2 : (hush c).env = c.env := rfl
      simp only [e1, e2]
      split
      · exact note (items hr)
      · have go : ∀ w, Q (.note (.itemStart name i w) (executeItem c tasks rec name T fr i x vars tenv fun r vars' =>
              .note (.itemEnd name i r) (match r with
                | some e => .ret (some e)
                | none => executeItems c tasks rec name T fr tenv l (i + 1) vars' (e + 1) k)))
            (.note (.itemStart name i w) (executeItem (hush c) (hushTasks tasks) rec' name (hushTask T) (hf fr) i (hushItem x) vars tenv fun r vars' =>
              .note (.itemEnd name i r) (match r with
                | some e => .ret (some e)
                | none => executeItems (hush c) (hushTasks tasks) rec' name (hushTask T) (hf fr) tenv (l.map hushItem) (i + 1) vars' (e + 1) k))) := by
          intro w
          refine note (item hr fun r v => note ?_)
          cases r with
          | some e => exact .ret _
          | none => exact items hr
        split
        · exact go none
        · refine readVars fun m => ?_
          cases placed x.line (evaluate x.cond ⟨m, c.env⟩) with
          | error e => exact same _
          | ok b =>
            cases b with
            | false => exact note (items hr)
            | true => exact go _

theorem task {rec rec' : Rec} (hr : RecQ rec rec') {name : Str} {T : Task} {fr : Frame} :
    Q (executeTask c tasks rec name T fr) (executeTask (hush c) (hushTasks tasks) rec' name (hushTask T) (hf fr)) := by
  unfold executeTask
  refine .act _ fun g => ?_
  have e1 : (hushTask T).line = T.line := rfl
  have e2 : (hushTask T).vars = T.vars := rfl
  have e3 : (hushTask T).env = T.env := rfl
  have e4 : (hush c).env = c.env := rfl
  have e5 : (hush c).globalEnv = c.globalEnv := rfl
  rw [e1, e2, e3, e4, e5]
  cases placed T.line (resolveVars T.vars g c.env) with
  | error e => exact .ret _
  | ok m =>
    refine .emit rfl ?_
    cases placed T.line (interpolateEnv ⟨m, c.env⟩ (mergeEnvMaps [c.globalEnv, T.env])) with
    | error e => exact .ret _
    | ok tenv => exact items hr

theorem deps {rec rec' : Rec} (hr : RecQ rec rec') {name : Str} {fr : Frame} {k k' : Prog} (hk : Q k k') : ∀ {ds : List Str} {i : Nat},
    Q (runDeps rec name fr k ds i) (runDeps rec' name (hf fr) k' ds i)
  | [], _ => hk
  | d :: ds, i => by
    simp only [runDeps]
    refine bind (hr { fr with ovSilent := none, ovOutput := none } false d) fun r => ?_
    cases r with
    | none => exact note (deps hr hk)
    | some e => exact same _

theorem body {rec rec' : Rec} (hr : RecQ rec rec') {fr : Frame} {b : Bool} {name : Str} :
    Q (runTaskBody c tasks rec fr b name) (runTaskBody (hush c) (hushTasks tasks) rec' (hf fr) b name) := by
  unfold runTaskBody
  rw [get_hush]
  cases tasks.get? name with
  | none => exact .ret _
  | some T =>
    have hd : Q (runDeps rec name fr (if T.run = [] then .act (.setDone name) fun _ => .ret none
          else (executeTask c tasks rec name T fr).bind fun
          | some e => .ret (some e)
          | none => .act (.setDone name) fun _ => .ret none) T.deps 0)
        (runDeps rec' name (hf fr) (if (hushTask T).run = [] then .act (.setDone name) fun _ => .ret none
          else (executeTask (hush c) (hushTasks tasks) rec' name (hushTask T) (hf fr)).bind fun
          | some e => .ret (some e)
          | none => .act (.setDone name) fun _ => .ret none) (hushTask T).deps 0) := by
      refine deps hr ?_
      have e : (hushTask T).run = [] ↔ T.run = [] := List.map_eq_nil_iff
      simp only [e]
      split
      · exact same _
      · exact bind (task hr) fun r => by cases r <;> exact same _
    have hs : (!(hush c).dry && !isSilent [(hf fr).ovSilent, (hushTask T).silent, (hush c).globalSilent]) = false := by
      have : isSilent [(hf fr).ovSilent, (hushTask T).silent, (hush c).globalSilent] = true := rfl
      rw [this]; simp
    have go : ∀ {P P' : Prog}, Q P P' → Q (if (!c.dry && !isSilent [fr.ovSilent, T.silent, c.globalSilent]) = true then .note (.echoTask name b fr.out) P else P) P' := by
      intro P P' h
      split
      · exact .left rfl h
      · exact h
    simp only [Option.map_some, hs]
    have e1 : (hushTask T).cond = T.cond := rfl
    have e2 : (hushTask T).line = T.line := rfl
    have e3 : (hush c).env = c.env := rfl
    rw [e1, e2, e3]
    split
    · exact go hd
    · refine .act _ fun g => ?_
      cases placed T.line (evaluate T.cond ⟨g, c.env⟩) with
      | error e => exact .ret _
      | ok b =>
        cases b with
        | false => exact same _
        | true => exact note (go hd)

theorem chain (current : Str) (state : GoMap Status) : ∀ fuel ch seen,
    chainLoop current (hushTasks tasks) state fuel ch seen = chainLoop current tasks state fuel ch seen
  | 0, _, _ => rfl
  | fuel + 1, ch, seen => by
    simp only [chainLoop, chain current state fuel, get_hush]
    cases tasks.get? (ch.getLast?.getD []) <;> rfl

theorem length_hush : (hushTasks tasks).length = tasks.length := List.length_map ..

theorem chain_hush (current : Str) (state : GoMap Status) : buildChain current (hushTasks tasks) state = buildChain current tasks state := by
  unfold buildChain
  rw [length_hush, chain]

theorem run : ∀ fuel, RecQ (runTask c tasks fuel) (runTask (hush c) (hushTasks tasks) fuel)
  | 0 => fun _ _ _ => same _
  | fuel + 1 => fun fr b name => by
    simp only [runTask]
    refine .act _ fun s => ?_
    cases s with
    | none => exact bind (body (run fuel)) fun r => same _
    | some st =>
      cases st with
      | done => exact .ret _
      | running =>
        refine .act _ fun x => ?_
        rw [chain_hush (tasks := tasks) name x]
        exact same _

theorem start_q (g : GoMap Str) (main : Str) :
    start c tasks g main = ⟨runWithTasks c tasks main, Shared.init g⟩ ∧ start (hush c) (hushTasks tasks) g main = ⟨runWithTasks (hush c) (hushTasks tasks) main, Shared.init g⟩ ∧
    Q (runWithTasks c tasks main) (runWithTasks (hush c) (hushTasks tasks) main) := by
  refine ⟨rfl, rfl, ?_⟩
  unfold runWithTasks
  rw [length_hush]
  exact run _ {} true main

end Silent
end Bab
