import Verif.Model.Prog
import Verif.Model.Condition
import Verif.Model.ResolveVars
/-
Model of internal/runner/runner.go and parallel.go: the functions as programs (`Prog`).
Output formatting and debug logging are left out.
-/

namespace Bab

/-- what `os.Stat` says about a path (runner.go 453-462) -/
inductive StatRes
  | dir | notDir | missing | error
  deriving DecidableEq, Repr

/-- The fields of `Runner` (runner.go 33-43) that do not change during an invocation, and the parts
of the outside world that are read: platform, environment, file system, terminals. -/
structure Cfg where
  dry : Bool := false
  globalEnv : GoMap Str := []
  globalSilent : Option Bool := none
  globalOutput : Option Bool := none
  globalDir : Str := []
  /-- `runtime.GOOS` -/
  platform : Str := "linux".toList
  /-- `os.LookupEnv` -/
  env : Str → Option Str := fun _ => none
  /-- `os.Environ()` -/
  environ : List (Str × Str) := []
  stat : Str → StatRes := fun _ => .dir
  /-- `term.IsTerminal(os.Stderr)` -/
  stderrTTY : Bool := false
  /-- `term.IsTerminal(os.Stdin)` -/
  stdinTTY : Bool := true

/-- the parameters that `runTask` and its helpers pass down (runner.go 135) -/
structure Frame where
  ctx : CtxPath := [0]
  ovSilent : Option Bool := none
  ovOutput : Option Bool := none
  /-- `stdout`, `stderr`; `none` is nil -/
  out : Option Sink := none
  noColor : Bool := false
  /-- `pctx`: the path of the surrounding item of a parallel view -/
  pctx : Option (List Nat) := none

/-- the part of the parameters that decides about output (runner.go 135) -/
def Frame.call (fr : Frame) : Call := ⟨fr.ovSilent, fr.ovOutput, fr.noColor, fr.out⟩

/-- runner.go 108-115 `isSilent` -/
def isSilent : List (Option Bool) → Bool
  | [] => false
  | some b :: _ => b
  | none :: r => isSilent r

/-- runner.go 117-124 `isOutput` -/
def isOutput : List (Option Bool) → Bool
  | [] => true
  | some b :: _ => b
  | none :: r => isOutput r

/-- runner.go 126-133 `firstNonNil` -/
def firstNonNil : List (Option Bool) → Option Bool
  | [] => none
  | some b :: _ => some b
  | none :: r => firstNonNil r

/-- runner.go 411-425 `interpolateEnv` -/
def interpolateEnv (ctx : Ctx) : GoMap Str → Except Err (GoMap Str)
  | [] => .ok []
  | (k, v) :: r =>
    match interpolate v ctx with
    | .error e => .error e
    | .ok v' =>
      match interpolateEnv ctx r with
      | .error e => .error e
      | .ok r' => .ok ((k, v') :: r')

/-- runner.go 427-465 `resolveDir` -/
def resolveDir (c : Cfg) (T : Task) (cmdDir : Str) (ctx : Ctx) : Except Err Str :=
  let baseDir := dirPath T.sourcePath
  let dir := cmdDir
  let dir := if dir = [] then T.dir else dir
  let dir := if dir = [] then c.globalDir else dir
  if dir = [] then .ok baseDir
  else match interpolate dir ctx with
    | .error e => .error (.wrap .dirText e)
    | .ok d =>
      let d := if isAbs d then d else joinPath baseDir d
      let d := cleanPath d
      match c.stat d with
      | .dir => .ok d
      | _ => .error (.badDir d)

/-- runner.go 467-472 `shellCommand` -/
def shellCommand (platform : Str) : Str × Str :=
  if platform = "windows".toList then ("cmd".toList, "/C".toList) else ("sh".toList, "-c".toList)

/-- The variables of a task (`taskVars` in runner.go 209): the global map itself, or an own map. -/
inductive VarEnv
  | global
  | own (m : GoMap Str)

/-- reading the variables; `some` of the own map, or a read of the global one
(runner.go 214, 244, 266, 300, 351; parallel.go 313) -/
def readVars (v : VarEnv) (k : GoMap Str → Prog) : Prog :=
  match v with
  | .own m => k m
  | .global => .act .globals k

/-- `taskVars[name] = value` (runner.go 258) -/
def writeVar (v : VarEnv) (name value : Str) (k : VarEnv → Prog) : Prog :=
  match v with
  | .own m => k (.own (m.set name value))
  | .global => .act (.setGlobal name value) (fun _ => k .global)

/-- runner.go 296-314: what is computed before a command runs: text, environment, directory -/
def prepareCommand (c : Cfg) (T : Task) (v : CommandRun) (tenv : GoMap Str) (m : GoMap Str) :
    Except Err (Str × GoMap Str × Str) :=
  match interpolate v.cmd ⟨m, c.env⟩ with
  | .error e => .error e
  | .ok text =>
    match interpolateEnv ⟨m, c.env⟩ (mergeEnvMaps [tenv, v.env]) with
    | .error e => .error e
    | .ok env =>
      match resolveDir c T v.dir ⟨m, c.env⟩ with
      | .error e => .error (.wrap (.dirOf T.name v.cmd) e)
      | .ok dir => .ok (text, env, dir)

/-- runner.go 328-341, 474-527: the process description built by `executeCommand`, `runCommand` and
`runCommandWithWriters`. `isRealTerminal` (runner.go 483-485) holds for the terminal writers and
fails for the writers of parallel blocks. -/
def procSpec (c : Cfg) (fr : Frame) (T : Task) (v : CommandRun) (text : Str) (env : GoMap Str)
    (dir : Str) : ProcSpec :=
  let showOutput := isOutput [v.output, fr.ovOutput, T.output, c.globalOutput]
  let out : OutTo := match fr.out with
    | some s => if showOutput then .sink s else .discard
    | none => if showOutput then .terminal else .discard
  let piped := fr.out.isSome && showOutput
  let noColor := match fr.out with
    | some _ => fr.noColor
    | none => false
  let cmdEnv := c.environ
    ++ (if piped then
          (if noColor then [("TERM".toList, "dumb".toList), ("NO_COLOR".toList, "1".toList)]
           else [("FORCE_COLOR".toList, "1".toList)])
        else [])
    ++ (if env = [] then [] else mergeEnvMaps [env])
  { shell := (shellCommand c.platform).1
    arg := (shellCommand c.platform).2
    cmd := text
    env := if env ≠ [] ∨ piped = true then some cmdEnv else none
    dir := dir
    out := out
    stdin := fr.out.isNone && showOutput }

/-- runner.go 487-534 `runCommandWithWriters`: run the process; if it fails and the context is done
the error is the context's -/
def runProc (task : Str) (fr : Frame) (loc : Loc) (spec : ProcSpec) : Prog :=
  .act (.start fr.ctx loc spec) fun (started : Bool) =>
    let failed (code : Nat) : Prog :=
      .act (.cancelled fr.ctx) fun (b : Bool) =>
        .ret (some (.wrap (.command task spec.cmd) (if b then .canceled else .exit code)))
    if started then
      .act (.wait loc) fun (r : Option Nat) =>
        match r with
        | none => .ret none
        | some code => failed code
    else failed 127

/-- runner.go 295-343 `executeCommand` -/
def executeCommand (c : Cfg) (T : Task) (fr : Frame) (loc : Loc) (v : CommandRun) (vars : VarEnv)
    (tenv : GoMap Str) : Prog :=
  if trimSpace v.cmd = [] then .ret (some (.emptyCmd T.name))
  else readVars vars fun m =>
    .note (.sees loc m) <|
    match placed v.line (prepareCommand c T v tenv m) with
    | .error e => .ret (some e)
    | .ok (text, env, dir) =>
      if c.dry then .note (.wouldRun loc text) (.ret none)
      else
        let run := runProc T.name fr loc (procSpec c fr T v text env dir)
        if isSilent [v.silent, fr.ovSilent, T.silent, c.globalSilent] then run
        else .note (.echoCmd loc text fr.out) run

/-- a recursive call of `runTask`: context, whether it is the main task, task name
(runner.go 189; parallel.go 310, 352) -/
abbrev Rec := Frame → Bool → Str → Prog

/-- parallel.go 297-331 `executeRunItem` -/
def executeRunItem (c : Cfg) (rec : Rec) (T : Task) (fr : Frame) (loc : Loc) (item : RunItem)
    (vars : VarEnv) (tenv : GoMap Str) : Prog :=
  match item with
  | .command v => executeCommand c T fr loc v vars tenv
  | .task t =>
    if c.dry then .note (.wouldTask loc t.task) (.ret none)
    else rec { fr with ovSilent := firstNonNil [t.silent, fr.ovSilent],
                       ovOutput := firstNonNil [t.output, fr.ovOutput] } false t.task
  | .log l =>
    readVars vars fun m =>
      .note (.sees loc m) <|
      match placed l.line (interpolate l.log ⟨m, c.env⟩) with
      | .error e => .ret (some e)
      | .ok text =>
        if c.dry then .note (.wouldLog loc text l.level) (.ret none)
        else .note (.logged loc text l.level fr.out) (.ret none)
  | _ => .ret (some .unsupported)

/-- the inner loop of parallel.go 344-355: run the dependencies of one item that are not done yet;
`seen` is the map `seen` -/
def preDeps (rec : Rec) (fr : Frame) : List Str → List Str → (List Str → Prog) → Prog
  | [], seen, k => k seen
  | d :: ds, seen, k =>
    if d ∈ seen then preDeps rec fr ds seen k
    else .act (.status d) fun (s : Option Status) =>
      if s = some .done then preDeps rec fr ds (d :: seen) k
      else (rec fr false d).andThen (.wrap (.preDep d))
        (preDeps rec fr ds (d :: seen) k)

/-- parallel.go 333-358 `preResolveDeps` -/
def preResolveDeps (tasks : TaskMap) (rec : Rec) (fr : Frame) : List RunItem → List Str → Prog → Prog
  | [], _, k => k
  | .task t :: items, seen, k =>
    match tasks.get? t.task with
    | none => .ret (some (.parallelUnknown t.task))
    | some T => preDeps rec fr T.deps seen fun seen' => preResolveDeps tasks rec fr items seen' k
  | _ :: items, seen, k => preResolveDeps tasks rec fr items seen k

/-- the goroutines of a block (parallel.go 135-165, 227-273): `child i` is the body of item `i` -/
def runBlock (lim : Nat) (ctx : CtxPath) (name : Str) (i : Nat) (items : List RunItem)
    (labels : List Str) (child : Nat → RunItem → Prog) : Prog :=
  .par lim ctx name i items.length
    { held := 0, wg := items.length, first := none, tag := fun _ => .init }
    (fun j =>
      .note (.subStart name i j) <|
      (child j (items.get j)).bind fun r =>
        .note (.subEnd name i j r) <|
        .ret (r.map (.wrap (.item (itemLabel items labels j)))))
    (fun first => .note (.parEnd name i first) (.ret first))

/-- parallel.go 116-166 `executeParallelInterleaved` -/
def executeParallelInterleaved (c : Cfg) (rec : Rec) (name : Str) (T : Task) (fr : Frame) (i : Nat)
    (items : List RunItem) (labels : List Str) (lim : Nat) (m : GoMap Str) (tenv : GoMap Str) : Prog :=
  let base : Sink := fr.out.getD ⟨[], []⟩
  .note (.parBegin name i m) <|
  runBlock lim fr.ctx name i items labels fun j item =>
    executeRunItem c rec T { fr with out := some { base with prefixes := base.prefixes ++ [j] }, pctx := none }
      ⟨name, i, some j⟩ item (.own m) tenv

/-- parallel.go 168-295 `executeParallelTUI`; the messages sent to the view are left out -/
def executeParallelTUI (c : Cfg) (rec : Rec) (name : Str) (T : Task) (fr : Frame) (i : Nat)
    (items : List RunItem) (labels : List Str) (lim : Nat) (m : GoMap Str) (tenv : GoMap Str) : Prog :=
  let go (ctx : CtxPath) (base : List Nat) : Prog :=
    .note (.parBegin name i m) <|
    runBlock lim ctx name i items labels fun j item =>
      executeRunItem c rec T { fr with ctx := ctx, out := some ⟨base ++ [j], []⟩, pctx := some (base ++ [j]) }
        ⟨name, i, some j⟩ item (.own m) tenv
  match fr.pctx with
  | some path => go fr.ctx path
  | none =>
    .act .newCtx fun (id : Nat) =>
    .act .tui fun (ok : Bool) =>
      if ok then go (id :: fr.ctx) []
      else .ret (some (.wrap .view .tui))

/-- parallel.go 71-114 `executeParallel` -/
def executeParallel (c : Cfg) (tasks : TaskMap) (rec : Rec) (name : Str) (T : Task) (fr : Frame)
    (i : Nat) (items : List RunItem) (labels : List Str) (mode : ParallelMode) (lim : Nat)
    (color silent output : Option Bool) (m : GoMap Str) (tenv : GoMap Str) : Prog :=
  let fr : Frame := { fr with
    noColor := fr.noColor || !(color == none || color == some true)
    ovSilent := if silent.isSome then silent else fr.ovSilent
    ovOutput := if output.isSome then output else fr.ovOutput }
  preResolveDeps tasks rec fr items [] <|
  if c.dry then .note (.wouldParallel ⟨name, i, none⟩) (.ret none)
  else
    let useTUI := (mode == .grouped || mode == .tabs) && c.stderrTTY && (fr.out.isNone || fr.pctx.isSome)
    if useTUI then executeParallelTUI c rec name T fr i items labels lim m tenv
    else executeParallelInterleaved c rec name T fr i items labels lim m tenv

/-- runner.go 243-260: a prompt item; `k` gets the variables with the answer -/
def executePrompt (c : Cfg) (task : Str) (loc : Loc) (p : PromptRun) (vars : VarEnv) (k : Option Err → VarEnv → Prog) :
    Prog :=
  readVars vars fun m =>
    .note (.sees loc m) <|
    match placed p.line (interpolatePrompt p ⟨m, c.env⟩) with
    | .error e => k (some e) vars
    | .ok p' =>
      if c.dry then .note (.wouldPrompt loc p'.prompt) (k none vars)
      else
        let got (r : Except Err Str) : Prog :=
          match r with
          | .error e => k (some (.wrap (.prompt task p.prompt) e)) vars
          | .ok ans => writeVar vars p.prompt ans (k none)
        if c.stdinTTY then .act (.prompt loc p') got
        else .note (.answered loc p'.prompt (handleNonInteractive p')) (got (handleNonInteractive p'))

/-- runner.go 242-279: one item that passed its checks -/
def executeItem (c : Cfg) (tasks : TaskMap) (rec : Rec) (name : Str) (T : Task) (fr : Frame) (i : Nat)
    (item : RunItem) (vars : VarEnv) (tenv : GoMap Str) (k : Option Err → VarEnv → Prog) : Prog :=
  match item with
  | .prompt p => executePrompt c T.name ⟨name, i, none⟩ p vars k
  | .parallel items labels mode lim color silent output _ _ _ =>
    if c.dry then .note (.wouldParallel ⟨name, i, none⟩) (k none vars)
    else readVars vars fun m =>
      (executeParallel c tasks rec name T fr i items labels mode lim color silent output m tenv).bind
        fun r => k r vars
  | item => (executeRunItem c rec T fr ⟨name, i, none⟩ item vars tenv).bind fun r => k r vars

/-- runner.go 223-292: the loop over the run items and the check after it -/
def executeItems (c : Cfg) (tasks : TaskMap) (rec : Rec) (name : Str) (T : Task) (fr : Frame)
    (tenv : GoMap Str) : List RunItem → Nat → VarEnv → Nat → Nat → Prog
  | [], _, _, executed, skipped =>
    if executed = 0 ∧ skipped = 0 then .ret (some (.noItems T.name)) else .ret none
  | item :: rest, i, vars, executed, skipped =>
    .act (.cancelled fr.ctx) fun (b : Bool) =>
      if b then .ret (some (.wrap .cancelled .canceled))
      else if item.onPlatform c.platform = false then
        .note (.itemSkip name i .platform) (executeItems c tasks rec name T fr tenv rest (i + 1) vars executed skipped)
      else
        let go (w : Option (GoMap Str)) : Prog :=
          .note (.itemStart name i w) <|
          executeItem c tasks rec name T fr i item vars tenv fun r vars' =>
            .note (.itemEnd name i r) <|
            match r with
            | some e => .ret (some e)
            | none => executeItems c tasks rec name T fr tenv rest (i + 1) vars' (executed + 1) skipped
        -- runner.go 345-363 `shouldSkipRunItem`
        if item.cond = [] then go none
        else readVars vars fun m =>
          match placed item.line (evaluate item.cond ⟨m, c.env⟩) with
          | .error e => .ret (some (.wrap (.itemCond T.name (i + 1)) e))
          | .ok false =>
            .note (.itemSkip name i (.cond m))
              (executeItems c tasks rec name T fr tenv rest (i + 1) vars executed (skipped + 1))
          | .ok true => go (some m)

/-- runner.go 204-293 `executeTask` -/
def executeTask (c : Cfg) (tasks : TaskMap) (rec : Rec) (name : Str) (T : Task) (fr : Frame) : Prog :=
  .act .globals fun (g : GoMap Str) =>
    match placed T.line (resolveVars T.vars g c.env) with
    | .error e => .ret (some e)
    | .ok m =>
      .note (.taskVars name g m fr.call) <|
      match placed T.line (interpolateEnv ⟨m, c.env⟩ (mergeEnvMaps [c.globalEnv, T.env])) with
      | .error e => .ret (some e)
      | .ok tenv =>
        executeItems c tasks rec name T fr tenv T.run 0 (if T.vars.isNone then .global else .own m) 0 0

/-- runner.go 187-192: the loop over the dependencies; `i` is the index of the next one -/
def runDeps (rec : Rec) (name : Str) (fr : Frame) (k : Prog) : List Str → Nat → Prog
  | [], _ => k
  | d :: ds, i =>
    (rec { fr with ovSilent := none, ovOutput := none } false d).bind fun
      | none => .note (.depOk name i) (runDeps rec name fr k ds (i + 1))
      | some e => .note (.depFail name i e) (.ret (some (.wrap (.dep d) e)))

/-- runner.go 551-578 `buildChainSlice`: one iteration of the loop per unit of fuel; `none` when the
fuel runs out (proved not to happen with the fuel given in `buildChain`) -/
def chainLoop (current : Str) (tasks : TaskMap) (state : GoMap Status) :
    Nat → List Str → List Str → Option (List Str)
  | 0, _, _ => none
  | fuel + 1, chain, seen =>
    let last := (chain.getLast?).getD []
    if last ∈ seen then some chain
    else match tasks.get? last with
      | none => some chain
      | some T =>
        if T.deps = [] then some chain
        else match T.deps.find? (fun d => state.get? d = some .running) with
          | none => chainLoop current tasks state fuel chain (last :: seen)
          | some d =>
            if d = current then some (chain ++ [d])
            else chainLoop current tasks state fuel (chain ++ [d]) (last :: seen)

/-- runner.go 551-578 `buildChainSlice` -/
def buildChain (current : Str) (tasks : TaskMap) (state : GoMap Status) : List Str :=
  (chainLoop current tasks state (tasks.length + 2) [current] []).getD []

/-- runner.go 147-201: what `runTask` does after it has claimed the task -/
def runTaskBody (c : Cfg) (tasks : TaskMap) (rec : Rec) (fr : Frame) (isMain : Bool) (name : Str) : Prog :=
  match tasks.get? name with
  | none => .ret (some (.taskNotFound name))
  | some T =>
    let finish : Prog := .act (.setDone name) fun _ => .ret none
    let go : Prog :=
      let deps := runDeps rec name fr
        (if T.run = [] then finish
         else (executeTask c tasks rec name T fr).bind fun
          | some e => .ret (some e)
          | none => finish)
        T.deps 0
      if !c.dry && !isSilent [fr.ovSilent, T.silent, c.globalSilent] then
        .note (.echoTask name isMain fr.out) deps
      else deps
    if T.cond = [] then go
    else .act .globals fun (g : GoMap Str) =>
      match placed T.line (evaluate T.cond ⟨g, c.env⟩) with
      | .error e => .ret (some (.wrap (.taskCond name) e))
      | .ok false => .note (.taskSkip name g) finish
      | .ok true => .note (.taskRuns name g) go

/-- runner.go 135-202 `runTask`. The fuel bounds the recursion depth; it is proved never to run out
when it is larger than the number of tasks. -/
def runTask (c : Cfg) (tasks : TaskMap) : Nat → Rec
  | 0, _, _, _ => .act .fuel fun _ => .ret (some .fuel)
  | fuel + 1, fr, isMain, name =>
    .act (.claim name) fun (s : Option Status) =>
      match s with
      | some .done => .ret none
      | some .running =>
        .act .snapshot fun (st : GoMap Status) => .ret (some (.circularDep (buildChain name tasks st)))
      | none =>
        (runTaskBody c tasks (runTask c tasks fuel) fr isMain name).bind fun r =>
          .note (.taskEnd name r) (.ret r)

/-- runner.go 97-106 `RunWithTasks` -/
def runWithTasks (c : Cfg) (tasks : TaskMap) (name : Str) : Prog :=
  runTask c tasks (tasks.length + 2) {} true name

/-- the state in which an invocation starts (runner.go 104-105) -/
def start (c : Cfg) (tasks : TaskMap) (gvars : GoMap Str) (name : Str) : State :=
  ⟨runWithTasks c tasks name, Shared.init gvars⟩

end Bab
