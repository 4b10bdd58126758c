import Verif.Spec.Confine
import Verif.Spec.ResolveVars
import Verif.Spec.Condition
import Verif.Model.Runner
/-
C63: what a failing invocation can blame. An explanation is something outside the runner: a process, a
signal, the terminal, a directory; or a mistake in the Babfile that can only be seen when the task runs.
-/

namespace Bab.Spec

/-- a text of an item that is expanded when the item runs -/
inductive ItemText : RunItem → Str → Prop
  | cmd (v : CommandRun) : ItemText (.command v) v.cmd
  | env (v : CommandRun) {k x : Str} (h : (k, x) ∈ v.env) : ItemText (.command v) x
  | dir (v : CommandRun) : ItemText (.command v) v.dir
  | log (l : LogRun) : ItemText (.log l) l.log
  | message (p : PromptRun) : ItemText (.prompt p) p.message
  | default (p : PromptRun) : ItemText (.prompt p) p.default
  | placeholder (p : PromptRun) : ItemText (.prompt p) p.placeholder
  | option (p : PromptRun) {x : Str} (h : x ∈ p.options) : ItemText (.prompt p) x
  | defaults (p : PromptRun) {x : Str} (h : x ∈ p.defaults) : ItemText (.prompt p) x

/-- an item of the task, or an item of one of its parallel blocks -/
inductive ItemOf (T : Task) : RunItem → Prop
  | top {i} (h : i ∈ T.run) : ItemOf T i
  | sub {items labels mode lim color s o pl w ln i} (h : .parallel items labels mode lim color s o pl w ln ∈ T.run)
      (hi : i ∈ items) : ItemOf T i

/-- a text that is expanded when the task runs -/
inductive TextOf (c : Cfg) (T : Task) : Str → Prop
  | cond : TextOf c T T.cond
  | var {m : GoMap Str} {k x : Str} (hm : T.vars = some m) (h : m.get? k = some x) : TextOf c T x
  | env {k x : Str} (h : (k, x) ∈ T.env) : TextOf c T x
  | globalEnv {k x : Str} (h : (k, x) ∈ c.globalEnv) : TextOf c T x
  /-- values of `env` are expanded a second time for each command (C29) -/
  | again {k x y : Str} {ctx : Ctx} (h : (k, x) ∈ T.env ∨ (k, x) ∈ c.globalEnv) (hy : interpolate x ctx = .ok y) : TextOf c T y
  | dir : TextOf c T T.dir
  | globalDir : TextOf c T c.globalDir
  | itemCond {i : RunItem} (h : i ∈ T.run) : TextOf c T i.cond
  | item {i : RunItem} {x : Str} (h : ItemOf T i) (ht : ItemText i x) : TextOf c T x

/-- the error is explained: by an event in the list, or by the definition of a task that `main` needs -/
def Explained (c : Cfg) (tasks : TaskMap) (main : Str) (tr : List Ev) : Err → Prop
  | .wrap _ e => Explained c tasks main tr e
  | .exit code => ∃ loc, .procEnd loc (some code) ∈ tr ∨ .procFail loc ∈ tr ∧ code = 127
  | .canceled => (∃ id, .cancel id ∈ tr) ∨ ∃ loc n, .answered loc n (.error .canceled) ∈ tr
  | .prompt reason => ∃ loc n, .answered loc n (.error (.prompt reason)) ∈ tr
  | .tui => .tuiStart false ∈ tr
  | .badDir d => c.stat d ≠ .dir
  | .varNotFound x => ¬ IsEnv x ∧ ∃ n T text, Needs tasks main n ∧ tasks.get? n = some T ∧ TextOf c T text ∧ Uses text x
  | .varCycle _ chain => ∃ n T m, Needs tasks main n ∧ tasks.get? n = some T ∧ T.vars = some m ∧
      Path (DependsOn m.get?) chain ∧ ∃ l a, chain = l ++ [a] ∧ a ∈ l
  | .circularDep chain => chain ≠ [] ∧ IsPath tasks chain ∧ ∀ n ∈ chain, Needs tasks main n
  | .noItems n => Needs tasks main n ∧ ∃ T, tasks.get? n = some T ∧ T.run ≠ [] ∧ ∀ i ∈ T.run, i.onPlatform c.platform = false
  | .emptyCmd n => Needs tasks main n ∧ ∃ T v, tasks.get? n = some T ∧ ItemOf T (.command v) ∧ v.cmd ≠ [] ∧ ∀ x ∈ v.cmd, WhiteSpace x
  | .taskNotFound _ => False
  | .parallelUnknown _ => False
  | .unsupported => False
  | .fuel => False

/-- the error an event tells about -/
def failure : Ev → Option Err
  | .taskEnd _ r => r
  | .itemEnd _ _ r => r
  | .subEnd _ _ _ r => r
  | .parEnd _ _ r => r
  | .depFail _ _ e => some e
  | _ => none

/-- what `main` needs can be run: every task exists under its name, parallel blocks hold commands, tasks and logs
only, and no command is empty -/
structure Ready (tasks : TaskMap) (main : Str) : Prop where
  exist : ∀ n, Needs tasks main n → ∃ T, tasks.get? n = some T ∧ T.name = n
  blocks : ∀ n T items labels mode lim color s o pl w ln i, Needs tasks main n → tasks.get? n = some T →
    .parallel items labels mode lim color s o pl w ln ∈ T.run → i ∈ items →
    (∃ v, i = .command v) ∨ (∃ t, i = .task t) ∨ ∃ l, i = .log l
  commands : ∀ n T v, Needs tasks main n → tasks.get? n = some T → ItemOf T (.command v) → v.cmd ≠ []

end Bab.Spec
