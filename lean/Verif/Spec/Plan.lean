import Verif.Spec.Confine
import Verif.Model.Runner
/-
C76, C77: what a task means if nothing runs in parallel and nothing is asked: a list of commands and messages.
-/

namespace Bab.Spec

/-- something a run does, or a dry run shows -/
inductive PlanEntry
  | cmd (loc : Loc) (text : Str)
  | log (loc : Loc) (text level : Str)
  /-- the task is named, but not run -/
  | task (loc : Loc) (name : Str)
  deriving DecidableEq, Repr

/-- the entry that an event is -/
def entryOf : Ev → Option PlanEntry
  | .procStart loc spec => some (.cmd loc spec.cmd)
  | .wouldRun loc text => some (.cmd loc text)
  | .logged loc text level _ => some (.log loc text level)
  | .wouldLog loc text level => some (.log loc text level)
  | .wouldTask loc name => some (.task loc name)
  | _ => none

/-- what was done, or shown, in order -/
def entries (tr : List Ev) : List PlanEntry := tr.filterMap entryOf

/-- text, environment and directory of a command can be worked out -/
def CmdReady (c : Cfg) (T : Task) (v : CommandRun) (tenv m : GoMap Str) (text : Str) : Prop :=
  trimSpace v.cmd ≠ [] ∧ interpolate v.cmd ⟨m, c.env⟩ = .ok text ∧
    (∃ env, interpolateEnv ⟨m, c.env⟩ (mergeEnvMaps [tenv, v.env]) = .ok env) ∧ ∃ dir, resolveDir c T v.dir ⟨m, c.env⟩ = .ok dir

/-- a condition holds; the empty one does -/
def CondTrue (c : Cfg) (cond : Str) (m : GoMap Str) : Prop := evaluate cond ⟨m, c.env⟩ = .ok true

/-- a condition does not hold -/
def CondFalse (c : Cfg) (cond : Str) (m : GoMap Str) : Prop := evaluate cond ⟨m, c.env⟩ = .ok false

/-- a condition makes no sense -/
def CondWrong (c : Cfg) (cond : Str) (m : GoMap Str) : Prop := ∃ e, evaluate cond ⟨m, c.env⟩ = .error e

/-- what is to be done: a task, tasks one after the other, or items of a task `n`. `m` and `tenv` are the variables and the
environment of the task, `i` is the index of the first item, and `any` says whether an item before did something or was
skipped for its condition. -/
inductive Job
  | task (n : Str)
  | deps (ds : List Str)
  | items (n : Str) (T : Task) (m tenv : GoMap Str) (i : Nat) (its : List RunItem) (any : Bool)

/-- The plan of a job. `S` are the tasks that have begun and `D` those that are done; the result is the list of entries, and the
tasks that are done afterwards, or `none` if it ends with an error. With `inline` items that call a task run it,
otherwise they name it. -/
inductive Plan (c : Cfg) (tasks : TaskMap) (g : GoMap Str) (inline : Bool) : List Str → Job → List Str → List PlanEntry → Option (List Str) → Prop
  /-- a task runs once -/
  | done {S n D} : n ∈ D → Plan c tasks g inline S (.task n) D [] (some D)
  | circle {S n D} : n ∉ D → n ∈ S → Plan c tasks g inline S (.task n) D [] none
  | unknown {S n D} : n ∉ D → n ∉ S → tasks.get? n = none → Plan c tasks g inline S (.task n) D [] none
  | wrong {S n D T} : n ∉ D → n ∉ S → tasks.get? n = some T → CondWrong c T.cond g → Plan c tasks g inline S (.task n) D [] none
  | skipped {S n D T} : n ∉ D → n ∉ S → tasks.get? n = some T → CondFalse c T.cond g → Plan c tasks g inline S (.task n) D [] (some (n :: D))
  /-- first the dependencies, then the items -/
  | depsFail {S n D T es} : n ∉ D → n ∉ S → tasks.get? n = some T → CondTrue c T.cond g →
      Plan c tasks g inline (n :: S) (.deps T.deps) D es none → Plan c tasks g inline S (.task n) D es none
  | noItems {S n D T es D1} : n ∉ D → n ∉ S → tasks.get? n = some T → CondTrue c T.cond g →
      Plan c tasks g inline (n :: S) (.deps T.deps) D es (some D1) → T.run = [] → Plan c tasks g inline S (.task n) D es (some (n :: D1))
  | badVars {S n D T es D1 e} : n ∉ D → n ∉ S → tasks.get? n = some T → CondTrue c T.cond g →
      Plan c tasks g inline (n :: S) (.deps T.deps) D es (some D1) → T.run ≠ [] → resolveVars T.vars g c.env = .error e →
      Plan c tasks g inline S (.task n) D es none
  | badEnv {S n D T es D1 m e} : n ∉ D → n ∉ S → tasks.get? n = some T → CondTrue c T.cond g →
      Plan c tasks g inline (n :: S) (.deps T.deps) D es (some D1) → T.run ≠ [] → resolveVars T.vars g c.env = .ok m →
      interpolateEnv ⟨m, c.env⟩ (mergeEnvMaps [c.globalEnv, T.env]) = .error e → Plan c tasks g inline S (.task n) D es none
  | runs {S n D T es D1 m tenv es' r} : n ∉ D → n ∉ S → tasks.get? n = some T → CondTrue c T.cond g →
      Plan c tasks g inline (n :: S) (.deps T.deps) D es (some D1) → T.run ≠ [] → resolveVars T.vars g c.env = .ok m →
      interpolateEnv ⟨m, c.env⟩ (mergeEnvMaps [c.globalEnv, T.env]) = .ok tenv →
      Plan c tasks g inline (n :: S) (.items n T m tenv 0 T.run false) D1 es' r →
      Plan c tasks g inline S (.task n) D (es ++ es') (r.map (n :: ·))
  /-- dependencies, in order, up to the first failure -/
  | noDeps {S D} : Plan c tasks g inline S (.deps []) D [] (some D)
  | dep {S d ds D es D1 es' r} : Plan c tasks g inline S (.task d) D es (some D1) → Plan c tasks g inline S (.deps ds) D1 es' r →
      Plan c tasks g inline S (.deps (d :: ds)) D (es ++ es') r
  | depFails {S d ds D es} : Plan c tasks g inline S (.task d) D es none → Plan c tasks g inline S (.deps (d :: ds)) D es none
  /-- items, in order, up to the first failure; if there was none for this platform, that is an error -/
  | end {S n T m tenv i D} : Plan c tasks g inline S (.items n T m tenv i [] true) D [] (some D)
  | nothing {S n T m tenv i D} : Plan c tasks g inline S (.items n T m tenv i [] false) D [] none
  | elsewhere {S n T m tenv i it its any D es r} : it.onPlatform c.platform = false →
      Plan c tasks g inline S (.items n T m tenv (i + 1) its any) D es r → Plan c tasks g inline S (.items n T m tenv i (it :: its) any) D es r
  | wrongItem {S n T m tenv i it its any D} : it.onPlatform c.platform = true → CondWrong c it.cond m →
      Plan c tasks g inline S (.items n T m tenv i (it :: its) any) D [] none
  | skippedItem {S n T m tenv i it its any D es r} : it.onPlatform c.platform = true → CondFalse c it.cond m →
      Plan c tasks g inline S (.items n T m tenv (i + 1) its true) D es r → Plan c tasks g inline S (.items n T m tenv i (it :: its) any) D es r
  | cmd {S n T m tenv i v its any D text es r} : (RunItem.command v).onPlatform c.platform = true → CondTrue c v.cond m → CmdReady c T v tenv m text →
      Plan c tasks g inline S (.items n T m tenv (i + 1) its true) D es r →
      Plan c tasks g inline S (.items n T m tenv i (.command v :: its) any) D (.cmd ⟨n, i, none⟩ text :: es) r
  | badCmd {S n T m tenv i v its any D} : (RunItem.command v).onPlatform c.platform = true → CondTrue c v.cond m → (∀ text, ¬ CmdReady c T v tenv m text) →
      Plan c tasks g inline S (.items n T m tenv i (.command v :: its) any) D [] none
  | log {S n T m tenv i l its any D text es r} : (RunItem.log l).onPlatform c.platform = true → CondTrue c l.cond m → interpolate l.log ⟨m, c.env⟩ = .ok text →
      Plan c tasks g inline S (.items n T m tenv (i + 1) its true) D es r →
      Plan c tasks g inline S (.items n T m tenv i (.log l :: its) any) D (.log ⟨n, i, none⟩ text l.level :: es) r
  | badLog {S n T m tenv i l its any D e} : (RunItem.log l).onPlatform c.platform = true → CondTrue c l.cond m → interpolate l.log ⟨m, c.env⟩ = .error e →
      Plan c tasks g inline S (.items n T m tenv i (.log l :: its) any) D [] none
  | call {S n T m tenv i t its any D es D1 es' r} : inline = true → (RunItem.task t).onPlatform c.platform = true → CondTrue c t.cond m →
      Plan c tasks g inline S (.task t.task) D es (some D1) → Plan c tasks g inline S (.items n T m tenv (i + 1) its true) D1 es' r →
      Plan c tasks g inline S (.items n T m tenv i (.task t :: its) any) D (es ++ es') r
  | callFails {S n T m tenv i t its any D es} : inline = true → (RunItem.task t).onPlatform c.platform = true → CondTrue c t.cond m →
      Plan c tasks g inline S (.task t.task) D es none → Plan c tasks g inline S (.items n T m tenv i (.task t :: its) any) D es none
  | name {S n T m tenv i t its any D es r} : inline = false → (RunItem.task t).onPlatform c.platform = true → CondTrue c t.cond m →
      Plan c tasks g inline S (.items n T m tenv (i + 1) its true) D es r →
      Plan c tasks g inline S (.items n T m tenv i (.task t :: its) any) D (.task ⟨n, i, none⟩ t.task :: es) r

/-- nothing in a task runs in parallel or is asked -/
def Sequential (tasks : TaskMap) (n : Str) : Prop :=
  ∀ T, tasks.get? n = some T → ∀ it ∈ T.run, (∃ v, it = .command v) ∨ (∃ l, it = .log l) ∨ ∃ t, it = .task t

/-- nor does it call tasks in its items -/
def NoCalls (tasks : TaskMap) (n : Str) : Prop :=
  ∀ T, tasks.get? n = some T → ∀ it ∈ T.run, (∃ v, it = .command v) ∨ ∃ l, it = .log l

/-- something came in between: a command failed, or bab was interrupted -/
def Disturbing : Ev → Prop
  | .cancel _ => True
  | .procFail _ => True
  | .procEnd _ (some _) => True
  | _ => False

/-- something came in between -/
def Disturbed (tr : List Ev) : Prop := ∃ e ∈ tr, Disturbing e

end Bab.Spec
