import Verif.Props.Cli
import Verif.Props.Suggest
import Verif.Props.Unmarshal
/-
Concrete cases in which the code does something else than one would expect. Each of them belongs to a property; see the
section on findings in DESIGN.md.
-/

namespace Bab
namespace Sample
open Cli

/-- load a project and run a task of it to the end, every process succeeding: the result, and the commands started -/
def runs (files : Files) (file task : String) (base : Cfg := {}) (dry : Bool := false) : String × List Str :=
  match run { desk files with base := base } (desk files) plainly plainly { babfile := s file, dryRun := dry } [s task] .killed with
  | .run c tasks gvars name =>
    let st := Exec.drive [.auto 100] (start c tasks gvars name)
    (match Exec.result st with | some none => "succeeds" | some (some _) => "fails" | none => "goes on",
     st.sh.trace.filterMap fun e => match e with | .procStart _ spec => some spec.cmd | _ => none)
  | _ => ("does not start", [])

/-- a prompt and a command that uses the answer -/
def questioned : Files :=
  [ (s "/p/a.yml", some { tasks := [(s "t", { name := [], run := [.prompt { prompt := s "x", type := .input, message := s "?", default := s "v" }, cmd "echo ${{ x }}"] })] }) ]

/-- A prompt sets no variable in a dry run, so that `--dry-run` fails for a task that can be run. -/
theorem C20_prompt_sets_nothing :
    runs questioned "/p/a.yml" "t" { stdinTTY := false } = ("succeeds", [s "echo v"]) ∧
    runs questioned "/p/a.yml" "t" { stdinTTY := false } true = ("fails", []) := by
  decide +kernel

/-- a file with a variable, and a task whose condition uses it -/
def conditional : Files :=
  [ (s "/p/a.yml", some { includes := [(s "b", s "b.yml")] }),
    (s "/p/b.yml", some { vars := some [(s "v", s "yes")], tasks := [(s "t", { name := [], cond := s "${{ v }}", run := [cmd "make"] })] }) ]

/-- The condition of a task does not see the variables of its file when the file is included. -/
theorem C33_condition_when_included :
    runs conditional "/p/b.yml" "t" = ("succeeds", [s "make"]) ∧ runs conditional "/p/a.yml" "b:t" = ("fails", []) := by
  decide +kernel

/-- a file with two variables, and a task that overrides the first -/
def derived : Files :=
  [ (s "/p/a.yml", some { includes := [(s "b", s "b.yml")] }),
    (s "/p/b.yml", some { vars := some [(s "v", s "1"), (s "w", s "<${{ v }}>")],
                          tasks := [(s "t", { name := [], vars := some [(s "v", s "2")], run := [cmd "echo ${{ w }}"] })] }) ]

/-- The variables of an included file are expanded together with those of the task: the same task runs another command. -/
theorem C33_variables_when_included :
    runs derived "/p/b.yml" "t" = ("succeeds", [s "echo <1>"]) ∧ runs derived "/p/a.yml" "b:t" = ("succeeds", [s "echo <2>"]) := by
  decide +kernel

/-- a prompt in one task whose answer another task uses -/
def handover : Files :=
  [ (s "/p/a.yml", some { includes := [(s "b", s "b.yml")] }),
    (s "/p/b.yml", some { tasks := [
      (s "ask", { name := [], run := [.prompt { prompt := s "x", type := .input, message := s "?", default := s "v" }] }),
      (s "use", { name := [], deps := [s "ask"], run := [cmd "echo ${{ x }}"] })] }) ]

/-- The answer of a prompt is seen by other tasks, but not when the file is included. -/
theorem C33_answers_when_included :
    runs handover "/p/b.yml" "use" { stdinTTY := false } = ("succeeds", [s "echo v"]) ∧
    runs handover "/p/a.yml" "b:use" { stdinTTY := false } = ("fails", []) := by
  decide +kernel

/-- the tasks that are announced -/
def announced (tasks : TaskMap) (name : String) : List Str :=
  (Exec.drive [.auto 200] (start {} tasks [] (s name))).sh.trace.filterMap fun e => match e with | .echoTask n _ _ => some n | _ => none

/-- a task with a dependency, called silently, alone and in a block -/
def hushed : TaskMap :=
  [ (s "lib", { name := s "lib", run := [cmd "ar"] }), (s "app", { name := s "app", deps := [s "lib"], run := [cmd "cc"] }),
    (s "one", { name := s "one", run := [.task { task := s "app", silent := some true }] }),
    (s "two", { name := s "two", run := [.parallel [call "app"] [] .interleaved 0 none (some true) none [] [] 0] }) ]

/-- `silent` on a call does not reach the dependencies of the called task, `silent` on a block does. -/
theorem C31_dependencies_in_blocks :
    announced hushed "one" = [s "one", s "lib"] ∧ announced hushed "two" = [s "two"] := by
  decide +kernel

/-- A candidate of one letter which the name contains is preferred to a mistyped name. -/
theorem C50_short_candidate :
    findSimilar id [98, 117, 105, 100, 108] [[98, 117, 105, 108, 100], [98]] = [98] ∧
    findSimilar id [98, 117, 105, 100, 108] [[98, 117, 105, 108, 100]] = [98, 117, 105, 108, 100] := by
  decide +kernel

end Sample

namespace Yaml.Sample

/-- the task that is read for the name `t` -/
def readTask (n : Node) : Option Task :=
  match unmarshalDoc decoders (some (obj [("tasks", obj [("t", n)])])) with
  | .ok b => b.tasks.get? "t".toList
  | .error _ => none

/-- A key that belongs to another kind of item is ignored: the directory given for a task, the options given for a
command. -/
theorem C40_foreign_keys :
    readTask (obj [("run", list [obj [("task", str "x"), ("dir", str "src")], obj [("cmd", str "ls"), ("options", list [str "a"])]])]) =
    readTask (obj [("run", list [obj [("task", str "x")], obj [("cmd", str "ls")]])]) ∧
    (readTask (obj [("run", list [obj [("task", str "x")], obj [("cmd", str "ls")]])])).isSome = true :=
  ⟨by rfl, by rfl⟩

/-- A merge key (`<<`) is ignored like any unknown key: what is merged is lost. -/
theorem C40_merge_key :
    readTask (obj [("<<", obj [("deps", list [str "x"])]), ("run", list [obj [("cmd", str "ls")]])]) =
    readTask (obj [("run", list [obj [("cmd", str "ls")]])]) := by rfl

end Yaml.Sample
end Bab
