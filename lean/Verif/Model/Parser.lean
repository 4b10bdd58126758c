import Verif.Model.Locate
import Verif.Model.Condition
import Verif.Model.Listing
/-
Model of internal/parser/parser.go and include.go. The content of a file is what `unmarshalBabfile` makes of
it. The file system is a finite map from absolute paths to contents. Go visits maps in random order, and the
order may differ each time; `Orders` gives it for every file that is loaded, found by its namespaces.
Line numbers and logging are left out; the messages are in `Model/LoadMessage`.
-/

namespace Bab

/-- babfile/babfile.go 8-16 `Schema`; for an include (babfile/include.go) only the path is kept -/
structure Schema where
  vars : Option (GoMap Str) := none
  env : GoMap Str := []
  silent : Option Bool := none
  output : Option Bool := none
  dir : Str := []
  includes : GoMap Str := []
  tasks : TaskMap := []

/-- what reading and unmarshalling a file gives: `none` if it is not a valid Babfile (parser.go 59-87) -/
abbrev Files := GoMap (Option Schema)

/-- the errors of loading (parser.go 28, 33, 54, 61, 68-86, 99, include.go 28) -/
inductive PErr
  /-- `path cannot be empty` (parser.go 28) -/
  | pathEmpty
  /-- `file not found` (parser.go 61) -/
  | notFound (path : Str)
  /-- an error of `unmarshalBabfile` (parser.go 65-88) -/
  | invalid (path : Str)
  /-- errs.CircularDepError of type include (parser.go 52-55) -/
  | circular (path : Str) (chain : List Str)
  /-- `task name collision` (include.go 29) -/
  | collision (path name : Str)
  /-- `include <ns> failed` (parser.go 101) -/
  | inInclude (path ns : Str) (cause : PErr)
  /-- errs.ValidationErrors of `validateAll` (parser.go 42) -/
  | validation (errs : List PlacedErr)
  /-- the model ran out of fuel; proved unreachable -/
  | fuel
  deriving DecidableEq, Repr

/-- parser.go 15-24 `ParseResult` -/
structure ParseResult where
  path : Str
  vars : Option (GoMap Str)
  env : GoMap Str
  silent : Option Bool
  output : Option Bool
  dir : Str
  tasks : TaskMap
  aliases : GoMap Str

/-- the orders in which maps are visited while loading the file found under a list of namespaces
(the `range` loops of parser.go 90, 97, 118 and include.go 25) -/
structure Orders where
  /-- the includes of the file (parser.go 99) -/
  incs : List Str → GoMap Str → GoMap Str
  /-- the tasks of the file, when it is included (include.go 26) -/
  tasks : List Str → TaskMap → TaskMap
  /-- the tasks of the file, for the alias map (parser.go 118) -/
  aliases : List Str → TaskMap → TaskMap

/-- `namespace + ":" + name` (include.go 26, 75, 84, 95, 109) -/
def nsName (ns name : Str) : Str := ns ++ ':' :: name

/-- include.go 71-76 `prefixAlias` -/
def prefixAlias (alias ns : Str) : Str := if alias = [] then [] else nsName ns alias

/-- include.go 78-87 `prefixAliases` -/
def prefixAliases (aliases : List Str) (ns : Str) : List Str := aliases.map (nsName ns)

/-- include.go 89-98 `prefixDeps` -/
def prefixDeps (deps : List Str) (ns : Str) : List Str := deps.map (nsName ns)

mutual
/-- include.go 102-131: one iteration of the loop of `prefixTaskRuns`. For parallel blocks the fields `Silent`
and `Output` are not copied. -/
def prefixTaskRun (ns : Str) : RunItem → RunItem
  | .command v => .command v
  | .task v => .task { task := nsName ns v.task, silent := v.silent, output := v.output, platforms := v.platforms, cond := v.cond, line := v.line }
  | .log v => .log v
  | .prompt v => .prompt v
  | .parallel items labels mode limit color _ _ platforms cond ln =>
    .parallel (prefixTaskRuns ns items) labels mode limit color none none platforms cond ln
/-- include.go 100-133 `prefixTaskRuns` -/
def prefixTaskRuns (ns : Str) : List RunItem → List RunItem
  | [] => []
  | item :: items => prefixTaskRun ns item :: prefixTaskRuns ns items
end

/-- include.go 32-65: the task as it appears in the including file -/
def includedTask (ns : Str) (r : ParseResult) (name : Str) (T : Task) : Task where
  name := nsName ns name
  sourcePath := T.sourcePath
  desc := T.desc
  alias := prefixAlias T.alias ns
  aliases := prefixAliases T.aliases ns
  vars := some (mergeEnvMaps [r.vars.getD [], T.vars.getD []])
  env := mergeEnvMaps [r.env, T.env]
  silent := if T.silent = none then r.silent else T.silent
  output := if T.output = none then r.output else T.output
  dir := if T.dir = [] then r.dir else T.dir
  cond := T.cond
  deps := prefixDeps T.deps ns
  run := prefixTaskRuns ns T.run
  line := T.line
  depsLine := T.depsLine

/-- include.go 26-66: the loop of `resolveInclude` -/
def includeTasks (ns incPath : Str) (r : ParseResult) : TaskMap → TaskMap → Except PErr TaskMap
  | [], tasks => .ok tasks
  | (name, T) :: rest, tasks =>
    if tasks.has (nsName ns name) then .error (.collision incPath (nsName ns name))
    else includeTasks ns incPath r rest (tasks.set (nsName ns name) (includedTask ns r name T))

/-- include.go 12-16: the path of an included file -/
def includePath (baseDir path : Str) : Str := cleanPath (if isAbs path then path else joinPath baseDir path)

/-- parser.go 99-103: the loop over the includes, with include.go 11-69 `resolveInclude` -/
def includeLoop (o : Orders) (loc : List Str) (path : Str) (load : List Str → Str → Except PErr ParseResult) :
    GoMap Str → TaskMap → Except PErr TaskMap
  | [], tasks => .ok tasks
  | (ns, inc) :: rest, tasks =>
    let incPath := includePath (dirPath path) inc
    match load (loc ++ [ns]) incPath with
    | .error e => .error (.inInclude path ns e)
    | .ok r =>
      match includeTasks ns incPath r (o.tasks (loc ++ [ns]) r.tasks) tasks with
      | .error e => .error (.inInclude path ns e)
      | .ok tasks => includeLoop o loc path load rest tasks

/-- parser.go 128-136 `chainFromVisited`: the names of the files that are being loaded, sorted, and the current one -/
def includeChain (visited : List Str) (current : Str) : List Str := sortBy strLe (visited.map basePath) ++ [basePath current]

/-- parser.go 49-114 `parseFile`; the first argument bounds the depth of includes. `visited` holds the files
that are being loaded: what a call adds it removes again (`defer delete`). -/
def parseFile (files : Files) (o : Orders) : Nat → List Str → List Str → Str → Except PErr ParseResult
  | 0, _, _, _ => .error .fuel
  | fuel + 1, visited, loc, path =>
    if path ∈ visited then .error (.circular path (includeChain visited path))
    else
      match files.get? path with
      | none => .error (.notFound path)
      | some none => .error (.invalid path)
      | some (some bf) =>
        let own : TaskMap := bf.tasks.map fun q => (q.1, { q.2 with name := q.1, sourcePath := path })
        match includeLoop o loc path (parseFile files o fuel (path :: visited)) (o.incs loc bf.includes) own with
        | .error e => .error e
        | .ok tasks =>
          .ok { path := path, vars := bf.vars, env := bf.env, silent := bf.silent, output := bf.output, dir := bf.dir, tasks := tasks, aliases := buildAliasMap (o.aliases loc tasks) }

/-- parser.go 26-47 `Parse`, started in the directory `cwd`. `v1` to `v4` are the orders in which validation
visits the tasks. -/
def parse (files : Files) (o : Orders) (grow : Nat → Nat) (v1 v2 v3 v4 : TaskMap → TaskMap) (cwd path : Str) :
    Except PErr ParseResult :=
  if trimSpace path = [] then .error .pathEmpty
  else
    let p := cleanPath path
    let absPath := if isAbs p then p else joinPath cwd p
    match parseFile files o (files.length + 2) [] [] absPath with
    | .error e => .error e
    | .ok r =>
      match validateAt absPath grow (v1 r.tasks) (v2 r.tasks) (v3 r.tasks) (v4 r.tasks) r.tasks with
      | [] => .ok r
      | errs => .error (.validation errs)

end Bab
