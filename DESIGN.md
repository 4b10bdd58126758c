# Formal model of bab (task runner): design

Source under study: `/repo` (Go, read as text only). Model and proofs: `/verif/lean`, Lean 4.33.0.

* `properties.jsonl`: the properties C01, C02, ... as users of bab would state them.
* `MANIFEST.json`: for each property the theorems that prove it, or what is missing.
* `seeded/LOG.jsonl`: wrong programs (edits of the model) and the theorems that reject them.

## Layout of the Lean project

* `Verif/Base.lean`: strings, maps and errors shared by all modules.
* `Verif/Model/*`: the code, function by function. Every definition cites the Go file and lines it follows.
* `Verif/Spec/*`: what the properties mean, independent of the model's functions. Small specifications are at the top
  of the `Props` file that uses them.
* `Verif/Proof/*`: invariants and helper lemmas.
* `Verif/Props/*`: the property theorems `Cnn_...`, each with an `example` or a sample that meets its hypotheses.

When the code violates a property there is a theorem with a concrete counterexample, and the strongest version that
does hold. Then the status is `partial`, unless the property's own text restricts it to what holds.

## Trusted base

* Lean's kernel. No own axioms, no `sorry`, no `native_decide` or `bv_decide`. The theorems listed in the manifest
  depend on `propext`, `Classical.choice` and `Quot.sound` or on fewer; which ones on fewer is listed under "Axioms of the
  theorems". No theorem depends on anything else.
* The specifications in `Verif/Spec` and at the top of `Verif/Props` files: whether they say what `properties.jsonl`
  says has to be checked by reading.
* The translation from Go to Lean, by hand. Where it simplifies is listed below.

### Conventions of the translation

* A Go `string` holding text is a list of code points (`Str`), so valid UTF-8 is assumed. Process output and the names
  compared in suggestions are lists of bytes.
* A Go `map` is an association list (`GoMap`); `WF` says that keys are different. Iterating visits the list in order;
  since Go's order is random, theorems quantify over every permutation where the order can matter.
* A Go `error` is a value of an inductive type that can wrap others. `Model/Message` gives the texts of the runner's
  errors; texts of other errors are modelled only where the text is what matters (main.go, parse.go).
* Loops and recursion that Lean cannot see to end carry a bound (`fuel`). For each of them it is proved that the bound
  is never reached (C05, C17, C34, C37, C40, C44, C51, C56, and `Chain.build_some` for `buildChain`).
* Regular expressions are written as matchers with leftmost-first semantics (`Model/Interpolate`, `Model/Condition`).
* External behaviour is a parameter: theorems hold for every value of it, or state what they need (`Lawful`).

## What is modelled, and where it is simplified

**`internal/interpolate`, `internal/condition`** (`Model/Interpolate`, `ResolveVars`, `Condition`): all functions.
The line of an error is put around it where the runner calls them (`placed`). `strings.TrimSpace` and `EqualFold` follow their documentation.

**`internal/runner`** (`Model/Runner`, `Prog`): every function of runner.go and parallel.go as a *program*: a tree of
atomic actions (claim a task, read or write global variables, start a process, wait for it, ask a prompt, ...) and
fork-join blocks. `Step` lets any goroutine move and the outside world answer in any way; contexts can be cancelled at
any time. A theorem about `Reach` is a theorem about every interleaving and every outcome. Simplifications:
* checking the context and starting the process is one step; the deferred `workCancel` of a block is left out (nothing
  uses that context afterwards);
* reading the global map gives a snapshot of it (so a data race, which Go leaves undefined, is seen as some order);
* messages to the view of parallel items are left out of the runner (they are modelled in `Model/View` and
  `Model/Protocol`);
* interactive prompts give any text, or one of the errors of prompt.go;
* when several values of an `env` map are invalid, the error is the one that comes first in the list;
* the process environment is a list of pairs in which the last one counts.

**`internal/parser`** (`Model/Unmarshal`, `Parser`, `Validate`): from the YAML tree to the checked task map. Reading
YAML text into nodes and `node.Decode` into Go values are parameters (yaml.v3). The file system is a finite map of
absolute paths to contents. Go slices are modelled with shared arrays where that matters (`validateRunCycles`); how
`append` grows an array is a parameter. `filepath` functions follow their documentation for Unix paths (`Model/Path`).

**`internal/babfile`, the JSON schema** (`Model/JsonSchema`): the schema as data, and what it means that a YAML tree
satisfies it (the keywords of draft 7 that occur). `schema/babfile.schema.json` was compared with the Go functions by
reading. Resolution of YAML types (`!!str`, `!!int`, `!!bool`) is part of the tree.

**`internal/runner/writer.go`** (`Model/Writer`): line buffers, prefix writers with their mutexes, cleaning, keys,
colours. A call takes effect on the buffer when it takes the mutex; the terminal receives single bytes, so that mixing
would be visible. Errors of writing to the terminal are left out. `ansi.DecodeSequence` and `ansi.Strip` are parameters in
C47 and C94, and modelled after the source of the library, as far as it is known from memory, in `Model/Ansi` (C103); there the
length of a grapheme cluster is a parameter. The assumption `Lawful` of C47 and `Agree` of C94 are about lines in which no
command string has the byte `0x9c` in it: for others the library does not cut at characters (finding 51).
For cleaning, a line is a list of characters (C47). `Model/CleanBytes` has the same functions on bytes, with Go's decoding of
UTF-8, so that any output is covered; C94_text proves that for valid UTF-8 the two agree.

**`internal/tui`** (`Model/Picker`, `Fuzzy`, `Entry`, `View`, `Prompt`, `Forms`): state and messages of the picker, of the views of
parallel items, and prompts. `fuzzy.Find` is a parameter in C55 and C69, and modelled after the source of the library in
`Model/Fuzzy` (C101, C102), where scores do not overflow and the tables of `unicode` are parameters. The text field and the
forms of huh are parameters. The
views of parallel items are drawn as a list of rows without styles (`Model/Draw`; cut to the width of the window in `Model/Fit`), the
picker as pieces of text with their styles (`Model/Entry`); what lipgloss makes of a style is left out. The part of a tab that
is visible is in `Model/Viewport`, after the viewport of bubbles as far as it is known from memory. The
messages `executeParallelTUI` sends are modelled apart from the runner (`Model/Protocol`): what an item does in between
is arbitrary, limits are left out (more can happen in the model), and a message is handled when it is sent. In the
program the view may lag behind by the messages in the channel, so it shows what was true a moment ago.

**`internal/update`** (`Model/Update`): saving the cache as steps of any number of processes with crashes; all
decisions of update.go. JSON, HTTP, the clock and go-version are parameters.

**`internal/errs/suggest.go`, `internal/finder`, `cmd/complete.go`, `cmd/list.go`, `main.go`** (`Model/Suggest`,
`Finder`, `Listing`, `Main`). Names and descriptions shown by completion are assumed to contain no tab. `ToLower` is a
parameter. The working directory is a clean absolute path.

**`cmd`** (`Model/Cli`): from the values of the flags to the call of `RunWithTasks`, with loading, picker, list and
completion from the models above. The picker loads the Babfile a second time; the files may have changed meanwhile.

**`internal/errs`** (`Model/Locate`, `ReadMessage`, `LoadMessage`): the path as it is shown, validation again with places,
and the texts of all errors of parsing with the lines of their YAML nodes; errors of the YAML library taken apart
(yaml.go). Columns are left out (parsing gives none). The texts of `node.Decode` and `regexp.Compile` errors are
parameters of `Decoders`.

**`internal/runner/process_*.go`** (`Model/Process`): a model of its own, not connected with that of the runner: the
processes of the machine, the calls of os/exec in `runCommandWithWriters`, and what processes can do to their groups and
pipes. What POSIX and os/exec do is taken from their documentation (listed at the head of the file).

**install.sh, install.ps1** (`Model/Install`): what is downloaded, verified and installed where. The programs they call are
parameters; `grep` is modelled for names in which only the dot is special. `.goreleaser.yaml` is part of the
specification (Spec/Install).

Not modelled: styling (lipgloss), the logging back end (of the debug messages only those in `Model/Debug`), signal delivery (a cancellation can happen at
any time), the HTTP client, the text of the help, generation of shell completion scripts. The reading of arguments
(`Model/CommandLine`) follows the documentation and source of the libraries pflag and cobra, which are not in /repo; cobra's hidden
commands `__complete` and `__completeNoDesc` and arguments that begin with `-test.` are left out.

### Tests of the model against the tests of the program

`Tests/` runs cases from the program's own Go tests on the model, as `example … := by decide +kernel`. These are tests, not
proofs, and no claim rests on them: they check that the model computes what the authors of the program wrote down as
expected. `Tests/Text` has interpolation, conditions, error texts, suggestions and merging of variables;
`Tests/Output` the writers; `Tests/Files` finder, update, completion and list; `Tests/Parser` all cases of parser_test.go
on the trees of `testdata` (`Tests/ParserData`, written down by a script that reads the part of YAML that occurs there);
`Tests/Runner` and `Tests/Cli` the cases of runner_test.go and of the tests of cmd.

## Properties

| id | what is modelled | how it is proved |
|----|------------------|------------------|
| C01 | the three passes of `Interpolate` | equality with a one-pass specification, for texts without NUL; counterexample with NUL |
| C02 | same, error path | iff there is an unescaped undefined reference; the first one is reported |
| C03 | same | corollary of C01 for escaped texts |
| C04 | `ResolveVarsWithLocation` as memoised search | the result is a fixpoint and the only one |
| C05 | same | error iff cycle or undefined name; the bound is never reached |
| C06 | same | corollary of C04 and C05 for permuted definitions |
| C07 | same | counterexample; holds when no escaped reference occurs |
| C08 | `Evaluate`, both patterns as matchers | equality with comparison of the trimmed value; counterexamples for blank values and newlines |
| C09, C10 | `Evaluate` | iff; corollary of C02 |
| C11 – C17, C20 – C27 | the runner, all interleavings | invariants over reachable states; automata over the trace of each task, block and place (`Proof/Life*`, `Block`, `Place`) |
| C18, C19 | the runner and validation | a program logic for the claim table (`Proof/Claim`): a program owns the states of tasks nobody else touches; ranks come from C37 |
| C28 – C31 | environment, directory, flags | equalities with small specifications, then for every process started |
| C32 – C35 | includes over a finite file system | induction over the recursion; termination by the set of files being loaded |
| C36 – C39 | validation | iff theorems; invariants of the search; slices with shared arrays |
| C40 – C42 | YAML nodes to schema | induction over nodes; the errors are exactly those of the specification |
| C43, C60 | prompts without and with terminal | case analysis; runs of the runner |
| C44 – C49 | writers | chunks do not matter; invariants over interleavings of writers; injectivity |
| C61 | JSON schema and reader | a valid document has no error at any key, by induction over the reader's loops; the converse for prompts |
| C62 | the runner, two task maps side by side | a simulation: the programs of the two maps are equal except where the model's recursion bound would end them, which is unreachable; the same relation bounds the tasks events are about |
| C63 | the runner, the reader and the loader together | invariant over programs: every error they return or report is explained by an earlier event or by a definition; the form of accepted files (C32, C36, C40) gives the hypotheses |
| C64 | `cmd` with finder, loader, validation, picker | the tasks of a loaded file are those the files provide (C32), so acceptance can be stated about the files alone; then case analysis |
| C65 | the same, with two orders | loading gives permutations of the same maps; what follows looks up keys or sorts; C62 carries it to executions |
| C66 | the places of validation errors, and how they are shown | the lines of the task map are those in the files (C32, C33); paths by the elements of `filepath.Rel`; counterexample for the file |
| C67 | a task run through an include and directly | weak simulation in both directions between the two executions, which differ in names, in where variables come from and in when they are resolved; variables by the uniqueness of solutions of the definitions |
| C68 | the runner's messages together with the view | invariant of the joint system: the map of the view is the tree of items; drawing by induction on the bound of the recursion |
| C69 | the drawing of the picker | character by character against a small specification; the rows by the invariant of C55; counterexample for an alias inside an earlier one |
| C70 | the errors of the runner and their texts | invariant over programs: each error that can be returned is one that the relation `TaskFails` derives from the definitions and the events so far; the text by injectivity of quoting |
| C71 | the writers that a task and its items get, through calls, dependencies and blocks | invariant over programs: each announcement, message and process of a trace has writers that a relation (`Writes`, `InBlock`, `At`) over the definitions gives it; what the writers do with the bytes is C44 to C49, the labels are the ones of C48 |
| C72 | the texts of the errors of loading and validation (`Model/LoadMessage`), the chain of a circular include | the error of `parseFile` is a fault wrapped by the files on the way (induction over the depth of includes); its text and what `handleError` prints follow by computation; the chain that is shown for a circle is not a circle: finding 28, so partial |
| C73 | the lines that the runner gives to the errors about variables, and the text of these errors | induction over the derivation of the failure that C70 gives; the file is right for Babfiles without includes only (finding 29), so partial |
| C74 | all of unmarshal.go with lines and message texts (`Model/Unmarshal`, `Model/ReadMessage`), `parseFile` | the problems are an inductive specification on the tree (`Spec/Faults`); for each function the list of reports has exactly its members (`Proof/Faults`, induction over the tree for items); then `handleError` and C72 |
| C75 | `ExtractYAMLLocation`, `CleanYAMLError` and the part of `parseFile` that uses them | the regular expression is a function on lists; induction over the text, decimal numbers are read back |
| C76 | `runTask`, `executeTask`, `executeRunItem`, `executeCommand` in sequence (`Model/Runner`) | the plan is a big-step relation (`Spec/Plan`); each function follows it, by induction over the plan, as a program that makes the entries in order or is disturbed (`Proof/Plan`); existence by induction over the tasks that have not begun; uniqueness from an execution that carries it out |
| C77 | the same with `DryRun` | without calls the plans of both modes are the same relation; C76 for both, C20. False in general (witnesses) |
| C78 | the programs of Model/Runner; the relation `Due` (Spec/Due) says what is due without mentioning order or goroutines | structural predicate `Only` (global variables stay the same, all events are due) by induction over the fuel; for the converse induction over `Due` with the facts about `done` events (C16), which now also say that a block has begun and that its dependencies were done before; C11 for "each once" |
| C79 | the programs of Model/Runner; `Works` (Spec/Work) says of each thing that is due what it needs | predicate `Ends` on programs (as long as nothing goes wrong outside, all events satisfy `E` and what is returned satisfies `Q`), used twice by induction over the fuel: if all works, only circular-dependency errors can be returned, which C19 excludes; and what is marked done works. C78 gives that all that is due is done |
| C80 | reading (Model/Unmarshal), including (Model/Parser), the command line (Model/Cli) and the runner; `Stands` (Spec/Document) says where something stands in the documents | composition: the facts about each event (C28 – C31), the exact form of included tasks (C33, C64), and what a read file says (C40); directories by an induction over the includes |
| C81 | as C80, with completion and picker | C64 for unknown names, C63 for known ones |
| C82 | as C80; `AllDone` (Spec/Complete) says on the documents that a task has been done | what the documents provide, the files provide (induction over the includes); then C16, C33 and C40 entry by entry |
| C83 | as C80, with main.go | composition: C64 gives the run, C63 excludes cancellation, C37 the rank of references, C79 success, C54 the exit status |
| C84 | the runner; `begins`, `endsIt` (Spec/Ends) pair the events | a program owes the end of what it has begun: predicate on programs kept by every step (Proof/Ends); for a task in an intermediate state also C24, C25 and termination (C17) |
| C85 | processes of the machine with their groups (`Model/Process`): what bab does by way of os/exec, what other processes may do at any time | invariant over all steps (Proof/Process): a process of a command that has not left it is in the group named after the shell of the command, and nobody else is as long as the shell has not been waited for; the two exceptions by example |
| C86 | same, reading from a terminal as in POSIX | same invariant: no process of a command is in the group of bab |
| C87 | same; `cmd.Run` in phases | from any state a run to the end, one command after the other; a reachable state without a step for bab as counterexample |
| C88 | `Model/Install`: install.sh (with `set -e`) and install.ps1 from the download to the copy | what `grep`, `cut` and `$( )` give for a checksum file is one hash only if all matching lines agree (Proof/Install) |
| C89 | same, with the search for an installed version | case analysis; counterexample scheme for a bab elsewhere in PATH |
| C90 | same, names of archives; .goreleaser.yaml in Spec/Install | equality of the two names for all versions and all machines a build is for |
| C91 | same, install.ps1 | counterexample schemes for any archive; the case with a checksum file |
| C92 | the runner model as before; which actions two goroutines can perform next (Spec/Race) | program logic of actions a goroutine never performs, relative to the tasks known to be done (dependencies of block items are); induction over steps and over the recursion depth; counterexample execution |
| C93 | same, for prompts | same logic |
| C94 | decoding and encoding of UTF-8 as in Go, cleaning on bytes, prefixes (Model/CleanBytes) | no control byte below 0x80 hides in another character; refinement of the character model for valid UTF-8; C44; counterexamples for labels of several lines and the single byte 0x9b |
| C95 | arguments to settings as pflag and cobra read them (Model/CommandLine), followed by Model/Cli | sound and complete for a grammar of command lines (Spec/CommandLine); C64 gives the dry run |
| C96 | levels and the threshold of the logger (Model/Report) | C71 gives the writers of a message, C95 the flag; counterexample for messages in blocks |
| C97 | `itemErrs` as a function of the events, the line built from it (Model/Report) | each item ends at most once (life cycles), C24; styles are left out |
| C98 | a series of invocations that share the cache file (Model/UpdateRuns), on top of the model of C53 | invariant: the file has an entry since the last saved answer; counterexample for invocations that end before the answer |
| C99 | `returned` and `status` (Model/Exit): the error of each way an invocation can end, and main.go on it | composition of C95, C64, C54, C15, C16; errors before a run never wrap cancellation, except from the picker |
| C100 | two file systems; `core` (Spec/Edit) removes lines, descriptions and other names from a task | a simulation between the programs for tasks and for their cores (Proof/Lines), composed with C62; the tasks that loading makes depend on the file they are in and the settings of the files above it (`Makes`) |
| C101, C102 | the matcher sahilm/fuzzy as a loop over the characters of a text (Model/Fuzzy), in place of the parameter `find` of Model/Picker | an invariant of the loop: what is left of the query is contained in what is left of the text (Proof/Fuzzy); a bound for scores of up to six characters; C102 is false in general, with three counterexamples |
| C103 | `ansi.DecodeSequence` and `ansi.Strip` as state machines over bytes (Model/Ansi), in place of the parameters of C47 and C94 | a grammar of ECMA-48 sequences (Spec/Ansi); each form is read whole whatever follows (Proof/Ansi, Proof/Strip); for arbitrary bytes an invariant of the loop about what follows an escape character; false in five cases, each with a witness |
| C104 | `updateViewport` of the tabs and the vertical scrolling of the viewport of bubbles (Model/Viewport, after the library as far as it is known from memory) | invariant over histories of messages, sizes and keys: the window lies within the rows; showing the end is kept by all messages except scrolling and a lower window; false for the latter, with a witness |
| C105 | the whole runner; how a POSIX shell reads a command is a specification (Spec/Shell; here-documents, reserved words and the rules inside backquotes are left out) | induction over the command, on top of C01: values that are harmless where they stand leave the role of every other character as it is; false for other values, with runs as witnesses |
| C106 | `truncateLine`, the grouped view as text, the columns of the titles of tabs (Model/Fit); width and cutting of a text are parameters with laws | the rows of text are the rows of Model/Draw, each cut for itself (induction over the recursion), then case analysis; three parts are false, with witnesses |
| C107 | the runner; the debug messages that belong to events (Model/Debug) | noninterference: a relation between two programs that differ in the values of some variables, kept by every step (simulation in lock step), and established function by function; false for debug messages, with a witness |
| C108 | expansion, variables, the runner, the command line | the programs of the two invocations are equal, shown function by function from the fact that expansion uses only the names in the text; false for `env` of tasks, whose values are expanded again (witness); positive theorem for values without `$` |
| C109 | the whole runner | an inductive predicate on programs (processes running now, bound), kept by every step and established function by function from numbers assigned to tasks; the bound is reached (example) |
| C110 | `interpolate`, `resolveVars` | induction on the reading of a text; for a block, induction on the order in which its definitions are resolved, counting the definitions below; a family of blocks that reaches exponential size, for every n |
| C111 | loading, validation, `Cli.runTask`, the whole runner | the acceptance of C71 is transported along the renaming; then a lockstep simulation between the two programs, invariant over every schedule, with the chain of calls and the states of tasks renamed; `C111_one` for one task that gets a new name |
| C112 | validation, the whole runner | what is due (C78) before and after the move correspond; success through `Works` (C79); the order through the plan (C76), by induction over it; acceptance through the characterisation of validation; `C112_platform`: a witness that the condition on the platform is needed (finding 64) |
| C113 | validation, the whole runner | as C112: what is due (C78) with and without the block correspond, success through `Works` (C79), acceptance through the characterisation of validation; `C113_ahead`: a witness that skipped tasks with dependencies must be excluded (finding 7) |
| C114 | `parseFile`, `resolveInclude`, `Parse` | counting what C35 says is loaded: `Provides` pairs and the keys of the result are permutations of each other; `C114_exponential`: for every `n` a set of files that gives `2 ^ n` tasks |
| C115 | validation, the whole runner | what is due (C78) is the same for both lists, by induction; success through `Works` (C79), acceptance through the characterisation of validation; `C115_skipped`: a witness that dependencies of skipped tasks must be excluded |
| C116 | resolution of variables, the whole runner | what is due (C78) corresponds, with values that agree on what is mentioned; success through `Works` (C79); `C116_moved` by induction over a topological order of the definitions; `C116_condition`: a witness that the condition of the task must be excluded |
| C117 | the choice of items by platform, the whole runner, validation | what is due (C78) corresponds, with the numbers of the items changed; success through `Works` (C79); witnesses for a task of which nothing is left and for references that are still validated |
| C118 | the streams behind the writers of tasks, items, blocks and views (Model/Streams.lean) | by the writers of each place (C71); messages as in C96; witnesses for a message in a block and for a command in a view |
| C119 | the whole runner | the programs of both Babfiles are equal, function by function and by induction over the items and the depth of calls; `C119_silent_stays`, `C119_env_stays`: witnesses that silent and env of a task cannot be moved on to its commands |
| C120 | the whole runner | a weak bisimulation between the programs of a Babfile and of the same one with everything silent (announcements are the steps that one side makes alone); both directions, so that any two such Babfiles are related |
| C121 | the whole runner | a bisimulation (one step against one step) between the programs of a Babfile and of the same one without settings `output` and `color` and without descriptions; the relation is symmetric, so that any two such Babfiles are related |
| C122 | validation, the whole runner | as C112 and C117: what is due (C78) with dependencies and with calls correspond, success through `Works` (C79), acceptance through the characterisation of validation; `C122_shared` and `C122_skipped`: witnesses that the two exceptions are needed |
| C123 | validation, conditions, the whole runner | generalises C117 from platforms to any set of items that are never executed; `C123_nothing_left`: a witness that something must be left of each task |
| C124 | `Interpolate`, `Evaluate`, preparation of a command | relation `Inlined` on texts in `Spec/Inline.lean` (variables of the shell may stand beside the references); through the readings of C01 and C02; `C124_around`, `C124_value`, `C124_empty` are witnesses that each condition is needed |
| C125 | the whole runner | relation `Same` on tasks in `Spec/Texts.lean`, carried over what is due (C78, C79); `C125_inline` connects it with C124; `C125_blank`: a witness that commands must not become blank |
| C126 | `ResolveVars`, the whole runner | the relation `Same` of C116 holds (`C126_task`, `C126_global`), hence its conclusions; `C126_nonsense`: a witness that the definition must make sense |
| C127 | `ResolveVars`, `Interpolate`, the whole runner | `Spec/RenameVar` says what a renaming is; the new variable is added (C126), the texts are replaced (C125), the old variable is removed (C126). The same for a variable defined for all tasks (`C127_global`), renamed in all tasks and their conditions. Texts and values without NUL; `C127_limits`: witnesses that the name must be free and that the condition of the task is not meant |
| C50 – C59 | suggestion, finder, cache, notices, exit status, picker, views, completion, list | inductions and invariants over histories |

## Axioms of the theorems

Printed by `#print axioms` for the 585 theorems of the manifest.

No axiom:

`Update.C52_reused_name`, `C62_same_symm`

`propext` only:

`C47_colour_off`, `Sample.C50_short_candidate`, `Update.C52_present`, `Update.C53_refresh`, `C67_effects`,
`C67_result`, `C71_different`, `C85_can_cancel`, `C85_number_reused`, `C85_windows_leaves`, `C87_background_blocks`,
`C91_ps_unlisted`, `C91_ps_unverified`, `C94_raw_csi`, `C103_cross`, `C103_lines`, `C103_off_string`,
`View.C106_begins`, `View.C106_nested_status`, `View.C106_title_status_partial`, `View.C106_unchanged`

`propext` and `Quot.sound`:

`C36_missing_task`, `C36_no_dangling`, `C39_resolve`, `C39_unambiguous`, `C44_chunking`, `C44_lines`,
`C44_lines_unique`, `C44_nothing_lost`, `C46_crlf_lost`, `C46_last_segment`, `C46_plain_partial`, `C47_c1_survives`,
`C47_clean_text`, `C47_colour_off_unsafe`, `C47_colour_on`, `C47_csi_survives`, `C47_idempotent`,
`C47_no_control_partial`, `C47_no_escape`, `C47_only_colours`, `C47_text`, `C50_best`, `C50_order_independent`,
`Update.C52_never_partial`, `Update.C52_publishes_own`, `Update.C52_reader`, `Picker.C55_cursor`, `Picker.C55_enter`,
`Picker.C55_order_independent`, `Picker.C55_selected_exists`, `C59_once`, `C59_rows`, `C59_sorted`,
`Json.C61_name_pattern`, `C66_errors`, `Picker.C69_name`, `C85_all_killed`, `C85_others_spared`, `C86_input_partial`,
`C86_reading_stops`, `C87_ends_partial`, `C87_ends_unpiped`, `C94_aligned`, `C94_label_newline`, `C95_dashes`,
`C95_one_reading`, `C95_reads`, `View.C106_rows`, `View.C106_steady`, `View.C106_titles_partial`, `View.C106_width`

All others (511): `propext`, `Classical.choice` and `Quot.sound`.

## Findings

Where code and expectation (documentation, or the plain reading of a feature) disagree. Each has a theorem with a
concrete case, named in brackets, unless it says *read only*.

Variables and conditions
1. An escaped `$${{ a }}` in the definition of `a` is taken for a reference: "circular" error [C07_escaped_reference_fails].
2. A text with NUL characters around a number can collide with the placeholder of escapes [C01_nul_witness].
3. A comparison whose value expands to blanks is true whatever the operator; values with newlines and quotes are not
   compared as they are [theorems C08_...]. An undefined variable in `when` is an error; the documentation says falsy.
4. Values of `env` at global and task level are expanded twice, so `$${{ x }}` does not stay literal [C29_expanded_twice].
5. A task without `vars` uses the global map itself, so answers of its prompts are seen by other tasks, and parallel
   items race on the map [C27_answer_leaks, C92_data_race]. Without locks this is a fatal error of the Go runtime.

Runner
6. Two items of a parallel block that call the same task can end in a circular-dependency error, depending on the
   schedule [C19_spurious_cycle]. Sharing is safe for direct dependencies of the items only [C19_separate_partial].
7. Items inside a parallel block ignore their `platforms` and `when` [C21_blocks_ignore_item_platforms,
   C22_blocks_ignore_item_conditions]. Dependencies of a task in a block run even if the `when` of the task is false
   [C22_blocks_run_dependencies_of_skipped_tasks].
8. Items of a limited block that are waiting when the context is cancelled are dropped without an error, so the block
   can report success [C16_cancelled_block_reports_success].
9. In a dry run prompts set no variable, so that later references to it fail [C20_prompt_sets_nothing].
10. `parallel pre-dependency` runs get the `silent`/`output` overrides of the block; normal dependencies get none
    [C31_dependencies_in_blocks].

    A command that consists of blanks passes validation and fails when it runs [C63_blank_command].

Includes and validation
11. `silent` and `output` of parallel blocks are lost when a file is included [C33_block_settings_lost].
12. After one cycle has been found the search may report cycles that do not exist [C38_false_report], and the chain
    shown can be overwritten because slices share an array [C38_overwritten].
13. `when` of an included task sees the global variables of the main file only [C33_condition_when_included]. The
    variables of an included file are expanded together with those of the task, so that the same task can run another
    command than when its file is used directly [C33_variables_when_included]; answers of prompts are no longer shared between the
    tasks of an included file [C33_answers_when_included]. `aliases: [""]` gives the alias `ns:`, so that including a valid file can be an error
    [C64_blank_alias].

    `--validate` does not look at global variables: it accepts a Babfile with which no task can be run
    [C64_validate_misses_variables].

    Errors found in an included file are shown with a line of that file but with the path of the main file
    [C66_wrong_file]; errors of interpolation in the runner do the same (*read only*). A cycle is reported without a line.
    With a colon in the path a place can be misread [C66_colon].

YAML
14. A YAML alias (`*x`) as a text gives the name of the anchor [C40_alias_name]; merge keys are ignored [C40_merge_key].
15. A key given twice: the last one counts, without an error [C40_run_given_twice]; two `tasks:` keys escape the check
    for duplicate tasks [C40_tasks_given_twice].
16. `default` of a number prompt is not checked against `min`/`max` [C42_default_out_of_range,
    C43_default_ignores_bounds]; `min` of a multiselect may exceed the number of options [C42_unanswerable].
17. Keys that do not belong to the kind of an item (`dir` on a task, `options` on a command) are ignored [C40_foreign_keys].

    The published JSON schema and the reader disagree: it allows prompts that are rejected [C61_rejected_though_valid]; it
    rejects numbers as `default` (as in the guide) and in `env`, unknown keys and empty lists, which are accepted
    [C61_read_though_invalid]; it does not allow to include a file called `Babfile` [C61_include_names].

Terminal
18. A line ending in CRLF is shown empty [C46_crlf_lost]. Control characters above 0x7f survive cleaning
    [C47_c1_survives], even U+009B, for which the code looks [C47_csi_survives]: the library knows only the single byte 0x9b,
    which does not occur in UTF-8. Every control sequence ended by `m` is kept, also those that set no colour (`ESC [ > 4 ; 2 m`
    changes what keys send). With `color: false` other control characters survive as well [C47_colour_off_unsafe].
19. A number prompt with a default answers the empty text if the field is emptied [C60_empty_number].
20. An aborted prompt gives exit status 1, other cancellations give 0 (an example in `Props/Main`).
21. What is typed in full in the picker need not be what enter runs: letters after a separator count more than the name itself
    (`db` and `docs-build`) [C102_name_beaten], an alias that contains the letters comes before a task of that very name
    [C102_name_below_alias], and with seven letters or more a name that contains an alias comes before the alias
    (`release` and `release-notes`), because scores of adjacent letters grow exponentially and pass the constant 1000
    [C102_alias_beaten].

Other
22. If a name of a temporary file is used again while an old writer still runs, the cache could be published half
    written [C52_reused_name]; with names that do not repeat it cannot [C52_never_partial].
23. A directory called `Babfile` counts as a Babfile (`os.Stat` only; part of the model).
24. Arguments after the first one are ignored without a message [C95_first_word].
25. A suggestion scores any candidate that is part of the name, also the empty one, with 80
    [C50_short_candidate].
26. In the tab view an item that ended without output still says "Running…" (its symbol is right), because
    `buildContent` does not look at `done` [C68_tab_of_silent_item].
27. In the picker an alias that is part of an earlier one is marked there: with the aliases `build` and `b`, typing `b`
    marks the first letter of `build` [C69_wrong_alias].
28. The chain shown for a circular include is the sorted list of the base names of all files on the way, also those before
    the circle [C72_wrong_chain]; the files in front of the message are right [C72_message]. The namespace of a failed
    include is never shown, because `ParseError.Error` drops its own message if there is a cause; the task that contains
    a wrong reference is not shown either (part of the model). `CleanYAMLError` removes every `line N:`, also inside of
    the reason [C75_mention_is_cut].
29. A message about a variable always names the main file, also if the task is from an included one: the line is right, the
    file is not [C73_included]. For global variables no line is given.
30. The message for an invalid `mode` says that it must be `interleaved` or `grouped`; `tabs` is valid, too (*read only*).
31. A problem of an item in a parallel block is announced as `run[j]` with the place in the block, so it reads like a problem
    of another item of the task [C74_same_name] (the line is right). `run[j]` counts from 0 here and from 1 in the error
    about a `when` condition (runner.go 354; *read only*).
32. Where `node.Decode` fails, the message shows only the text of yaml.v3, which can have several lines, and neither the
    task nor the key [C74_cause_alone]: `ParseError.Error` drops its own message.
33. Some problems show up only after others are repaired: a wrong log level or prompt behind any unreadable entry of the item
    [C74_hidden], the items of a parallel block behind its other entries, the second unknown platform, and everything in a
    task whose name was used before (part of `Spec/Faults`).
34. A dry run does not show what it would do for `task:` items and parallel blocks, it names them [C77_calls_not_shown]; and it
    fails for a task that uses the answer of a prompt, though a run would succeed [C77_prompt_fails]. A directory
    that an earlier command makes is missing in a dry run, which then fails (*read only*; the file system does not change
    in the model).
35. On Unix a command gets a process group of its own, which is not the foreground group of the terminal. So a command that
    reads from the terminal is stopped (SIGTTIN) and bab waits for it until it is interrupted [C86_reading_stops], though
    `cmd.Stdin` is connected for this very purpose.
36. On Windows an interruption kills the shell only; what it has started goes on [C85_windows_leaves].
37. A command in a parallel block, or one whose output is not shown, that leaves a process in the background keeps bab waiting
    until that process ends, because it holds the pipe and `WaitDelay` is not set; an interruption does not help
    [C87_background_blocks] (a second Ctrl-C ends bab, since main.go restores the default).
38. `signalProcessGroup` uses the number of the process without the protection of `os.Process`, so in the short time
    between waiting and asking the watching goroutine it can hit a group that has got the number since
    [C85_number_reused].
39. install.ps1 installs an archive without any check if checksums.txt cannot be downloaded [C91_ps_unverified], does not
    mention the archive, or the hash cannot be computed [C91_ps_unlisted]; install.sh fails in these cases, as it should
    [C88_sh_verified].
40. In install.sh the branch for openssl ends with `cut -f a`, so with openssl alone nothing can be installed
    [C88_openssl_useless].
41. Both installers do nothing if a bab of the same version is anywhere in PATH, even if another directory was asked for
    [C89_elsewhere], and take a pre-release for the release [C89_prerelease].
42. install.ps1 names ARM64 and x86 as supported; there is no such archive in a release [C90_ps_missing]. The same for
    several architectures of install.sh.
43. Prompts are rejected inside parallel blocks, but not in tasks that the items call. So two questions can be asked at the
    same time [C93_two_questions], and also while the view of the block is shown: several programs read the terminal then.
44. The label of a parallel command without a label of its own is the first 20 characters of the command, newlines
    included. The prefix of a command of several lines (`cmd: |`) is therefore itself two or more lines, and no line of the
    output begins with it [C94_label_newline].
45. A line is searched for escape sequences only if it has an escape character or the character U+009B. The single byte 0x9b,
    for which the library does look, passes if the line has neither [C94_raw_csi].
46. An empty value of `--completion` counts as not given: `bab -c "$UNSET" build` runs `build` instead of reporting an unknown
    shell [C95_empty_value].
47. Messages of level `debug` are printed without `--verbose` if they stand in a parallel block or in a task that runs in
    one: there they do not go through the logger [C96_debug_in_block].
48. `bab` does not wait for the request that it sends to the release server in the background. If the commands take less time
    than the answer, nothing is saved: each invocation sends a request, and no notice is ever shown [C98_short_runs]. The same
    holds for requests that fail, which are not remembered.
49. An alias with the character 0 (`"a\0b"` in YAML) makes the matcher of the picker index behind the end of what is typed: a
    panic while typing [C101_zero_panics].
50. Cleaning takes every control sequence that ends in `m` for a colour. `ESC [ > 4 ; 2 m`, which changes what the keys send, and
    `ESC [ ? 4 m`, which makes the terminal type an answer, pass [C103_private].
51. The byte `0x9c` ends a title, link or other command string, also if it is a part of a character (`✓` is `e2 9c 93`, `✘` is
    `e2 9c 98`): the rest of the title is shown as text after U+FFFD [C103_title], or an escape character that belongs to no colour
    is left [C103_cross]. It depends on the library, which is known from memory.
52. Every line is cleaned on its own, so that from its second line on a command string (an image, for instance) is shown as text
    [C103_lines].
53. With `color: false`, colours pass after the first byte of a character that is cut off [C103_off_cut], and the rest of a command
    string begun by `ESC _`, `ESC ^` or `ESC X` is shown from the first character outside of ASCII on [C103_off_string]. Both
    depend on the library.
54. When the window becomes lower, the active tab keeps its first row and no longer follows the output: whether the end is shown is
    asked after the new height is set (parallel_tabs.go 97-103) [C104_lower_window]. It depends on the library.
55. After ctrl+c the nested items of a tab keep the symbol for running until the next message, since that key does not redraw the
    content (parallel_tabs.go 31-38) [C104_stale_symbols].
56. Values are put into the text of a command without quoting (runner.go 301), so that an answer such as `v1; rm -rf .` is run by the
    shell [C105_injected]; quotation marks in the Babfile do not prevent this [C105_quoted]. Handing the value over in `env` does.
57. In the grouped view the symbol of an item stands behind its label and is cut off with it, so that with a label as wide as the
    window success and failure look alike (parallel_grouped.go 66-69) [C106_status_lost].
58. The grouped view may be higher than the window, with seven rows for each running item; nothing in the code looks at the height
    [C106_too_high].
59. Of the titles of the tabs only the last row is cut (parallel_tabs.go 167-180); with many tabs the title of the active one begins
    outside of the window [C106_tab_hidden].
60. With `--verbose` the answer to every prompt is written to the terminal, passwords included: `log.Debug("Prompt result stored", ...,
    "value", result)` (runner.go 259) [C107_verbose]. A password that the Babfile puts into `cmd` is shown with the command, and with
    `silent: true` in the message when the command fails (runner.go 336, 340) [C107_echoed, C107_in_error].
61. Because the `env` of a task or of the Babfile is expanded twice (finding 4), the value of an environment variable can name further
    variables: with `env: {B: "${{ env.BRANCH }}"}` and a branch called `${{ env.TOKEN }}`, the command gets the value of `TOKEN` as `B`,
    although nothing in the Babfile names it [C108_injected].
62. `limit` counts the items of its own block, not the commands that run: blocks in called tasks have their own slots, so limits multiply
    (2 inside 2 gives four commands at the same time) [C109_limits_multiply]. There is no limit for the whole invocation.
63. There is no limit for the length of values: `n + 1` short definitions, each referring twice to the one before, are accepted and give a
    value of `2 ^ n` characters [C110_exponential]. Forty lines of YAML exhaust the memory before the first command is run.
64. A task all of whose items are for other platforms fails (runner.go 287-289), but items for other platforms are skipped inside a task that
    has others. So moving the Windows items of a task to a task of their own makes every run on Linux fail [C112_platform].
65. A file is parsed anew for every way in which includes lead to it (`visited` holds only the files on the current way, parser.go 52-57).
    `n + 1` files, each including the next twice, are accepted and give `2 ^ n` tasks [C114_exponential]. There is no limit for the depth.
66. The message of a `log` item goes to standard error, but inside a parallel block of mode `interleaved` to standard output (parallel.go
    320-322 writes to `stdout`; the announcements use `stderr`). So it ends in the file in `bab gen > file` [C118_message_on_stdout].
67. With mode `grouped` or `tabs` and a terminal as standard error, everything that commands print goes to the view, which is drawn on standard
    error (tui/parallel.go 49). `bab gen > file` leaves the file empty, while `bab gen > file 2> log` does not [C118_view_keeps_output].
68. `output: false` also takes the input away: `runCommand` passes `showOutput` as `connectStdin` (runner.go 480), so a command that asks a
    question or reads a pipe finds the end of its input at once [C121_input_lost].
