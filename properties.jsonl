{"id": "C01", "title": "Interpolation is a single left-to-right substitution", "statement": "Expanding a text replaces every `${{ name }}` reference by the value of that name exactly once, replaces every `$${{` by a literal `${{`, and leaves every other character unchanged; the text of a value is never itself scanned for references or escapes.", "quantifier": "for every text and every assignment of variables and environment values that contain no NUL character (and a concrete counterexample with NUL)", "why_tests_cant": "the implementation makes three regex/replace passes over an infinite set of texts; only an equivalence proof with a one-pass reading shows that the passes never interfere", "anchors": ["internal/interpolate/interpolate.go: Interpolate, Pattern, EscapePattern, placeholder"]}
{"id": "C02", "title": "Interpolation fails exactly on an undefined variable", "statement": "Expansion returns an error if and only if the text has an unescaped reference to a variable that is neither defined nor an `env.` name; the error names the first such reference, `env.` references never fail, and an unset environment variable expands to the empty string.", "quantifier": "for every text, variable map and environment", "why_tests_cant": "needs both directions over all texts, including escapes next to references", "anchors": ["internal/interpolate/interpolate.go: Interpolate, resolveVar"]}
{"id": "C03", "title": "Escaping round-trips", "statement": "If every `${{` of a text is written `$${{`, expanding the result gives back exactly the original text, whatever variables are defined.", "quantifier": "for every text without NUL and every variable map", "why_tests_cant": "a round-trip law over all strings, including runs of `$` and braces", "anchors": ["internal/interpolate/interpolate.go: EscapePattern, Interpolate"]}
{"id": "C04", "title": "Variable resolution returns the unique solution of its definitions", "statement": "When a `vars` block resolves, every variable equals the expansion of its definition under the resolved values themselves, names not redefined keep the parent value, nothing else is defined, and there is no other assignment with these properties.", "quantifier": "for every vars map, parent map, environment and map iteration order", "why_tests_cant": "memoised recursion over an arbitrary reference graph with random Go map order; a fixpoint and uniqueness claim", "anchors": ["internal/interpolate/interpolate.go: ResolveVarsWithLocation"]}
{"id": "C05", "title": "Variable resolution fails exactly on a cycle or an undefined name", "statement": "Resolution returns an error if and only if the references among the definitions contain a cycle or some definition refers to an undefined name; it always terminates, and a reported cycle chain is a real reference cycle.", "quantifier": "for every vars map, parent map and environment, cyclic ones included", "why_tests_cant": "termination and an if-and-only-if over all graphs", "anchors": ["internal/interpolate/interpolate.go: ResolveVarsWithLocation", "internal/errs/interpolate.go: VarCycleError"]}
{"id": "C06", "title": "Variable resolution does not depend on map order", "statement": "Whether resolution succeeds, and the resolved value of every variable, are the same for every order in which the definitions are visited.", "quantifier": "for every vars map and every two iteration orders of it", "why_tests_cant": "Go randomises map iteration; a test sees a few orders only", "anchors": ["internal/interpolate/interpolate.go: ResolveVarsWithLocation"]}
{"id": "C07", "title": "An escaped reference is not a dependency", "statement": "A variable whose definition mentions another variable only inside an escape `$${{ ... }}` does not depend on it, so it cannot be part of a reference cycle.", "quantifier": "for every vars map", "why_tests_cant": "a negative claim (no spurious cycle) over all definitions; the code violates it, which the model shows with a witness", "anchors": ["internal/interpolate/interpolate.go: ExtractVarRefs, ResolveVarsWithLocation"]}
{"id": "C08", "title": "A `when` comparison compares the value with the literal", "statement": "`when: ${{ v }} == 'x'` is true exactly when the (trimmed) value of v is x, and `!=` is its negation, whatever quotes, operators or spaces the value contains.", "quantifier": "for every value and every literal without the quote character; the restriction to values that are non-blank, have no newline and are not wrapped in quotes is proved necessary", "why_tests_cant": "lazy regex matching over all values; values that imitate comparison syntax are unbounded in number", "anchors": ["internal/condition/condition.go: Evaluate, evaluateComparison, comparisonPattern"]}
{"id": "C09", "title": "A bare `when` value is a truthiness test", "statement": "Without a comparison a condition is false exactly when its expanded, trimmed text is empty or `false` in any letter case, and true otherwise.", "quantifier": "for every expanded text that is not itself a comparison", "why_tests_cant": "all strings, Unicode case folding and trimming", "anchors": ["internal/condition/condition.go: evaluateTruthy, Evaluate"]}
{"id": "C10", "title": "A condition that cannot be expanded never selects anything", "statement": "If a `when` text refers to an undefined variable, evaluation fails; it never yields true or false, and an empty `when` is always true.", "quantifier": "for every condition text and context", "why_tests_cant": "all texts", "anchors": ["internal/condition/condition.go: Evaluate"]}
{"id": "C11", "title": "Every task body runs at most once per invocation", "statement": "In one invocation each run item of each task is started at most once, even when the task is reachable through several dependencies, inline task items and parallel items.", "quantifier": "for every task map (cyclic ones too), every interleaving of the parallel goroutines, every outcome of every command and every cancellation point", "why_tests_cant": "the number of interleavings is unbounded and the race detector only sees the scheduled ones", "anchors": ["internal/runner/runner.go: runTask, executeTask", "internal/runner/parallel.go: syncState.claim, executeParallelInterleaved, executeParallelTUI"]}
{"id": "C12", "title": "Dependencies finish before the task's own commands start", "statement": "When an item of a task starts, every dependency of that task has already completed successfully (or was skipped by its own `when`).", "quantifier": "for every task map and every interleaving, command outcome and cancellation point", "why_tests_cant": "all schedules", "anchors": ["internal/runner/runner.go: runTask", "internal/runner/parallel.go: preResolveDeps, executeRunItem"]}
{"id": "C13", "title": "Run items execute in declared order", "statement": "An item of a task starts only after every earlier item of the same task has finished successfully or was skipped.", "quantifier": "for every task map and every interleaving", "why_tests_cant": "all schedules and all item lists", "anchors": ["internal/runner/runner.go: executeTask"]}
{"id": "C14", "title": "A failure stops the task", "statement": "After an item or dependency of a task has failed, no later item of that task starts and the task does not become done.", "quantifier": "for every task map, interleaving and failure point", "why_tests_cant": "all failure points of all runs", "anchors": ["internal/runner/runner.go: runTask, executeTask"]}
{"id": "C15", "title": "No failure is swallowed", "statement": "If an invocation reports success then every command it started succeeded and every prompt was answered.", "quantifier": "for every task map, interleaving, command outcome and cancellation point", "why_tests_cant": "error propagation through arbitrary nesting of dependencies, inline tasks and parallel blocks", "anchors": ["internal/runner/runner.go: Run, runTask, executeTask, executeCommand", "internal/runner/parallel.go: executeParallel*"]}
{"id": "C16", "title": "Success means everything applicable was executed", "statement": "If a task is done and nothing was cancelled, then its `when` was false, or all its dependencies are done and every item that applies to the platform and whose `when` held was executed to completion.", "quantifier": "for every task map and every interleaving without cancellation; with cancellation a concrete run reports success although parallel items were skipped", "why_tests_cant": "completeness of all runs", "anchors": ["internal/runner/runner.go: executeTask", "internal/runner/parallel.go: executeParallelInterleaved"]}
{"id": "C17", "title": "The runner always terminates", "statement": "Running a task never recurses forever: whatever the task graph, including cycles of dependencies and inline tasks, each invocation takes finitely many steps besides the commands it waits for.", "quantifier": "for every task map, start task and interleaving", "why_tests_cant": "non-termination cannot be observed by a test", "anchors": ["internal/runner/runner.go: runTask, buildChainSlice"]}
{"id": "C18", "title": "A validated task graph never hits the runtime cycle error", "statement": "If validation accepted the task map, an invocation without parallel blocks never fails with a circular-dependency error.", "quantifier": "for every validated task map without parallel blocks, every command outcome", "why_tests_cant": "all graphs and all executions", "anchors": ["internal/runner/runner.go: runTask", "internal/parser/validate.go: validateRunCycles"]}
{"id": "C19", "title": "Parallel items that share a task do not fail spuriously", "statement": "Two items of a parallel block that reach the same task do not make the invocation fail with a circular-dependency error.", "quantifier": "for every task map and interleaving; the code violates it and the model exhibits a schedule. What holds: blocks whose items reach disjoint tasks never fail that way", "why_tests_cant": "depends on the schedule", "anchors": ["internal/runner/runner.go: runTask", "internal/runner/parallel.go: executeRunItem, preResolveDeps"]}
{"id": "C20", "title": "Dry run has no effects", "statement": "In dry-run mode no command is started and no prompt is shown, whatever the tasks contain and however deeply they are nested.", "quantifier": "for every task map, interleaving and start task", "why_tests_cant": "absence of effects over all programs", "anchors": ["internal/runner/runner.go: executeCommand, executeTask", "internal/runner/parallel.go: executeParallel"]}
{"id": "C21", "title": "Items for other platforms never run", "statement": "An item restricted to other platforms is never started, and a task fails with `no run items for this platform` exactly when it has items but all of them were excluded by platform.", "quantifier": "for every task map and interleaving; inside parallel blocks the code ignores item platforms, shown by a witness", "why_tests_cant": "all programs", "anchors": ["internal/runner/runner.go: shouldSkipRunItem, executeTask", "internal/babfile/run.go: matchesPlatform", "internal/runner/parallel.go: executeRunItem"]}
{"id": "C22", "title": "Items whose `when` is false never run", "statement": "An item whose condition evaluates to false is not started; a task whose own condition is false starts neither its items nor its dependencies.", "quantifier": "for every task map and interleaving; inside parallel blocks the code ignores item conditions and pre-runs dependencies of skipped tasks, shown by witnesses", "why_tests_cant": "all programs", "anchors": ["internal/runner/runner.go: runTask, shouldSkipRunItem", "internal/runner/parallel.go: preResolveDeps, executeRunItem"]}
{"id": "C23", "title": "The parallel limit is never exceeded", "statement": "With `limit: n` (n > 0) at most n items of that block are running at any moment; without a limit no item waits.", "quantifier": "for every block, every interleaving and every moment", "why_tests_cant": "all schedules", "anchors": ["internal/runner/parallel.go: executeParallelInterleaved, executeParallelTUI"]}
{"id": "C24", "title": "A parallel block waits for all its items and reports a failure", "statement": "A parallel block returns only after every item has finished (or was dropped because of a cancellation); it fails exactly if some item failed, with the error of a failed item, and nothing happens at its items afterwards.", "quantifier": "for every block and interleaving", "why_tests_cant": "all schedules", "anchors": ["internal/runner/parallel.go: executeParallelInterleaved"]}
{"id": "C25", "title": "A parallel block cannot deadlock", "statement": "As long as some item of a block is unfinished, some goroutine of the block can take a step.", "quantifier": "for every block, limit and reachable state", "why_tests_cant": "deadlock freedom over all schedules", "anchors": ["internal/runner/parallel.go: executeParallelInterleaved, executeParallelTUI"]}
{"id": "C26", "title": "Nothing starts after cancellation", "statement": "Once the invocation is cancelled no further command process is started.", "quantifier": "for every task map, interleaving and cancellation point", "why_tests_cant": "all cancellation points", "anchors": ["internal/runner/runner.go: executeTask, runCommandWithWriters"]}
{"id": "C27", "title": "Prompt answers stay inside the task that asked", "statement": "The answer of a prompt is visible to the later items of the same task only; the variables another task sees do not depend on it.", "quantifier": "for every task map; the code violates it for tasks without `vars` (the global map itself is written), shown by a witness; proved for tasks with a non-empty `vars` block", "why_tests_cant": "aliasing of Go maps across all task graphs", "anchors": ["internal/runner/runner.go: executeTask", "internal/interpolate/interpolate.go: ResolveVarsWithLocation"]}
{"id": "C28", "title": "Environment precedence", "statement": "A command sees, for every name, the value of the item `env` if it sets the name, else the task's, else the global one, else the inherited (or colour-forcing) one; independent of map order.", "quantifier": "for every inherited environment and every three env maps and every iteration order", "why_tests_cant": "all maps and random iteration order", "anchors": ["internal/babfile/env.go: MergeEnv, MergeEnvMaps", "internal/runner/runner.go: runCommandWithWriters"]}
{"id": "C29", "title": "Environment values are expanded exactly once", "statement": "A value declared in an `env` block is expanded once: an escaped `$${{` reaches the command as `${{`, and expanded values are not expanded again.", "quantifier": "for every env map and variable map; violated for global and task env (expanded twice), shown by a witness; proved for item env and for values without braces", "why_tests_cant": "all values", "anchors": ["internal/runner/runner.go: executeTask, executeCommand, interpolateEnv"]}
{"id": "C30", "title": "Working-directory resolution", "statement": "The directory of a command is the most specific of item, task and global `dir`, joined to the directory of the Babfile that defines the task unless absolute; the default is that directory, and a non-existent directory is an error.", "quantifier": "for every combination of settings and every path", "why_tests_cant": "all paths", "anchors": ["internal/runner/runner.go: resolveDir"]}
{"id": "C31", "title": "silent and output settings: the most specific wins", "statement": "Whether commands are echoed or their output is shown is decided by the item setting if present, else the run-item override of the caller, else the task, else the global setting, else the default.", "quantifier": "for every combination of the settings", "why_tests_cant": "small but complete decision table stated against an independent spec", "anchors": ["internal/runner/runner.go: isSilent, isOutput, firstNonNil, executeTask"]}
{"id": "C32", "title": "Includes are namespaced and closed", "statement": "Tasks of a file included under `ns` appear exactly as `ns:<name>`, and every dependency, alias and task reference inside them that was valid in the included file is valid after inclusion and points to the same task.", "quantifier": "for every file tree and nesting of includes", "why_tests_cant": "all include trees", "anchors": ["internal/parser/include.go: resolveInclude, prefixDeps, prefixTaskRuns", "internal/parser/parser.go: parseFile"]}
{"id": "C33", "title": "Including a file preserves its tasks' settings", "statement": "Apart from the namespace prefix, an included task has the same items and the same settings as in its own file.", "quantifier": "for every task; violated for `silent`/`output` of parallel blocks (dropped), shown by a witness; proved for all other item kinds and fields", "why_tests_cant": "all items", "anchors": ["internal/parser/include.go: prefixTaskRuns"]}
{"id": "C34", "title": "Include cycles are always rejected", "statement": "Loading terminates on every set of files; it fails with a circular-include error when following includes from the root revisits a file that is still being loaded, and a file included from two places (a diamond) is accepted.", "quantifier": "for every finite set of files and includes", "why_tests_cant": "termination over all include graphs", "anchors": ["internal/parser/parser.go: parseFile, chainFromVisited", "internal/parser/include.go: resolveInclude"]}
{"id": "C35", "title": "No task is silently overwritten", "statement": "Loading succeeds only if no two tasks (own or included) have the same full name; the resulting map has exactly the union of all tasks, independent of the order in which includes are processed.", "quantifier": "for every file tree and every iteration order of the includes", "why_tests_cant": "random map order, all trees", "anchors": ["internal/parser/parser.go: parseFile", "internal/parser/include.go: resolveInclude"]}
{"id": "C36", "title": "Accepted Babfiles have no dangling references", "statement": "If loading succeeds, every dependency and every task reference (also inside parallel blocks) names an existing task; if one does not, loading fails and names it.", "quantifier": "for every task map", "why_tests_cant": "if-and-only-if over all maps", "anchors": ["internal/parser/validate.go: validateDependencies, validateRunTaskRefs"]}
{"id": "C37", "title": "Cycle validation is exact", "statement": "Validation reports a cycle if and only if the graph of dependencies and task references of existing tasks has a cycle, for every order in which tasks are visited.", "quantifier": "for every task map and every iteration order", "why_tests_cant": "soundness and completeness of a graph algorithm with early returns, over all graphs", "anchors": ["internal/parser/validate.go: validateRunCycles"]}
{"id": "C38", "title": "Reported dependency cycles are real", "statement": "The chain shown in a circular-dependency error is a path of actual references whose last task already occurs earlier in it.", "quantifier": "for every task map and every iteration order; violated in two ways, shown by witnesses (a false cycle after an early return; a chain overwritten through a shared array); proved for the first report as it is when reported, and every chain is proved to be a path of references when reported", "why_tests_cant": "Go slice aliasing depends on capacities reached only by particular graphs; the stale recursion stack only matters after a first cycle", "anchors": ["internal/parser/validate.go: validateRunCycles"]}
{"id": "C39", "title": "Aliases are unambiguous", "statement": "If loading succeeds, no alias equals a task name, no two tasks share an alias, a task name always resolves to itself, and each alias resolves to the task that declares it.", "quantifier": "for every task map and every iteration order", "why_tests_cant": "random map order, all maps", "anchors": ["internal/parser/validate.go: validateAliases", "internal/parser/parser.go: buildAliasMap", "internal/runner/runner.go: resolveTaskName"]}
{"id": "C40", "title": "Run items are never dropped silently", "statement": "If loading a task succeeds, the list of run items has exactly one item per YAML entry, in the same order, and each entry has exactly one of cmd, task, log, prompt, parallel.", "quantifier": "for every YAML document", "why_tests_cant": "all documents", "anchors": ["internal/parser/unmarshal.go: parseRunItems, parseRunItem, countRunTypes"]}
{"id": "C41", "title": "Accepted parallel blocks are well-formed", "statement": "An accepted parallel block has at least one item, no prompt and no nested parallel block, a non-negative limit and a known mode.", "quantifier": "for every YAML document", "why_tests_cant": "all documents", "anchors": ["internal/parser/unmarshal.go: parseParallelRun, validateParallelItems"]}
{"id": "C42", "title": "Accepted prompts are answerable", "statement": "An accepted prompt has a variable name, a message and a known type; select and multiselect have options, their defaults are among the options, min <= max, number defaults are in range and a validation pattern compiles.", "quantifier": "for every YAML document", "why_tests_cant": "all documents", "anchors": ["internal/parser/unmarshal.go: validatePromptRun, validatePrompt*"]}
{"id": "C43", "title": "Non-interactive prompts use only declared defaults", "statement": "Without a terminal a prompt yields its declared default (or the first option-free value the declaration implies) or an error; the answer is never invented, and a password prompt always fails.", "quantifier": "for every prompt declaration", "why_tests_cant": "all declarations; also shows that min/max/validate are not enforced on defaults", "anchors": ["internal/tui/prompt.go"]}
{"id": "C44", "title": "Output lines do not depend on write chunking", "statement": "The lines a command's output is split into depend only on the concatenation of the bytes written, not on how the process chunks its writes, and after the final flush no byte of a line is lost or duplicated.", "quantifier": "for every byte sequence and every way of cutting it into writes", "why_tests_cant": "all chunkings", "anchors": ["internal/runner/writer.go: lineBuffer.process, lineBuffer.flush"]}
{"id": "C45", "title": "Interleaved output keeps lines whole and in order", "statement": "Commands writing concurrently to the same terminal never mix within a line, and the lines of one command appear in the order it wrote them.", "quantifier": "for every number of writers and every interleaving of their writes", "why_tests_cant": "all schedules", "anchors": ["internal/runner/writer.go: PrefixWriter.Write, PrefixWriter.Flush, lineBuffer", "internal/runner/parallel.go: executeParallelInterleaved"]}
{"id": "C46", "title": "Carriage returns show the last overwrite and never lose a line's text", "statement": "A line redrawn with carriage returns shows its last segment; a line ending in CRLF shows its text.", "quantifier": "for every line; violated for CRLF (the text is dropped), shown by a witness; proved for lines whose last segment is non-empty", "why_tests_cant": "all byte sequences", "anchors": ["internal/runner/writer.go: resolveCR"]}
{"id": "C47", "title": "Prefixed output cannot smuggle control characters", "statement": "After cleaning, a line contains no control character other than tab and the escape introducing a colour sequence, and cleaning twice changes nothing more.", "quantifier": "for every input line; violated for the control characters above 0x7f (shown by a witness); proved for those below 0x20", "why_tests_cant": "all strings", "anchors": ["internal/runner/writer.go: stripControlChars, sanitizeLine, cleanLine"]}
{"id": "C48", "title": "Parallel item identities are distinct", "statement": "Two different positions in the tree of parallel items have different keys, so output and status are never attributed to the wrong item.", "quantifier": "for every pair of paths", "why_tests_cant": "injectivity over all paths", "anchors": ["internal/runner/parallel.go: pathToKey"]}
{"id": "C49", "title": "Prefix colours are always valid palette indices", "statement": "The colour chosen for any item, at any nesting depth, is a valid 256-colour index.", "quantifier": "for every path", "why_tests_cant": "arithmetic over all inputs", "anchors": ["internal/runner/writer.go: colorForPath, dimColor"]}
{"id": "C50", "title": "Suggestions are the best match and deterministic", "statement": "`did you mean` names an existing candidate with the highest similarity, at least the threshold; the answer does not depend on the order of the candidates.", "quantifier": "for every name and every candidate list and permutation of it", "why_tests_cant": "permutation invariance over all lists", "anchors": ["internal/errs/suggest.go: FindSimilar, similarity"]}
{"id": "C51", "title": "The nearest Babfile is found", "statement": "The finder returns a Babfile in the closest ancestor directory that has one, with the documented name priority, and reports not-found exactly when no ancestor has one.", "quantifier": "for every directory and every file system content", "why_tests_cant": "all directory trees", "anchors": ["internal/finder/finder.go: FindBabfile"]}
{"id": "C52", "title": "The update cache survives crashes and concurrent runs", "statement": "At every moment, also after a crash at any step, the cache file is absent, the previous content or a complete new content; never a partial file.", "quantifier": "for every number of concurrent savers, every interleaving and every crash point", "why_tests_cant": "all crash points and interleavings", "anchors": ["internal/update/cache.go: saveCache"]}
{"id": "C53", "title": "Update notices are only shown for newer versions", "statement": "A notice is produced only if the cached latest version is strictly newer than the running one, never for development builds or when disabled, and an unreadable or future-dated cache is ignored.", "quantifier": "for every cache content, version and clock", "why_tests_cant": "all inputs", "anchors": ["internal/update/update.go", "internal/update/cache.go: loadCache"]}
{"id": "C54", "title": "Exit status reflects the outcome", "statement": "The process exits 0 if and only if the invocation succeeded or its error wraps the cancellation of the context, at any depth; every other error exits 1 (an aborted prompt is such an error).", "quantifier": "for every error value", "why_tests_cant": "all wrapping depths", "anchors": ["main.go: main", "cmd/root.go"]}
{"id": "C55", "title": "The picker's cursor is always on a visible entry", "statement": "After any sequence of keys, searches and resizes the cursor points at an existing entry inside the visible window, and choosing returns a task of the list.", "quantifier": "for every key history, list and window size", "why_tests_cant": "unbounded histories", "anchors": ["internal/tui/picker/update.go", "internal/tui/picker/model.go"]}
{"id": "C56", "title": "Parallel view keeps the newest lines", "statement": "Each item of the parallel view holds at most the configured number of lines, and they are exactly the most recent ones in order; clearing an item removes all its descendants and nothing else.", "quantifier": "for every history of messages", "why_tests_cant": "unbounded histories", "anchors": ["internal/tui/parallel.go: baseModel"]}
{"id": "C57", "title": "Tab navigation stays in range and is reversible", "statement": "In the tab view the active tab is always an existing tab and next/previous are inverse.", "quantifier": "for every key history and number of tabs", "why_tests_cant": "unbounded histories", "anchors": ["internal/tui/parallel_tabs.go"]}
{"id": "C58", "title": "Shell completion offers exactly the matching names", "statement": "Completion lists, sorted and without duplicates, exactly the task names and aliases that start with the typed prefix.", "quantifier": "for every task map and prefix, every iteration order", "why_tests_cant": "all maps", "anchors": ["cmd/complete.go"]}
{"id": "C59", "title": "The task list shows every task exactly once", "statement": "`--list` shows each task exactly once at the position given by its `:`-separated name, independent of map order.", "quantifier": "for every task map and iteration order", "why_tests_cant": "all maps", "anchors": ["cmd/list.go"]}
{"id": "C60", "title": "Answers given on a terminal satisfy the declaration", "statement": "On a terminal, the answer of a prompt is true or false for confirm, matches the pattern for input, is an option for select, is a selection of options whose size is between min and max for multiselect, is an integer between min and max for number, and a password with confirm was typed twice; an aborted form gives no answer.", "quantifier": "for every prompt declaration, every behaviour of the form library that respects its checks", "why_tests_cant": "the forms need a terminal, so they are not tested at all; all declarations and inputs", "anchors": ["internal/tui/prompt.go: RunPrompt, runConfirm, runInput, runSelect, runMultiselect, runPassword, runNumber"]}
{"id": "C61", "title": "A Babfile that satisfies the published JSON schema is accepted", "statement": "A document that satisfies schema/babfile.schema.json is read without an error if and only if each of its prompts can be asked (options fit the type, bounds in order, default an option or a number, pattern compiles); without prompts the schema is enough. Tasks, aliases and dependencies of such a file are names of the documented form. Files exist that satisfy the schema and are rejected, and files that are accepted though they violate it.", "quantifier": "for every YAML document, every decoder that reads texts, integers, booleans and includes as YAML does", "why_tests_cant": "the schema and the parser are written separately; tests compare the schema with itself and parse a few files, not all documents with both", "anchors": ["internal/babfile: RunItemSchema, PromptRunSchema, ParallelRunSchema, CommandRunSchema, TaskRunSchema, LogRunSchema, Task.JSONSchema, Schema.JSONSchema, TaskNamePattern", "internal/parser/unmarshal.go: unmarshalBabfile, parseTask, parseRunItem, parseParallelRun, validatePromptRun"]}
{"id": "C62", "title": "A run is confined to what the requested task needs", "statement": "Running a task starts no command, prompt, log or task other than those of the requested task and the tasks it refers to (dependencies, task items, task items of parallel blocks), directly or through others. The definitions of all other tasks do not influence the run: with a Babfile that differs only in them, exactly the same executions are possible.", "quantifier": "for all task maps (cyclic or not), all configurations, all schedules, answers of the outside world and cancellations; for the second part all pairs of task maps that agree on what is needed", "why_tests_cant": "a test shows that particular unrelated tasks did not run on particular schedules; that nothing else can ever run, and that nothing else matters, is a statement about all task graphs and interleavings", "anchors": ["internal/runner/runner.go: runTask, executeTask, buildChainSlice", "internal/runner/parallel.go: executeParallel, preResolveDeps, executeRunItem"]}
{"id": "C63", "title": "Every failure has an explanation", "statement": "If running a task fails, then a command failed or could not be started, something was cancelled, a prompt was not answered, the view could not be started, a directory does not exist, a text uses an undefined variable, variables are defined in terms of each other, no item of a task is for this platform, a command consists of blanks, or tasks wait for each other; and this is visible in what happened before or in the definitions. The same for every failure of a task, item or dependency on the way. Once Babfiles have been read and accepted, a run never fails because a task does not exist or an item cannot be run where it stands.", "quantifier": "for all Babfiles accepted by the reader and the validation, all tasks of them, all configurations, schedules, answers of the outside world and cancellations", "why_tests_cant": "a test provokes one failure at a time; that no other reason exists, and that what is accepted cannot break later in these ways, needs all Babfiles and all executions", "anchors": ["internal/runner/runner.go: RunWithTasks, runTask, executeTask, executeCommand, resolveDir, buildChainSlice", "internal/runner/parallel.go: executeParallel, preResolveDeps, executeRunItem", "internal/parser/parser.go: Parse", "internal/parser/validate.go", "internal/parser/unmarshal.go"]}
{"id": "C64", "title": "An invocation does what was asked, on the right file", "statement": "`bab` reads the file given with --babfile, otherwise the nearest Babfile above the working directory. It loads if and only if that file and what it includes can be read, all references lead to tasks, no task needs itself and other names are unambiguous. --validate succeeds exactly then; --list shows exactly the tasks; completion offers exactly the names that begin with what is typed; none of them runs anything. Otherwise the task that is named, or meant by an alias, or chosen in the picker is run, with the settings of that file; an unknown name starts no process; with --dry-run no process is started.", "quantifier": "for all file systems, working directories, flags, arguments, picker inputs, and orders in which maps are visited", "why_tests_cant": "tests call the commands with a few files; that validate, list, completion, picker and run agree about what a valid file is and which tasks it has is a statement about all files", "anchors": ["cmd/root.go: run, runTask", "cmd/validate.go: runValidate", "cmd/list.go: runList", "cmd/interactive.go: runInteractive", "cmd/completion.go: runCompletion", "cmd/complete.go: completeTaskNames", "internal/runner/runner.go: LoadTasks, Run", "internal/parser/parser.go: Parse"]}
{"id": "C65", "title": "What an invocation does is independent of the order of maps", "statement": "Two invocations with the same files, flags, arguments and input do the same, in whatever order Go visits the maps: both fail in the same way (if loading fails, only the message may differ), print the same list or completions, or run the same task with the same definitions, so that exactly the same executions are possible.", "quantifier": "for all file systems, flags, arguments, picker inputs, and all pairs of orders in which maps are visited", "why_tests_cant": "Go randomises the order of maps; a test sees some orders, and a dependence that shows once in many runs is missed", "anchors": ["cmd/root.go: run, runTask", "internal/parser/include.go: resolveInclude", "internal/parser/validate.go", "internal/runner/runner.go: LoadTasks, Run"]}
{"id": "C66", "title": "Messages name the place of an error", "statement": "Every error found while checking a Babfile is reported with the file and the line on which its cause is written: the line of the dependencies, of the call, or of the task with the alias. The path that is shown names the same file when seen from the working directory, is relative exactly for files below it, and file, line and column can be read back from the text.", "quantifier": "for all file systems with includes, all orders of maps, all absolute paths and working directories", "why_tests_cant": "which file a line belongs to matters only when files are included, at any depth, and paths can be anything; tests check a few messages", "anchors": ["internal/parser/validate.go", "internal/errs/location.go: RelativePath, FormatLocation", "internal/parser/include.go: resolveInclude"]}
{"id": "C67", "title": "An included task does what it does when its file is used directly", "statement": "A Babfile without settings of its own includes another file under a namespace. Running a task of that file under its name with the namespace then does exactly what running the task with that file directly does: the same processes with the same command lines, environments and directories, the same messages and questions, in the same possible orders, and the same result and exit status. Only the names of tasks differ. This holds for tasks whose blocks make no settings for output, whose conditions use no variable of the file, that ask no questions unless they have variables of their own, and whose variables are not used to define variables of the file (the code treats these differently; each has a counterexample in the findings).", "quantifier": "for all file systems, all such files and tasks, all orders of maps, all schedules of parallel items, all answers, exit codes and interruptions", "why_tests_cant": "includes are resolved by rewriting tasks (names, environment, variables, directory, settings); that the rewritten task behaves the same in every execution is a statement about pairs of executions, with every schedule and failure; tests compare the fields of a few tasks after parsing", "anchors": ["internal/parser/include.go: resolveInclude", "internal/runner/runner.go: runTask, executeTask", "internal/interpolate/interpolate.go: ResolveVarsWithLocation", "cmd/root.go: runTask"]}
{"id": "C68", "title": "The views of parallel items show what is going on", "statement": "While a parallel block runs with a live view, the view holds exactly the items that exist at that moment, at every depth, each with its label, the items below it in their order, the last lines of its output, whether it has started, and whether and how it ended. Hence the grouped view, the tabs and the content of a tab show every item once, in order, with the right symbol, and with the latest output or the nested items; the summary printed at the end tells for each item how it ended; drawing always terminates, and after the end nothing is drawn.", "quantifier": "for all labels and numbers of items, all nesting of blocks, all interleavings of the goroutines and of the user's keys, all output and all outcomes", "why_tests_cant": "The state of the view depends on the order in which messages of concurrent goroutines arrive, with blocks being added and removed at any depth; tests try a few sequences of messages, not the ones the runner can produce.", "anchors": ["internal/runner/parallel.go: executeParallelTUI, pathToKey", "internal/tui/parallel.go: baseModel.handleMsg, statusIcon", "internal/tui/parallel_grouped.go: groupedModel.View, renderItem, renderCompactLine", "internal/tui/parallel_tabs.go: tabsModel.View, buildContent", "internal/output/output.go: RenderParallelDone"]}
{"id": "C69", "title": "The picker shows the tasks that were found and what was found in them", "statement": "Below the search field the picker says how many of how many tasks match, and shows, from the current offset on, as many of the results as fit into the window: each with its name, all its aliases and its description, unchanged, and exactly the one under the cursor marked. In a name exactly the characters the search has found are highlighted. If a task was found through an alias, exactly one stretch of its aliases is highlighted, namely that alias where it stands.", "quantifier": "for all task maps, all search results, all histories of keys, typing and window sizes, all names, aliases and descriptions", "why_tests_cant": "Highlighting cuts texts at byte positions and at the first occurrence of an alias; tests try a few ASCII names and aliases that are not part of one another.", "anchors": ["internal/tui/picker/view.go: View, renderSeparator, renderLine", "internal/tui/picker/match.go: highlight, highlightAlias"]}
{"id": "C70", "title": "The message of a failure tells the way to its cause", "statement": "When an invocation fails, its message leads from the task that was called down to the cause: each part names a dependency, an item of a parallel block (by its label, or what stands for it), a command, a prompt, a condition or a directory, this is one that the definitions have at this place, and what the part says has happened there. The last part is the cause: the status with which the process ended, the variable that has no value, the directory that does not exist, a task that is not defined, a circle of tasks. This text is what is printed, and it can be read in one way only, whatever characters names and commands are made of. The same holds for the failures reported for tasks and items on the way.", "quantifier": "for all task maps, configurations, schedules of parallel items, exit codes, answers and interruptions; for all names and commands", "why_tests_cant": "Which of several failures is returned and through which tasks it has passed depends on the schedule and on what ran before; tests look for a word in the message of single failures.", "anchors": ["internal/runner/runner.go: runTask, executeTask, executeCommand, shouldSkipRunItem, resolveDir", "internal/runner/parallel.go: executeParallelInterleaved, executeParallelTUI, executeRunItem, preResolveDeps", "internal/condition/condition.go: Evaluate", "main.go: handleError"]}
{"id": "C71", "title": "What an item says appears at its place", "statement": "A task that runs outside of parallel blocks announces itself, its commands and its messages, and prints, on the terminal. An item of a parallel block writes through the block: with its label in front of its lines and after the labels of the items around it, or in the view, below the item around it; nothing of it reaches the terminal directly and it never gets the input. The view is used only if standard error is a terminal, for a block that asks for it and is not inside of a block that writes lines; such a block does not begin before its view runs. Outside of a dry run, a task that runs and is not silent is announced exactly once, through the writers it runs with and before its dependencies and variables. Different items of a block have different places.", "quantifier": "all sets of tasks, configurations and executions, all nestings of calls, dependencies and parallel blocks", "why_tests_cant": "How blocks nest is unbounded and the writers are handed down through calls, dependencies, blocks and dependencies resolved ahead of a block; a test looks at one nesting, while a lost writer shows only in the nestings it does not look at.", "anchors": ["internal/runner/parallel.go: executeParallel, executeParallelInterleaved, executeParallelTUI, executeRunItem, preResolveDeps", "internal/runner/runner.go: runTask, executeTask, executeCommand, runCommand, runCommandWithWriters, executeLog"]}
{"id": "C72", "title": "A message about loading shows the way to the file at fault", "statement": "If loading a Babfile fails, one message is printed and the exit status is 1. The message begins with the files of a chain of includes, each including the next one, from the main file to the file at fault, and ends with what is wrong with that file: it is missing, it is not a Babfile, it was met before on the way (then the files shown contain the circle), or one of its tasks has a name that is taken. The circle named after 'circular include:' is a chain of includes. If the files can be loaded but the tasks are not valid, each problem gets a message of its own, and messages about the same line are the same only if they are about the same names.", "quantifier": "all sets of files with any includes, all orders in which maps are visited, all working directories", "why_tests_cant": "The include graph can have any depth, shape and number of circles, and maps are visited in any order; tests look at one or two files and compare a message.", "anchors": ["internal/parser/parser.go: Parse, parseFile, chainFromVisited", "internal/parser/include.go: resolveInclude, resolveIncludes", "internal/errs/parse.go: ParseError, CircularDepError, TaskNotFoundError, AliasConflictError, DuplicateAliasError", "internal/errs/location.go: RelativePath, FormatLocation", "main.go: handleError"]}
{"id": "C73", "title": "A message about a variable names the line that uses it", "statement": "If an invocation fails because a variable has no value, what is printed ends with the file and the line of a text that uses this variable, and its name: the line of the item if the text belongs to an item, of the task if it belongs to the task. If the variables of a task depend on each other in a circle, the line is that of the task and the names are a circle of its variables.", "quantifier": "all sets of tasks, all configurations and values, all interleavings and outcomes of processes and prompts", "why_tests_cant": "A wrong line shows only for the combination of a place in the runner (eight places make such errors, in sequence, in blocks, through calls and dependencies) and a text that fails there; tests check single errors, not that each place passes the line of its own item.", "anchors": ["internal/runner/runner.go:Run,runTask,executeTask,executeCommand,shouldSkipRunItem", "internal/runner/parallel.go:executeRunItem", "internal/interpolate/interpolate.go:NewContextWithLocation,ResolveVarsWithLocation", "internal/errs/interpolate.go:VarNotFoundError,VarCycleError"]}
{"id": "C74", "title": "Every problem of a Babfile is reported at its line, and nothing else", "statement": "If a Babfile that is valid YAML is rejected, one message is printed for every problem of the file and none besides, and the exit status is 1; a file without problems is accepted. Every message begins with the file and the line of a YAML node of this file; if it names a task, the node is in a task of that name. A problem in one entry of the file, or in one task, never hides those of the other entries and tasks. If the file was included, the messages are the same; only if it is no mapping at all the way to it stands before the message.", "quantifier": "all YAML documents, all decoders, all include graphs and orders in which maps are visited", "why_tests_cant": "Documents nest without bound and problems combine in any number; tests look at one broken file per problem and cannot see that some combination hides a problem, reports a valid file, or takes the line of a wrong node.", "anchors": ["internal/parser/unmarshal.go: unmarshalBabfile, unmarshalTasks, unmarshalTask, parseRunNode, parseRunItem, parseParallelBlock, validatePromptFields, validatePlatforms, parseBool", "internal/parser/parser.go: parseFile", "internal/errs/parse.go: ParseError, DuplicateTaskError, ValidationErrors", "main.go: handleError"]}
{"id": "C75", "title": "A syntax error is shown at its line", "statement": "If the YAML library says 'yaml: line N: what is wrong' about a file, bab shows '<file>:N: what is wrong'; if it names no line, '<file>: what is wrong'. Whatever the library says, a reason is shown and it consists of what the library says. The way of includes to the file stands before it, and the exit status is 1.", "quantifier": "all messages of the YAML library, all line numbers from 1 to 2^63-1, all include graphs", "why_tests_cant": "The message is taken apart with a regular expression and put together again; a test tries a few messages, not every text and number.", "anchors": ["internal/errs/yaml.go: ExtractYAMLLocation, CleanYAMLError, yamlLineRegex", "internal/parser/parser.go: parseFile", "internal/errs/location.go: FormatLocation"]}
{"id": "C76", "title": "Without prompts and parallel blocks it is determined what is done, and in which order", "statement": "If nothing a task needs asks for values or runs in parallel, there is exactly one list of commands and messages for it: first the dependencies in the order in which they are listed, each with what it needs itself, and each task once; then its items in order, where calls of tasks are replaced by what these do; without what is skipped because of a condition or the platform; up to the first thing that is wrong. Every invocation starts these commands and prints these messages in this order, and succeeds just if nothing in the list is wrong, unless a command fails or bab is interrupted; then it has done a beginning of the list and ends with an error. Some invocation carries the list out in full.", "quantifier": "all sets of tasks with any references, conditions and variables, all configurations, all outcomes of processes and interruptions", "why_tests_cant": "The list depends on the whole graph of tasks, with shared dependencies, calls and conditions; tests run a few graphs and compare a few commands, they cannot show that no graph makes bab repeat, skip or reorder something.", "anchors": ["internal/runner/runner.go: RunWithTasks, runTask, executeTask, executeCommand, shouldSkipRunItem", "internal/runner/parallel.go: executeRunItem, syncState"]}
{"id": "C77", "title": "A dry run shows what a run does", "statement": "If nothing a task needs asks for values, runs in parallel or calls tasks in its items, then a run does, in the same order, what a dry run with the same settings has shown: the commands with the same text and the messages. A run that succeeds has done all of it, and then the dry run ended without error; a run that ends with an error though no command failed and bab was not interrupted has done all of it too, and the dry run ended with an error.", "quantifier": "all sets of tasks, all configurations and variables, all outcomes of processes and interruptions of the run", "why_tests_cant": "It relates two modes on every input; a test compares what is shown with what is done for single Babfiles.", "anchors": ["internal/runner/runner.go: Runner.DryRun, runTask, executeTask, executeCommand", "internal/runner/parallel.go: executeRunItem"]}
{"id": "C78", "title": "Parallelism does not change what is done", "statement": "If no task that is due asks for anything, then what a run does is determined, whatever the order in which parallel items happen. Every command that is started and every message that is logged is due: it stands in the requested task, in a dependency, or in a task that is called, its platform and conditions hold, and its text is expanded with the variables of its task. A run that ends with success and was not interrupted has done all that is due, each once; so two such runs differ only in the order. A failed or interrupted run has done a part of it. The process for a command is the same in all runs: shell, text, directory, and environment apart from the names that control colours. Before the items of a parallel block start, the dependencies of all tasks that the block calls are done.", "quantifier": "for all task maps without prompts in what is due, all configurations, all schedules of goroutines, all results of commands, and all pairs of runs", "why_tests_cant": "The number of schedules is unbounded; tests observe one of them at a time.", "anchors": ["internal/runner/parallel.go: executeParallel, executeParallelInterleaved, executeParallelTUI, preResolveDeps, executeRunItem", "internal/runner/runner.go: runTask, executeTask"]}
{"id": "C79", "title": "When a run succeeds is determined", "statement": "If no task that is due asks for anything, then success depends on the Babfile and on the outside only. A run that ends with success and was not interrupted shows that all that is due works: every task exists, conditions make sense, variables, environments and directories can be worked out, commands are not blank, and there is an item for the platform. Conversely, if all that is due works, no command fails, nothing is interrupted and the view can be shown, then the run ends with success under every schedule, provided that references are not circular and that items of parallel blocks keep out of each other's way (else C19 is violated). So a run that succeeded once succeeds again unless something goes wrong outside.", "quantifier": "for all task maps without prompts in what is due, all configurations, all schedules of goroutines, and all runs in which nothing goes wrong outside", "why_tests_cant": "Tests see that one schedule succeeds; that none fails is a statement about all of them.", "anchors": ["internal/runner/runner.go: runTask, executeTask, executeCommand, resolveDir, interpolateEnv, shouldSkipTask, shouldSkipRunItem", "internal/runner/parallel.go: executeParallel, preResolveDeps, executeRunItem"]}
{"id": "C80", "title": "Every command that is run stands in a Babfile", "statement": "Whatever an invocation starts, logs, asks or (in a dry run) announces stands in the YAML document of the file it reads or of one that file includes: under `tasks`, under the name of the requested task or one it refers to directly or through others, at this place of `run`. The shell gets the text of `cmd` there, expanded with the variables the item sees, and runs it in the directory given most specifically by entry, task, file, or including files, seen from the directory of the file in which the command stands.", "quantifier": "for every set of YAML documents with includes, every command line or choice in the picker, every schedule and every outcome of processes", "why_tests_cant": "It composes reading, including, resolving and running over all documents and executions; a test shows one document.", "anchors": ["internal/parser/unmarshal.go", "internal/parser/include.go resolveInclude", "internal/parser/parser.go parseFile", "internal/runner/runner.go executeCommand, resolveDir", "cmd/root.go run"]}
{"id": "C81", "title": "Names that are offered can be run", "statement": "`bab x` ends with `task not found` exactly if neither the Babfile nor what it includes has a task with the name or other name `x`, and then it says so of `x`. In particular what completion offers and what is chosen in the picker is found, and so is all it refers to.", "quantifier": "for every set of YAML documents that is accepted, every name, every order in which maps are visited, and every schedule", "why_tests_cant": "It is an equivalence over all names and all executions.", "anchors": ["cmd/complete.go completeTaskNames", "cmd/interactive.go runInteractive", "internal/runner/runner.go Run, runTask", "internal/parser/validate.go"]}
{"id": "C82", "title": "Nothing that stands in a Babfile is passed over", "statement": "If a task is done and the run was not interrupted, then everything that stands in its mapping in the YAML document has been done. Every task listed under `deps` is done. Every entry of `run` is a mapping of one of the known kinds and has been executed: a command was run with the text that stands there, with its variables expanded, and ended well; a task that is called is done; a message was logged with its level; a question was answered; and of a parallel block this holds for each entry. The only exceptions are those the document gives itself: an entry for other platforms, or a condition that is false. The names of tasks are those seen from their own file, however deep it is included. The requested task, given by its name or an alias, is done if the invocation reports success.", "quantifier": "for all documents, include trees, requested names, platforms, variables, schedules of parallel items and results of commands", "why_tests_cant": "It is a statement about every entry of every document and every execution; a reader, an include or a runner that drops something in a rare combination (last item, nested namespace, block inside an included file) passes all tests that do not have this combination.", "anchors": ["internal/parser/unmarshal.go: unmarshalBabfile, unmarshalRunItems", "internal/parser/include.go: resolveInclude", "internal/runner/runner.go: runTask, executeTask", "internal/runner/parallel.go: executeParallel"]}
{"id": "C83", "title": "The exit status is determined by the Babfiles and by what happens outside", "statement": "If the chosen Babfile is accepted, its global variables can be resolved and the given name belongs to a task, then `bab <name>` runs this task. If the task and what it needs ask for nothing and the items of parallel blocks keep out of each other's way, then every run in which no command fails, nothing is interrupted and the view can be shown ends with exit status 0 exactly if all that is due works; then the requested task is done.", "quantifier": "for all documents, include trees, names, configurations, and all schedules of parallel items", "why_tests_cant": "It composes reading, including, validation, resolving of names and variables, the runner with all schedules, and the mapping of errors to the exit status; tests check these parts one by one on samples.", "anchors": ["main.go: run", "cmd/root.go: runTask", "internal/runner/runner.go: Run, RunWithTasks", "internal/parser/parser.go: Parse"]}
{"id": "C84", "title": "No command outlives bab", "statement": "When an invocation is over, however it went (success, failure of a command while others were running in parallel, interruption), every process it has started has ended, and every task, item and parallel block that has begun has ended. At any time: when a task has ended, everything begun in it has ended, and nothing happens in it any more.", "quantifier": "for all task maps, configurations, schedules of parallel items, answers of the outside world and moments of interruption; also for every intermediate state", "why_tests_cant": "Whether a command is left running depends on which goroutine fails or is cancelled at which moment; tests can produce a few such moments only.", "anchors": ["internal/runner/runner.go: runCommandWithWriters, runTask, executeTask", "internal/runner/parallel.go: executeParallelInterleaved, executeParallelTUI"]}
{"id": "C85", "title": "An interruption kills the whole command and nothing else", "statement": "When bab is interrupted while a command runs, the command is killed together with all processes it has started, directly or indirectly, and no other process is touched: neither bab itself nor another command nor anything else on the machine.", "quantifier": "for all machines with any processes, all behaviours of the commands and of other processes (starting, ending, changing the process group, in any order), and all moments of interruption", "why_tests_cant": "The set of processes a command has started, the moment of the interruption and the reuse of process numbers cannot be enumerated, and a killed bystander is not visible to a test.", "anchors": ["internal/runner/process_unix.go: sysProcAttr, signalProcessGroup", "internal/runner/process_windows.go: sysProcAttr, signalProcessGroup", "internal/runner/runner.go: runCommandWithWriters"]}
{"id": "C86", "title": "A command can read what the user types", "statement": "A command that is connected to the input of bab (outside of parallel blocks) gets what the user types at the terminal.", "quantifier": "for all commands, all processes they start and all states of the machine", "why_tests_cant": "Tests have no terminal; whether a process may read depends on its process group and the foreground group of the terminal.", "anchors": ["internal/runner/process_unix.go: sysProcAttr, signalProcessGroup", "internal/runner/process_windows.go: sysProcAttr, signalProcessGroup", "internal/runner/runner.go: runCommandWithWriters"]}
{"id": "C87", "title": "An interrupted invocation ends", "statement": "When bab is interrupted it ends without waiting for anybody: whatever the commands and the processes started by them do, all calls of `cmd.Run` return.", "quantifier": "for all states of the machine that can be reached, with any number of commands running at the same time and any processes started by them", "why_tests_cant": "The state at the moment of the interruption depends on everything the commands have done so far; a test tries a few well behaved commands.", "anchors": ["internal/runner/process_unix.go: sysProcAttr, signalProcessGroup", "internal/runner/process_windows.go: sysProcAttr, signalProcessGroup", "internal/runner/runner.go: runCommandWithWriters", "internal/runner/parallel.go: executeParallelInterleaved, executeParallelTUI"]}
{"id": "C88", "title": "install.sh installs only an archive with the published hash", "statement": "If install.sh installs a program, the program comes from a downloaded archive whose SHA-256 hash is the one that the checksum file of the same release gives for this archive; and an archive with the published hash is not rejected.", "quantifier": "for all contents of the archive and of the checksum file, all answers of the server, all versions and machines", "why_tests_cant": "Tests run with intact releases; what happens with any other archive, checksum file or failing download has to be considered for all of them.", "anchors": ["install.sh: execute, hash_sha256_verify, hash_sha256, http_download"]}
{"id": "C89", "title": "After a successful installation the requested version is where the user wants it", "statement": "If install.sh ends with success, the program of the requested release is in the directory given by -b (or BINDIR).", "quantifier": "for all machines, whatever is installed there already, and all tags and directories", "why_tests_cant": "Depends on what is on the machine already; tests start on an empty one.", "anchors": ["install.sh: parse_args, get_installed_version, compare_versions, execute"]}
{"id": "C90", "title": "The installers ask for the archive that is released for the machine", "statement": "On every machine an archive is built for, the installers accept the machine and download the archive of exactly this build, whatever the version.", "quantifier": "for all versions, all outputs of uname (and PROCESSOR_ARCHITECTURE) on machines the release supports", "why_tests_cant": "The names are put together in two places, the release configuration and the scripts; a test runs on one machine.", "anchors": ["install.sh: uname_os, uname_arch, adjust_os, adjust_arch, adjust_format", "install.ps1: Get-Architecture", ".goreleaser.yaml: builds, archives"]}
{"id": "C91", "title": "install.ps1 installs only what it has verified", "statement": "If install.ps1 installs a program, the program comes from a downloaded archive whose SHA-256 hash is the one in the checksum file of the release.", "quantifier": "for all contents of the archive and of the checksum file and all answers of the server", "why_tests_cant": "Tests run with intact releases; what happens with a missing or different checksum file has to be considered for all archives.", "anchors": ["install.ps1: Verify-Checksum"]}
{"id": "C92", "title": "Parallel items do not race on the global variables", "statement": "At no moment of an invocation can one goroutine write the map of the global variables while another one reads or writes it with nothing that orders the two accesses. (Go stops a program that does so with a fatal error.)", "quantifier": "for all Babfiles, all invocations, all schedules of the goroutines, answers of the user and results of commands", "why_tests_cant": "The race depends on the schedule of goroutines; the race detector only sees the schedules a test happens to run, and tests cannot answer prompts in parallel.", "anchors": ["internal/runner/runner.go: runTask, executeTask", "internal/runner/parallel.go: executeParallel, executeRunItem, preResolveDeps"]}
{"id": "C93", "title": "The user is asked one question at a time", "statement": "The user is never asked two questions at the same time, and is not asked anything while the items of a parallel block run (whose output or view uses the terminal).", "quantifier": "for all Babfiles, all invocations, all schedules of the goroutines, answers of the user and results of commands", "why_tests_cant": "Prompts need a terminal and a person; which prompts are open at the same time depends on the schedule.", "anchors": ["internal/runner/runner.go: executeTask", "internal/runner/parallel.go: executeParallel, preResolveDeps", "internal/parser/unmarshal.go: validateParallelItems"]}
{"id": "C94", "title": "Whatever bytes a command prints, its output stays inside its own lines", "statement": "For every output of a parallel item, also if it is not valid UTF-8 and however it is cut into writes, the destination receives as many lines as the output has, each beginning with the prefix of the item, with no control byte in them besides tabs and colour sequences, and with every character of the text whole.", "quantifier": "for all byte sequences, all ways to cut them into writes, all labels, colours on or off, all behaviours of the ANSI library", "why_tests_cant": "Tests print a few ASCII lines; invalid UTF-8, characters cut in two and hostile bytes are unboundedly many.", "anchors": ["internal/runner/writer.go: sanitizeLine, stripControlChars, cleanLine, NewPrefixWriter, PrefixWriter.Write", "internal/babfile/run_parallel.go: ItemLabel, truncateRunes"]}
{"id": "C95", "title": "The command line means what it says", "statement": "Flags and the name of the task may stand in any order and be spelled in any of the documented ways; of several statements about a flag the last one counts; an argument that looks like a flag and is none is an error and nothing is run; after -- every argument is a word. In particular, if --dry-run is given and not taken back, no process is started, wherever it stands.", "quantifier": "for all lists of arguments, all bab files, all worlds, all executions", "why_tests_cant": "The command lines are unboundedly many; tests call the runner with the options already set.", "anchors": ["cmd/root.go: buildCommand, execute, run", "main.go: main"]}
{"id": "C96", "title": "Debug messages appear only with --verbose", "statement": "A message of a log item is printed exactly if its level is not debug or --verbose was given, whatever task it stands in and wherever the task is run from.", "quantifier": "for all task maps, all executions, all command lines", "why_tests_cant": "Whether a message passes depends on the path by which its task was reached; the paths are unboundedly many.", "anchors": ["internal/runner/runner.go: executeLog", "internal/runner/parallel.go: executeRunItem", "internal/output/output.go: RenderLog", "main.go: run", "cmd/root.go: buildCommand"]}
{"id": "C97", "title": "The summary of a parallel block tells how each item ended", "statement": "The line printed after a block of the view shows each item once, in order, under its label; the sign behind it is a tick exactly if the item has ended without error (so its command exited with 0, its task is done), a circle if it was cancelled or never started, and a cross otherwise. If there is a cross the block fails.", "quantifier": "for all blocks, all executions and interleavings, also with cancellation", "why_tests_cant": "The signs depend on the interleaving of the items and of cancellations.", "anchors": ["internal/output/output.go: RenderParallelDone", "internal/runner/parallel.go: executeParallelTUI"]}
{"id": "C98", "title": "The update server is asked at most once a day, and a new release is announced", "statement": "Over any series of invocations, two requests to the release server are at least 24 hours apart; and once the server has named a newer release, every invocation ends with a notice of it until another release is known or the checks are switched off.", "quantifier": "for all series of invocations, all contents of the cache file, all answers of the server, all times", "why_tests_cant": "The statement is about unboundedly many invocations that share a file; each test runs one of them.", "anchors": ["cmd/root.go: execute", "internal/update/update.go: StartBackgroundRefresh, refreshCache, CheckCached", "internal/update/cache.go: loadCache, saveCache, isValid"]}
{"id": "C99", "title": "The exit status of a command line", "statement": "For every list of arguments: the status is 1 if they cannot be read. Otherwise, in this order: --help and --version give 0; --completion gives 0 exactly for a known shell; --validate and --list give 0 exactly if there is an accepted Babfile. A name, or a choice in the picker, gives 0 only if the Babfile is accepted and the task that is meant is done without any failure, or if bab was interrupted or left; it gives 1 only if the Babfile is not accepted, its global variables cannot be resolved, or the task failed.", "quantifier": "for all lists of arguments, file systems, environments and executions", "why_tests_cant": "The statement composes the reading of arguments, the search for the Babfile, parsing, validation, and all executions of the runner.", "anchors": ["main.go: run, isCancellation", "cmd/root.go: execute, run", "cmd/validate.go: runValidate", "cmd/list.go: runList", "cmd/completion.go: runCompletion", "cmd/interactive.go: runInteractive", "internal/tui/tui.go: PickTask", "internal/runner/runner.go: Run"]}
{"id": "C100", "title": "Editing a Babfile changes only what needs the edited part", "statement": "If files are edited and the result is accepted, then a task that needs nothing that was edited does afterwards exactly what it did before: the same executions are possible, with the same commands, prompts, messages and results, apart from the line numbers in errors about variables. Adding, removing and changing other tasks, other includes, descriptions, other names, and moving tasks to other lines do not matter.", "quantifier": "for all pairs of file systems, tasks, environments, orders in which maps are visited, and executions", "why_tests_cant": "The statement relates all executions of two versions of a project, for arbitrary edits.", "anchors": ["internal/parser/parser.go: Parse, parseFile", "internal/parser/include.go: resolveInclude", "internal/runner/runner.go: RunWithTasks, runTask, executeTask", "internal/runner/parallel.go: executeParallel, preResolveDeps", "internal/errs/interpolate.go: VarNotFoundError, VarCycleError"]}
{"id": "C101", "title": "Typing in the picker narrows the list to the tasks that contain what is typed", "statement": "While something is typed in the picker, exactly those tasks are shown whose name, or one of whose aliases, contains the typed letters in this order, in upper or lower case and perhaps with others between them. Typing more never brings up a task that was not shown before. Typing any part of a name or alias keeps the task in the list. The letters marked in a name, read from left to right, are what was typed. Enter chooses a task that contains what is typed.", "quantifier": "for all task lists, queries, texts in any script without the character 0, and histories of keys", "why_tests_cant": "The matcher looks ahead and picks places by score; that it never loses a text by picking a wrong place needs an invariant of its loop, for texts and queries of any length.", "anchors": ["internal/tui/picker/match.go: search, searchAliases, highlight", "internal/tui/picker/model.go: updateMatches", "internal/tui/picker/update.go: Update"]}
{"id": "C102", "title": "Typing the name of a task in full and pressing enter runs that task", "statement": "If the name of a task, or one of its aliases, is typed in full in the picker and enter is pressed, that task is chosen.", "quantifier": "for all task lists and all names and aliases", "why_tests_cant": "It depends on the scores of all other tasks, which grow exponentially with the number of adjacent letters.", "anchors": ["internal/tui/picker/match.go: search, scoreExactAlias, scoreFuzzyAlias", "internal/tui/picker/update.go: Update"]}
{"id": "C103", "title": "Of a line of output, the text and the colours are shown and nothing else", "statement": "If a line of a parallel item is made of text, of sequences that set colours and of other escape sequences (cursor movements, titles, links, queries), then the text is shown in full without control characters, the colours are kept as they are, and nothing is left of the other sequences, also if the last one is cut off by the end of the line. With color: false only the text is left. Whatever the bytes of a line, an escape character is left only in front of a sequence that sets colours.", "quantifier": "for all lines; violated for sequences that end in m and do not set colours, for titles with the byte 0x9c in a character, for sequences of several lines, and with color: false for characters cut in two (shown by witnesses)", "why_tests_cant": "Tests clean six short ASCII lines; sequences have parameters and data of any length, and the cleaning rests on two state machines of a library.", "anchors": ["internal/runner/writer.go: sanitizeLine, stripControlChars, cleanLine"]}
{"id": "C104", "title": "A tab of the parallel view follows the output until the user scrolls", "statement": "The active tab shows consecutive rows of the output of its item, as many as there is room for. From the start, and from when the user changes to a tab, these are the newest rows, as long as the user does not scroll; every row can be scrolled to; when the user has scrolled back to the end the newest rows are shown again; while the user reads further up, new output does not move what is shown.", "quantifier": "for every sequence of messages (output, start, end, nested blocks, window sizes, keys) and every number of items; violated when the window becomes lower: then the newest rows are no longer shown (witness)", "why_tests_cant": "Tests send a few messages and look for a label in the drawing; the position of the viewport depends on the whole history of sizes, keys and output.", "anchors": ["internal/tui/parallel_tabs.go: Update, updateViewport, renderView, buildContent"]}
{"id": "C105", "title": "A value put in for a reference stays data", "statement": "The value of a variable, and in particular what the user types at a prompt, does not become part of the program that the shell runs: every character of the command in the Babfile keeps its meaning for the shell, and every character of the value stands for itself. A command without references does not depend on any value.", "quantifier": "for every Babfile, every run and every command of it, and all values that are harmless where the reference stands (no quotation mark between quotation marks, only letters, digits and -./:,+@% outside); violated for other values (witness), since nothing is quoted", "why_tests_cant": "Tests expand a reference to a word of letters; which characters of which values change the meaning of which command is a question about all values and all places in a command.", "anchors": ["internal/interpolate/interpolate.go: Interpolate", "internal/runner/runner.go: executeCommand, runCommandWithWriters"]}
{"id": "C106", "title": "The views of parallel items fit the window", "statement": "No row of the grouped view is wider than the window, and what is shown of a row is its beginning; rows are cut one by one, so that none is lost; how each item is can be seen in its row; the block of a running item keeps its height; the title of the active tab is inside the window.", "quantifier": "for every history of messages and every width of the window; violated for the status of items with long labels, for the height of the grouped view and for the titles of many tabs (witnesses)", "why_tests_cant": "Tests render one or two short items in a window of 80 columns; whether something gets lost depends on labels, output, nesting and window.", "anchors": ["internal/tui/parallel.go: truncateLine", "internal/tui/parallel_grouped.go: renderItem, renderCompactLine, View", "internal/tui/parallel_tabs.go: renderView"]}
{"id": "C107", "title": "A password that was typed is not shown", "statement": "What the user types at a prompt is shown neither with the commands nor in log lines, error messages or debug messages, and decides nothing, unless the Babfile puts the variable into such a text itself.", "quantifier": "for every Babfile, every set of variables that its shown or deciding texts do not refer to, every execution and every other choice of answers for these variables: there is an execution with these answers in which everything else is the same; violated by the debug messages (witness)", "why_tests_cant": "A test looks for one password in one output; that nothing shown depends on it is a statement about pairs of executions.", "anchors": ["internal/runner/runner.go: executeTask, executeCommand", "internal/tui/prompt.go: runPassword", "cmd/root.go: buildCommand"]}
{"id": "C108", "title": "Only the environment variables that the Babfile names are read", "statement": "An invocation does the same in two environments that agree on the variables which the Babfile refers to as env.X; loading, validating, listing and completion do not depend on the environment at all.", "quantifier": "for every Babfile, every set of names that contains those it refers to, every two environments that agree on the set, every invocation and every execution; violated when a value of env contains the text of a reference (witness)", "why_tests_cant": "A test runs with a few environments; that no other variable of the environment is ever looked up is a statement about all pairs of environments.", "anchors": ["internal/interpolate/interpolate.go: resolveVar, ResolveVarsWithLocation", "internal/runner/runner.go: Run, executeTask, executeCommand, interpolateEnv", "cmd/root.go: run"]}
{"id": "C109", "title": "The limits of a Babfile bound how many commands run at the same time", "statement": "Without parallel blocks one command runs at a time; with them never more than the limits of the blocks, multiplied along their nesting, allow.", "quantifier": "for every Babfile, every assignment of numbers to tasks that is enough for their dependencies and items, every invocation, every execution and every moment of it", "why_tests_cant": "The number of processes alive depends on the schedule, the nesting of blocks through task calls and on when slots are given back; a test sees a few schedules.", "anchors": ["internal/runner/parallel.go: executeParallel, executeParallelInterleaved, executeParallelTUI, preResolveDeps", "internal/runner/runner.go: runTask, executeTask, runCommandWithWriters"]}
{"id": "C110", "title": "How long expanded texts become is bounded", "statement": "The text that expansion makes of a command is no longer than the command and, for each reference, the longest value; the values of a block of variables are linear in its size if no definition has more than one reference, and in general at most exponential in the number of definitions.", "quantifier": "for every text, every block of variables that is accepted, every parent values and environment (all without NUL), every run", "why_tests_cant": "How texts grow depends on chains of references of any length; a test has a chain of two or three.", "anchors": ["internal/interpolate/interpolate.go: Interpolate, ResolveVarsWithLocation", "internal/runner/runner.go: runCommandWithWriters"]}
{"id": "C111", "title": "Renaming a task everywhere changes nothing but its name", "statement": "When tasks of a Babfile are given other names, in their definitions and wherever they are referred to, the file is still accepted and every task can do exactly what it could do before under its new name: the same commands, questions and messages in the same order, the same variables, the same result and exit status.", "quantifier": "for every tree of Babfiles that is accepted, every renaming that maps different names to different names, keeps the names of included files and hits no alias, every order in which Go visits maps, every run and schedule", "why_tests_cant": "A test runs one file with one set of names; that nothing depends on what a task is called is a claim about pairs of runs of every file.", "anchors": ["internal/runner/runner.go: Run, RunWithTasks, runTask, executeTask, buildChainSlice", "internal/runner/parallel.go", "internal/parser/validate.go: validateAll", "internal/parser/parser.go: Parse, parseFile, buildAliasMap"]}
{"id": "C112", "title": "Items of a task can be moved to a task of their own", "statement": "When consecutive items of a task are moved to a new task with the same vars, env, dir, silent and output settings, which is called at their place, the tasks are still accepted and the same work is done: the same commands with the same text, directory and environment and the same messages, each once, in the same order where there is an order; and the run succeeds exactly if it did before.", "quantifier": "for every set of tasks, every task and every cut of its items, every new name that nothing uses, every main task, and every pair of runs (schedules) before and after the move; no prompts; for success, items of parallel blocks keep out of each other's way and at least one moved item is for this platform", "why_tests_cant": "A test compares one file before and after one edit; that the edit is harmless is a claim about pairs of runs of all files under all schedules.", "anchors": ["internal/runner/runner.go: runTask, executeTask, executeTaskItem, buildTaskVarContext", "internal/runner/parallel.go", "internal/parser/validate.go: validateAll"]}
{"id": "C113", "title": "A parallel block is only about time", "statement": "When a parallel block is replaced by its items, one after the other (or the other way round), the tasks are accepted exactly as before and the same work is done: the same commands with the same text, directory and environment and the same messages, each once; and the run succeeds exactly if it did before.", "quantifier": "for every set of tasks, every task with a block whose items mean the same outside (for this platform, without conditions), every main task and every pair of runs (schedules) before and after; no prompts; tasks with dependencies that the block calls are not skipped; for success, items of blocks keep out of each other's way", "why_tests_cant": "A test runs one schedule of one block; that the block does the same work as the sequence is a claim about pairs of runs of all files under all schedules.", "anchors": ["internal/runner/parallel.go: executeParallel, preResolveDeps, executeRunItem", "internal/runner/runner.go: executeTask, runTask", "internal/parser/validate.go: validateAll"]}
{"id": "C114", "title": "How many tasks a Babfile gives", "statement": "A Babfile that is accepted gives exactly one task for each pair of a way along includes from it to a file and a task in that file. If each file can be reached in one way only, the tasks are at most as many as stand in the files.", "quantifier": "for all sets of files and all orders in which maps are visited", "why_tests_cant": "A test loads a few sets of files; that no set of files gives a task too many or too few, whatever the order of visiting, is a claim about all of them.", "anchors": ["internal/parser/parser.go: parseFile", "internal/parser/include.go: resolveInclude", "internal/parser/parser.go: Parse"]}
{"id": "C115", "title": "How dependencies are listed does not matter", "statement": "Dependencies may be listed in another order or repeatedly, and what others in the list depend on anyway may be named or not: the tasks are accepted exactly as before, a run starts the same commands with the same text, directory and environment and prints the same messages, each once, and succeeds exactly if it did before.", "quantifier": "for every two sets of tasks that differ in their lists of dependencies only, where each list brings about the same, every main task and every pair of runs (schedules); no prompts; for success, references make no circle and items of blocks keep out of each other's way", "why_tests_cant": "A test compares two lists in one set of tasks under one schedule; the claim is about pairs of runs of all sets of tasks.", "anchors": ["internal/runner/runner.go: runTask, executeTask", "internal/runner/parallel.go: preResolveDeps", "internal/parser/validate.go: validateAll"]}
{"id": "C116", "title": "Where a variable is defined does not matter", "statement": "If definitions of variables are changed, in tasks or for all tasks, such that every text that is expanded sees the same values, then a run starts the same commands with the same text, directory and environment and prints the same messages, each once, and succeeds exactly if it did before. In particular a definition can be moved from those for all tasks to the only task that uses it.", "quantifier": "for every two sets of tasks and global variables that differ in the definitions only, every main task and every pair of runs (schedules); no prompts; for success, references make no circle and items of blocks keep out of each other's way", "why_tests_cant": "A test compares two ways of defining one variable under one schedule; the claim is about all definitions and all pairs of runs.", "anchors": ["internal/runner/runner.go: runTask, executeTask, executeCommand", "internal/interpolate/interpolate.go: ResolveVarsWithLocation, Interpolate"]}
{"id": "C117", "title": "Items for other platforms can be left out", "statement": "If from all tasks the items for other platforms are left out, then on this platform a run starts the same commands with the same text, directory and environment and prints the same messages, each once. It succeeds exactly if it did before, unless nothing is left of a task. A Babfile that is accepted stays accepted.", "quantifier": "for every set of tasks, every platform, every main task and every pair of runs (schedules), one with and one without these items; no prompts; for success, references make no circle, items of blocks keep out of each other's way and each task that is run and has items has one for the platform", "why_tests_cant": "A test runs on one platform and one Babfile; the claim compares all runs of two Babfiles, on any platform.", "anchors": ["internal/runner/runner.go: executeTask", "internal/babfile/platform.go", "internal/parser/validate.go"]}
{"id": "C118", "title": "Standard output is what the commands print", "statement": "What ends on the standard output of bab is what the commands it runs print to their standard output, and nothing else: announcements, messages of log items and plans of dry runs go to standard error, as does what commands print to standard error. So `bab gen > file` gives the output of the commands. Output that is switched off ends on neither.", "quantifier": "for every set of tasks, every main task, every setting and every run (schedule); for messages, no log item in a block or in a task that may run in one; for commands, standard error is no terminal or no block asks for a view", "why_tests_cant": "Where a text ends depends on which blocks the task is called through, on the modes and on the terminal; a test captures the streams of one Babfile in one setting.", "anchors": ["internal/runner/runner.go: runTask, executeCommand, runCommandWithWriters, executeLog", "internal/runner/parallel.go: executeParallelInterleaved, executeParallelTUI, executeRunItem", "internal/output/output.go: Writer", "internal/tui/parallel.go: RunParallel"]}
{"id": "C119", "title": "Where a setting is written does not matter", "statement": "The settings env, silent, output and dir of a Babfile mean the same as these settings written at each of its tasks that does not say otherwise (env: key by key), and dir of a task means the same as dir at each of its commands, also inside parallel blocks. Two Babfiles with the same settings in the end have exactly the same runs.", "quantifier": "for every pair of Babfiles with the same settings in the end, every main task and everything that can happen (schedules, answers, failures, interruptions), in dry runs too", "why_tests_cant": "A test compares two Babfiles in one run; the claim is that the whole sets of possible runs are equal, event by event.", "anchors": ["internal/runner/runner.go: executeTask, executeCommand, resolveDir, isSilent, isOutput", "internal/babfile/env.go: MergeEnvMaps"]}
{"id": "C120", "title": "silent only silences", "statement": "Two Babfiles that differ only in settings silent (of the Babfile, of tasks, of calls, of commands, of blocks) do the same: whatever can happen with one can happen with the other, in the same order and with the same result, except that tasks and commands are announced or not. The same processes are started with the same input, output, environment and directory.", "quantifier": "for every pair of such Babfiles, every main task and everything that can happen (schedules, answers, failures, interruptions), in dry runs too", "why_tests_cant": "Noninterference: it compares the whole sets of runs of two Babfiles; a test sees one run of each.", "anchors": ["internal/runner/runner.go: runTask, executeTask, executeCommand, isSilent", "internal/runner/parallel.go: executeParallel, executeRunItem, preResolveDeps"]}
{"id": "C121", "title": "output and color only decide where output goes and how it looks", "statement": "Two Babfiles that differ only in settings output (of the Babfile, of tasks, of calls, of commands, of blocks), in settings color of blocks and in descriptions of tasks do the same, step by step and with the same result: the same commands are started in the same directories with the same environment, in the same order; variables, answers, announcements and messages are the same. Only the place the output goes to, whether a command can read from the terminal, and the variables TERM, NO_COLOR and FORCE_COLOR of a command can differ.", "quantifier": "for every pair of such Babfiles, every main task and everything that can happen (schedules, answers, failures, interruptions), in dry runs too", "why_tests_cant": "Noninterference: it compares the whole sets of runs of two Babfiles; a test sees one run of each.", "anchors": ["internal/runner/runner.go: executeCommand, runCommand, runCommandWithWriters, isOutput", "internal/runner/parallel.go: executeParallel, executeRunItem, preResolveDeps"]}
{"id": "C122", "title": "A dependency is a call at the beginning", "statement": "If the dependencies of all tasks are written as calls (task items) before the other items instead, then the same is done: the same commands are run and the same messages are printed, each once, and a command is started with the same text, directory and environment; a run in which nothing goes wrong outside succeeds exactly if such a run with dependencies does; and validation accepts one exactly if it accepts the other. Two things are excepted, which only dependencies provide: tasks of a parallel block can share a dependency, and the dependencies of a skipped task in a block are run.", "quantifier": "for every Babfile without prompts in which the variables and the environment of tasks with dependencies make sense, every main task and every two uninterrupted runs", "why_tests_cant": "It relates all runs of two different Babfiles under all schedules; a test compares one run of each.", "anchors": ["internal/runner/runner.go: runTask, executeTask", "internal/runner/parallel.go: executeRunItem, preResolveDeps", "internal/parser/validate.go"]}
{"id": "C123", "title": "Items that are never executed can be left out", "statement": "Leaving out items of tasks that are never executed, because they are for other platforms or because their condition is false whatever the variables of the Babfile are (a constant, or decided by the environment), changes nothing: the same commands are run and the same messages are printed, each once, with the same text, directory and environment; only the numbers of the items differ. Success is the same unless nothing is left of a task, and a Babfile that is accepted stays so.", "quantifier": "for every Babfile without prompts, every choice of such items, every main task and every two uninterrupted runs", "why_tests_cant": "It relates all runs of two different Babfiles under all schedules and all values of the variables; a test compares one run of each.", "anchors": ["internal/runner/runner.go: executeTask", "internal/condition/condition.go: Evaluate", "internal/parser/validate.go"]}
{"id": "C124", "title": "A variable can be replaced by its value", "statement": "Replacing references to a variable (or an environment variable) in a text by its value changes nothing: the text expands to the same or fails with the same error, a condition comes out the same unless nothing is left of it, and a command gets the same text, environment and directory. This holds if the value contains no `$` and each `$` in the text begins a reference or an escape or is followed by something that cannot belong to one (as in `$HOME` and `${HOME}`); without that it does not hold, since what stands around a reference can form a reference together with the value.", "quantifier": "for every text, every choice of references to the variable, every context of variables and environment", "why_tests_cant": "It relates two texts for all contexts; a test compares two texts in one.", "anchors": ["internal/interpolate/interpolate.go: Interpolate", "internal/condition/condition.go: Evaluate", "internal/runner/runner.go: executeCommand"]}
{"id": "C125", "title": "A text can be replaced by any other that expands to the same", "statement": "Replacing texts of commands, directories, environments, conditions and messages by others that expand to the same (or, for conditions, come out the same) with the variables of the task changes nothing: the same commands are run and the same messages are printed, each once, with the same text, directory and environment; success is the same, and validation accepts both or none. What messages say, and at which level, does not matter for the commands as long as they can be expanded. A command must not become blank, and a directory must not become empty.", "quantifier": "for every two Babfiles without prompts that differ in such texts, every main task and every two uninterrupted runs", "why_tests_cant": "It relates all runs of two different Babfiles under all schedules; a test compares one run of each.", "anchors": ["internal/runner/runner.go: executeTask, executeCommand, resolveDir", "internal/runner/parallel.go", "internal/interpolate/interpolate.go: Interpolate", "internal/condition/condition.go: Evaluate"]}
{"id": "C126", "title": "A variable that is not used can be removed", "statement": "Removing (or adding) a variable of a task, or one defined for all tasks, that no text mentions changes nothing: the same commands are run and the same messages are printed, each once, with the same text, directory and environment, and success is the same. The definition must make sense all the same: if it refers to itself or to what is not defined, the task fails although nothing uses the variable.", "quantifier": "for every Babfile without prompts, every variable that is not mentioned, every main task and every two uninterrupted runs", "why_tests_cant": "It relates all runs of two different Babfiles under all schedules and all values; a test compares one run of each.", "anchors": ["internal/interpolate/interpolate.go: ResolveVarsWithLocation", "internal/runner/runner.go: executeTask"]}
{"id": "C127", "title": "A variable can be renamed", "statement": "Giving a variable of a task another name, in its definition and in all references to it in the task, changes nothing: the same commands are run and the same messages are printed, each once, with the same text, directory and environment, and success is the same. So does renaming a variable that is defined for all tasks, in all tasks. The new name must be free: nothing mentions it before. Limits: the definition must make sense, other definitions of variables mention neither name, and neither do values that come out of `env`, which are expanded a second time. The condition of a task is worked out before the variables of the task, so it is only concerned by variables for all tasks.", "quantifier": "for every Babfile without prompts, every variable and every free name, every main task and every two uninterrupted runs", "why_tests_cant": "It relates all runs of two different Babfiles under all schedules and all values; a test compares one run of each.", "anchors": ["internal/interpolate/interpolate.go: InterpolateWithLocation, ResolveVarsWithLocation", "internal/runner/runner.go: executeTask"]}
