{
 "claims": [
  {
   "property": "C01",
   "status": "proved",
   "theorems": [
    "Bab.C01_interpolate_single_pass",
    "Bab.reads_exists_unique",
    "Bab.C01_nul_witness"
   ],
   "note": "Full input-output behaviour; texts and values must not contain NUL, which C01_nul_witness shows to be necessary."
  },
  {
   "property": "C02",
   "status": "proved",
   "theorems": [
    "Bab.C02_interpolate_error_iff",
    "Bab.C02_env_never_fails"
   ],
   "note": "Exact error condition and the reported name."
  },
  {
   "property": "C03",
   "status": "proved",
   "theorems": [
    "Bab.C03_escape_roundtrip"
   ],
   "note": "For every text without NUL."
  },
  {
   "property": "C04",
   "status": "proved",
   "theorems": [
    "Bab.C04_resolveVars_unique_solution"
   ],
   "note": "For every variable map and every iteration order."
  },
  {
   "property": "C05",
   "status": "proved",
   "theorems": [
    "Bab.C05_resolveVars_error_iff",
    "Bab.C05_resolveVars_error_kind"
   ],
   "note": "Error iff a cycle or undefined name; also shows the modelled recursion never runs out of fuel."
  },
  {
   "property": "C06",
   "status": "proved",
   "theorems": [
    "Bab.C06_resolveVars_order_independent"
   ],
   "note": "For every permutation of the map."
  },
  {
   "property": "C07",
   "status": "partial",
   "theorems": [
    "Bab.C07_escaped_reference_fails",
    "Bab.C07_no_spurious_cycle_partial"
   ],
   "note": "The code violates the property (witness proved); without escaped references it holds."
  },
  {
   "property": "C08",
   "status": "proved",
   "theorems": [
    "Bab.C08_comparison",
    "Bab.C08_ne_is_negation",
    "Bab.C08_blank_value_always_true",
    "Bab.C08_newline_witness",
    "Bab.C08_quoted_value_witness"
   ],
   "note": "Proved under the stated restrictions; each restriction is shown necessary. Blank values make every comparison true."
  },
  {
   "property": "C09",
   "status": "proved",
   "theorems": [
    "Bab.C09_truthiness"
   ],
   "note": "For every expanded text that is not a comparison."
  },
  {
   "property": "C10",
   "status": "proved",
   "theorems": [
    "Bab.C10_condition_error",
    "Bab.C10_empty_condition"
   ],
   "note": "Exact error condition."
  },
  {
   "property": "C100",
   "status": "proved",
   "theorems": [
    "Bab.C100_tasks",
    "Bab.C100_edit"
   ],
   "note": "The events of the model do not hold what a prompt shows; that is the same by definition of core. Maps (vars, env) must be written with the same entries in the same order."
  },
  {
   "property": "C101",
   "status": "proved",
   "theorems": [
    "Bab.Picker.C101_listed",
    "Bab.Picker.C101_no_panic",
    "Bab.Picker.C101_narrows",
    "Bab.Picker.C101_part",
    "Bab.Picker.C101_marks",
    "Bab.Picker.C101_chosen",
    "Bab.Picker.C101_zero_panics"
   ],
   "note": "The matcher sahilm/fuzzy is modelled after its source, which is not in /repo; comparison of letters is any symmetric relation."
  },
  {
   "property": "C102",
   "status": "partial",
   "theorems": [
    "Bab.Picker.C102_only_partial",
    "Bab.Picker.C102_alias_partial",
    "Bab.Picker.C102_name_beaten",
    "Bab.Picker.C102_name_below_alias",
    "Bab.Picker.C102_alias_beaten"
   ],
   "note": "False in general. It holds if no other task contains what is typed, and for aliases of up to six characters."
  },
  {
   "property": "C103",
   "status": "partial",
   "theorems": [
    "Bab.C103_exact_partial",
    "Bab.C103_any_line",
    "Bab.C103_single_byte",
    "Bab.C103_off_partial",
    "Bab.C103_off_no_escape",
    "Bab.C103_own_lines",
    "Bab.C103_private",
    "Bab.C103_title",
    "Bab.C103_cross",
    "Bab.C103_lines",
    "Bab.C103_off_cut",
    "Bab.C103_off_string"
   ],
   "note": "False in five cases, each with a witness. Of the library only the length of grapheme clusters is a parameter; the rest is modelled after its source, which is not in /repo."
  },
  {
   "property": "C104",
   "status": "partial",
   "theorems": [
    "Bab.View.C104_window",
    "Bab.View.C104_follow_partial",
    "Bab.View.C104_resume",
    "Bab.View.C104_reach",
    "Bab.View.C104_still",
    "Bab.View.C104_lower_window",
    "Bab.View.C104_stale_symbols"
   ],
   "note": "False when the window becomes lower (witness). The viewport of the library is modelled from memory; scrolling to the side is left out."
  },
  {
   "property": "C105",
   "status": "partial",
   "theorems": [
    "Bab.C105_meant_partial",
    "Bab.C105_constant",
    "Bab.C105_chosen",
    "Bab.C105_injected",
    "Bab.C105_quoted"
   ],
   "note": "False for values with characters that are special to the shell (witnesses). The shell is the one of POSIX, without here-documents, reserved words and the special rules inside backquotes."
  },
  {
   "property": "C106",
   "status": "partial",
   "theorems": [
    "Bab.View.C106_rows",
    "Bab.View.C106_width",
    "Bab.View.C106_begins",
    "Bab.View.C106_unchanged",
    "Bab.View.C106_nested_status",
    "Bab.View.C106_title_status_partial",
    "Bab.View.C106_steady",
    "Bab.View.C106_titles_partial",
    "Bab.View.C106_status_lost",
    "Bab.View.C106_too_high",
    "Bab.View.C106_tab_hidden"
   ],
   "note": "False for the status of items with long labels, the height of the grouped view and the titles of many tabs (witnesses). Width and cutting of a text are parameters with laws."
  },
  {
   "property": "C107",
   "status": "partial",
   "theorems": [
    "Bab.C107_hidden",
    "Bab.C107_not_asked",
    "Bab.C107_debug_partial",
    "Bab.C107_verbose",
    "Bab.C107_echoed",
    "Bab.C107_in_error"
   ],
   "note": "False for the debug messages shown with --verbose (witness C107_verbose). Without them proved for variables that the Babfile uses in values of env of commands only; what processes print themselves is not modelled."
  },
  {
   "property": "C108",
   "status": "partial",
   "theorems": [
    "Bab.C108_unnamed_partial",
    "Bab.C108_none_partial",
    "Bab.C108_variables",
    "Bab.C108_text",
    "Bab.Cli.C108_load",
    "Bab.Cli.C108_no_run",
    "Bab.Cli.C108_command_partial",
    "Bab.C108_injected"
   ],
   "note": "False when the value of an environment variable used in env of a task or of the Babfile contains the text of a reference (witness C108_injected). Proved when these values contain no $. The environment that processes inherit as a whole is not looked at; variables read by libraries (NO_COLOR, TERM) and by the update check are outside."
  },
  {
   "property": "C109",
   "status": "proved",
   "theorems": [
    "Bab.C109_at_once",
    "Bab.C109_ends_le",
    "Bab.C109_one",
    "Bab.C109_power",
    "Bab.C109_accepted",
    "Bab.C109_limits_multiply"
   ],
   "note": "A process counts from its start until it has ended as seen by bab; what a command starts in the background itself is not counted."
  },
  {
   "property": "C11",
   "status": "proved",
   "theorems": [
    "Bab.C11_at_most_once"
   ],
   "note": "For every interleaving; also each item's action and end happen at most once."
  },
  {
   "property": "C110",
   "status": "proved",
   "theorems": [
    "Bab.C110_text",
    "Bab.C110_command",
    "Bab.C110_block",
    "Bab.C110_single",
    "Bab.C110_exponential"
   ],
   "note": "Lengths in characters; texts and values without NUL, as for C01 and C04."
  },
  {
   "property": "C111",
   "status": "proved",
   "theorems": [
    "Bab.C111_accepted",
    "Bab.C111_renamed",
    "Bab.C111_alias",
    "Bab.C111_outside",
    "Bab.C111_one"
   ],
   "note": "The text of error messages contains names of tasks and so differs by them (ErrIs). Names inside commands (for instance a command that calls bab itself) are not renamed."
  },
  {
   "property": "C112",
   "status": "proved",
   "theorems": [
    "Bab.C112_accepted",
    "Bab.C112_same",
    "Bab.C112_process",
    "Bab.C112_success",
    "Bab.C112_order",
    "Bab.C112_platform"
   ],
   "note": "Prompts are excluded, because answers stay inside the task that asked (C27). Stated for the tasks after loading. Without an item for this platform among those that are moved the call fails: C112_platform."
  },
  {
   "property": "C113",
   "status": "proved",
   "theorems": [
    "Bab.C113_same",
    "Bab.C113_process",
    "Bab.C113_success",
    "Bab.C113_accepted",
    "Bab.C113_ahead"
   ],
   "note": "The hypotheses name what blocks treat differently: conditions and platforms of items, which they ignore, and dependencies of called tasks that are skipped (C113_ahead). Where the output goes differs, of course. Prompts are excluded, because they may not stand in blocks."
  },
  {
   "property": "C114",
   "status": "proved",
   "theorems": [
    "Bab.C114_count",
    "Bab.C114_once",
    "Bab.Sample.C114_exponential"
   ],
   "note": "C114_exponential: without the condition of C114_once the number of tasks can be exponential in the size of the files; recorded as a finding."
  },
  {
   "property": "C115",
   "status": "proved",
   "theorems": [
    "Bab.C115_same",
    "Bab.C115_process",
    "Bab.C115_success",
    "Bab.C115_accepted",
    "Bab.C115_skipped"
   ],
   "note": "C115_skipped shows that a dependency may not be left out because a task that is skipped has it."
  },
  {
   "property": "C116",
   "status": "proved",
   "theorems": [
    "Bab.C116_same",
    "Bab.C116_process",
    "Bab.C116_success",
    "Bab.C116_moved",
    "Bab.C116_condition"
   ],
   "note": "C116_moved gives the hypothesis of the others for a definition that is moved; C116_condition shows why the condition of the task may not use it. Values that come out of env are expanded a second time (C29), which is why they are mentioned in the hypotheses."
  },
  {
   "property": "C117",
   "status": "proved",
   "theorems": [
    "Bab.C117_same",
    "Bab.C117_process",
    "Bab.C117_success",
    "Bab.C117_accepted",
    "Bab.C117_nothing_left",
    "Bab.C117_still_checked"
   ],
   "note": "C117_nothing_left shows why the condition of C117_success is needed: a task with items but none for this platform fails, a task without items does not. What stands inside of a parallel block is left as it is, because platforms are not looked at there."
  },
  {
   "property": "C118",
   "status": "partial",
   "theorems": [
    "Bab.C118_own_partial",
    "Bab.C118_never",
    "Bab.C118_commands_partial",
    "Bab.C118_off",
    "Bab.C118_dry",
    "Bab.C118_message_on_stdout",
    "Bab.C118_view_keeps_output"
   ],
   "note": "Partial because the code violates the full statement in two ways: C118_message_on_stdout (messages in blocks) and C118_view_keeps_output (output of commands in a view). What the libraries draw for prompts and for the picker is not modelled."
  },
  {
   "property": "C119",
   "status": "proved",
   "theorems": [
    "Bab.C119_same",
    "Bab.C119_moved",
    "Bab.C119_silent_stays",
    "Bab.C119_env_stays"
   ],
   "note": "C119_silent_stays and C119_env_stays show where the property ends: silent (and output) of a task cannot be moved to its commands because what a caller says comes between, and env cannot because it is expanded twice at the task (finding 4)."
  },
  {
   "property": "C12",
   "status": "proved",
   "theorems": [
    "Bab.C12_dependencies_first"
   ],
   "note": ""
  },
  {
   "property": "C120",
   "status": "proved",
   "theorems": [
    "Bab.C120_silent",
    "Bab.C120_processes"
   ],
   "note": "The line that sums up a parallel block in a view also depends on silent; it is not an event of the model (C97 describes it)."
  },
  {
   "property": "C121",
   "status": "proved",
   "theorems": [
    "Bab.C121_output",
    "Bab.C121_commands",
    "Bab.C121_input_lost"
   ],
   "note": "How a process ends is chosen by its environment; that a command could itself behave differently because its output is discarded or it cannot read is outside the model."
  },
  {
   "property": "C122",
   "status": "proved",
   "theorems": [
    "Bab.C122_same",
    "Bab.C122_process",
    "Bab.C122_success",
    "Bab.C122_accepted",
    "Bab.C122_shared",
    "Bab.C122_skipped"
   ],
   "note": "Prompts are excluded (Unasked); settings silent and output are passed on by calls and not by dependencies, so announcements and the place of output may differ (C31)."
  },
  {
   "property": "C123",
   "status": "proved",
   "theorems": [
    "Bab.C123_same",
    "Bab.C123_process",
    "Bab.C123_success",
    "Bab.C123_accepted",
    "Bab.C123_nothing_left"
   ],
   "note": "Items inside of parallel blocks are not left out: their conditions and platforms are not looked at (findings). Prompts are excluded (Unasked)."
  },
  {
   "property": "C124",
   "status": "proved",
   "theorems": [
    "Bab.C124_text",
    "Bab.C124_condition",
    "Bab.C124_command",
    "Bab.C124_all",
    "Bab.C124_around",
    "Bab.C124_value",
    "Bab.C124_empty"
   ],
   "note": "Texts without NUL (see C01). About single texts and commands, not about definitions of variables."
  },
  {
   "property": "C125",
   "status": "proved",
   "theorems": [
    "Bab.C125_same",
    "Bab.C125_messages",
    "Bab.C125_process",
    "Bab.C125_success",
    "Bab.C125_accepted",
    "Bab.C125_inline",
    "Bab.C125_blank"
   ],
   "note": "Prompts are excluded (Unasked). Definitions of variables are the same in both (see C116 for those)."
  },
  {
   "property": "C126",
   "status": "proved",
   "theorems": [
    "Bab.C126_task",
    "Bab.C126_global",
    "Bab.C126_same",
    "Bab.C126_nonsense"
   ],
   "note": "The conclusions about processes and success are those of C116_process and C116_success, which apply to the relation shown. Prompts are excluded (Unasked)."
  },
  {
   "property": "C127",
   "status": "proved",
   "theorems": [
    "Bab.C127_same",
    "Bab.C127_process",
    "Bab.C127_success",
    "Bab.C127_global",
    "Bab.C127_global_process",
    "Bab.C127_global_success",
    "Bab.C127_limits"
   ],
   "note": "For variables whose name occurs in no other definition of a variable, texts and values without NUL. The values of variables for all tasks are those worked out when the program starts. Prompts are excluded (Unasked)."
  },
  {
   "property": "C13",
   "status": "proved",
   "theorems": [
    "Bab.C13_declared_order"
   ],
   "note": ""
  },
  {
   "property": "C14",
   "status": "proved",
   "theorems": [
    "Bab.C14_failure_stops",
    "Bab.C14_dependency_failure_stops",
    "Bab.C14_failure_is_reported"
   ],
   "note": ""
  },
  {
   "property": "C15",
   "status": "proved",
   "theorems": [
    "Bab.C15_no_swallowed_failure"
   ],
   "note": ""
  },
  {
   "property": "C16",
   "status": "proved",
   "theorems": [
    "Bab.C16_done_means_executed",
    "Bab.C16_success_means_done",
    "Bab.C16_cancelled_block_reports_success"
   ],
   "note": "Proved without cancellation; with cancellation the code violates it, see the witness theorem."
  },
  {
   "property": "C17",
   "status": "proved",
   "theorems": [
    "Bab.C17_terminates",
    "Bab.C17_recursion_is_bounded"
   ],
   "note": "External commands and prompts are assumed to return."
  },
  {
   "property": "C18",
   "status": "proved",
   "theorems": [
    "Bab.C18_no_cycle_error"
   ],
   "note": ""
  },
  {
   "property": "C19",
   "status": "partial",
   "theorems": [
    "Bab.C19_separate_partial",
    "Bab.C19_disjoint_partial",
    "Bab.C19_accepted_partial",
    "Bab.C19_spurious_cycle"
   ],
   "note": "The code violates the property (C19_spurious_cycle). What holds for every schedule: no such error when items share only direct dependencies of items (C19_separate_partial), in particular nothing (C19_disjoint_partial)."
  },
  {
   "property": "C20",
   "status": "proved",
   "theorems": [
    "Bab.C20_dry_run_has_no_effects",
    "Bab.C20_reports_only_in_dry_run",
    "Bab.Sample.C20_prompt_sets_nothing"
   ],
   "note": ""
  },
  {
   "property": "C21",
   "status": "proved",
   "theorems": [
    "Bab.C21_other_platforms_never_run",
    "Bab.C21_blocks_ignore_item_platforms",
    "Bab.C21_no_items_error",
    "Bab.C21_all_excluded_fails"
   ],
   "note": "Inside parallel blocks the code ignores platforms, see the witness theorem."
  },
  {
   "property": "C22",
   "status": "proved",
   "theorems": [
    "Bab.C22_item_condition",
    "Bab.C22_condition_holds_for_the_item",
    "Bab.C22_skipped_task_does_nothing",
    "Bab.C22_task_condition",
    "Bab.C22_blocks_ignore_item_conditions",
    "Bab.C22_blocks_run_dependencies_of_skipped_tasks"
   ],
   "note": "Inside parallel blocks the code violates it, see the witness theorems."
  },
  {
   "property": "C23",
   "status": "proved",
   "theorems": [
    "Bab.C23_limit",
    "Bab.C23_no_limit"
   ],
   "note": ""
  },
  {
   "property": "C24",
   "status": "proved",
   "theorems": [
    "Bab.C24_block_waits"
   ],
   "note": ""
  },
  {
   "property": "C25",
   "status": "proved",
   "theorems": [
    "Bab.C25_no_deadlock"
   ],
   "note": ""
  },
  {
   "property": "C26",
   "status": "proved",
   "theorems": [
    "Bab.C26_nothing_starts_after_cancellation"
   ],
   "note": "The context check and the start of the process are one step of the model."
  },
  {
   "property": "C27",
   "status": "proved",
   "theorems": [
    "Bab.C27_own_variables",
    "Bab.C27_isolated",
    "Bab.C27_global_variables",
    "Bab.C27_block_variables",
    "Bab.C27_answer_leaks"
   ],
   "note": "Answers leak out of tasks without vars block, see the witness theorem; all other names and tasks are isolated."
  },
  {
   "property": "C28",
   "status": "proved",
   "theorems": [
    "Bab.C28_environment",
    "Bab.C28_colours"
   ],
   "note": "Environment as list of pairs, last duplicate wins (os/exec)."
  },
  {
   "property": "C29",
   "status": "partial",
   "theorems": [
    "Bab.C29_item_env_exact",
    "Bab.C29_item_env_once",
    "Bab.C29_task_env_partial",
    "Bab.C29_expanded_twice"
   ],
   "note": "Proved for item env; the code expands task and global env twice, shown by the witness theorem; for those it holds for values without `${{` after one expansion."
  },
  {
   "property": "C30",
   "status": "proved",
   "theorems": [
    "Bab.C30_resolveDir",
    "Bab.C30_default",
    "Bab.C30_directory",
    "Bab.C30_missing_directory"
   ],
   "note": "For absolute Babfile paths, which the command line ensures."
  },
  {
   "property": "C31",
   "status": "proved",
   "theorems": [
    "Bab.C31_output",
    "Bab.C31_block_output",
    "Bab.C31_echo",
    "Bab.C31_heading",
    "Bab.Sample.C31_dependencies_in_blocks"
   ],
   "note": ""
  },
  {
   "property": "C32",
   "status": "proved",
   "theorems": [
    "Bab.C32_included_tasks",
    "Bab.C32_references_stay_valid",
    "Bab.C32_parse"
   ],
   "note": "The file system is a finite map from cleaned absolute paths to contents (no symlinks)."
  },
  {
   "property": "C33",
   "status": "partial",
   "theorems": [
    "Bab.C33_settings",
    "Bab.C33_items_partial",
    "Bab.Sample.C33_block_settings_lost",
    "Bab.Sample.C33_condition_when_included",
    "Bab.Sample.C33_variables_when_included",
    "Bab.Sample.C33_answers_when_included"
   ],
   "note": "The code loses silent and output of parallel blocks (witness theorem); everything else is proved to be kept."
  },
  {
   "property": "C34",
   "status": "proved",
   "theorems": [
    "Bab.C34_terminates",
    "Bab.C34_cycle_rejected",
    "Bab.C34_circular_is_real",
    "Bab.C34_circular_error",
    "Bab.C35_loads"
   ],
   "note": ""
  },
  {
   "property": "C35",
   "status": "proved",
   "theorems": [
    "Bab.C35_loads",
    "Bab.C35_exactly_the_union",
    "Bab.C35_order_independent",
    "Bab.C35_collision_is_real"
   ],
   "note": ""
  },
  {
   "property": "C36",
   "status": "proved",
   "theorems": [
    "Bab.C36_missing_task",
    "Bab.C36_no_dangling"
   ],
   "note": ""
  },
  {
   "property": "C37",
   "status": "proved",
   "theorems": [
    "Bab.C37_cycles_exact",
    "Bab.C37_accepted_ranked",
    "Bab.C37_terminates"
   ],
   "note": ""
  },
  {
   "property": "C38",
   "status": "partial",
   "theorems": [
    "Bab.C38_first_cycle_partial",
    "Bab.C38_paths_partial",
    "Bab.Sample.C38_false_report",
    "Bab.Sample.C38_overwritten"
   ],
   "note": "The code violates the property in two ways (witness theorems). Proved for the first report as it is when reported; every chain is a path of references when reported."
  },
  {
   "property": "C39",
   "status": "proved",
   "theorems": [
    "Bab.C39_unambiguous",
    "Bab.C39_resolve"
   ],
   "note": ""
  },
  {
   "property": "C40",
   "status": "proved",
   "theorems": [
    "Bab.Yaml.C40_entry",
    "Bab.Yaml.C40_one_kind",
    "Bab.Yaml.C40_items",
    "Bab.Yaml.C40_told",
    "Bab.Yaml.C40_task",
    "Bab.Yaml.C40_file",
    "Bab.Yaml.C40_no_task_missing",
    "Bab.Yaml.C40_rejected",
    "Bab.Yaml.C40_fuel",
    "Bab.Yaml.C40_files_wf",
    "Bab.Yaml.C40_run_given_twice",
    "Bab.Yaml.C40_tasks_given_twice",
    "Bab.Yaml.C40_alias_name",
    "Bab.Yaml.Sample.C40_foreign_keys",
    "Bab.Yaml.Sample.C40_merge_key"
   ],
   "note": "for every YAML tree and every node.Decode; also shows that keys given twice count only the last time and that YAML aliases are read as their names"
  },
  {
   "property": "C41",
   "status": "proved",
   "theorems": [
    "Bab.Yaml.C41_block"
   ],
   "note": "for every YAML tree"
  },
  {
   "property": "C42",
   "status": "partial",
   "theorems": [
    "Bab.Yaml.C42_askable_partial",
    "Bab.Yaml.C42_default_out_of_range",
    "Bab.Yaml.C42_unanswerable"
   ],
   "note": "everything except the range of number defaults, which the code does not check: C42_default_out_of_range disproves the full statement C42_full"
  },
  {
   "property": "C43",
   "status": "proved",
   "theorems": [
    "Bab.Forms.C43_declared",
    "Bab.Forms.C43_unique",
    "Bab.Forms.C43_password",
    "Bab.Forms.C43_among_options",
    "Bab.Forms.C43_run",
    "Bab.Forms.C43_default_ignores_bounds"
   ],
   "note": "for every declaration and for every run of the runner without a terminal"
  },
  {
   "property": "C44",
   "status": "proved",
   "theorems": [
    "Bab.C44_lines",
    "Bab.C44_lines_unique",
    "Bab.C44_chunking",
    "Bab.C44_nothing_lost"
   ],
   "note": "For every cleaning function; write errors of the terminal are not modelled."
  },
  {
   "property": "C45",
   "status": "proved",
   "theorems": [
    "Bab.C45_whole_lines",
    "Bab.C45_nested",
    "Bab.C45_finished",
    "Bab.C45_no_deadlock"
   ],
   "note": "Terminal written byte by byte, any number of goroutines, nested blocks; label prefixes and mutexes are parameters with the block structure as hypothesis."
  },
  {
   "property": "C46",
   "status": "partial",
   "theorems": [
    "Bab.C46_last_segment",
    "Bab.C46_plain_partial",
    "Bab.C46_crlf_lost"
   ],
   "note": "The code violates the property for CRLF (the text is dropped, proved for every text); proved for every other line."
  },
  {
   "property": "C47",
   "status": "partial",
   "theorems": [
    "Bab.C47_no_control_partial",
    "Bab.C47_only_colours",
    "Bab.C47_text",
    "Bab.C47_idempotent",
    "Bab.C47_no_escape",
    "Bab.C47_csi_survives",
    "Bab.C47_c1_survives",
    "Bab.C47_colour_off",
    "Bab.C47_clean_text",
    "Bab.C47_colour_on",
    "Bab.C47_colour_off_unsafe"
   ],
   "note": "Control characters above 0x7f survive, and with color: false others as well (witness theorems). The decoder of the library is a parameter; idempotence needs that it reads sequences as the standard says (Regular, met by dec2)."
  },
  {
   "property": "C48",
   "status": "proved",
   "theorems": [
    "Bab.C48_keys_distinct"
   ],
   "note": ""
  },
  {
   "property": "C49",
   "status": "proved",
   "theorems": [
    "Bab.C49_palette",
    "Bab.C49_dim"
   ],
   "note": ""
  },
  {
   "property": "C50",
   "status": "proved",
   "theorems": [
    "Bab.C50_best",
    "Bab.C50_order_independent",
    "Bab.C50_score",
    "Bab.Sample.C50_short_candidate"
   ],
   "note": "strings.ToLower is a parameter."
  },
  {
   "property": "C51",
   "status": "proved",
   "theorems": [
    "Bab.C51_nearest",
    "Bab.C51_unique"
   ],
   "note": "The working directory is a clean absolute path."
  },
  {
   "property": "C52",
   "status": "proved",
   "theorems": [
    "Bab.Update.C52_never_partial",
    "Bab.Update.C52_reader",
    "Bab.Update.C52_present",
    "Bab.Update.C52_publishes_own",
    "Bab.Update.C52_reused_name"
   ],
   "note": "Any number of processes, crashes anywhere. Assumes that the random names of temporary files do not recur; Update.C52_reused_name shows what happens if one does."
  },
  {
   "property": "C53",
   "status": "proved",
   "theorems": [
    "Bab.Update.C53_notice",
    "Bab.Update.C53_not_itself",
    "Bab.Update.C53_refresh",
    "Bab.Update.C53_request",
    "Bab.Update.C53_force"
   ],
   "note": "Version comparison, JSON decoding, clock and HTTP are parameters."
  },
  {
   "property": "C54",
   "status": "proved",
   "theorems": [
    "Bab.C54_exit",
    "Bab.C54_cause",
    "Bab.C54_zero_means_success",
    "Bab.C54_messages"
   ],
   "note": ""
  },
  {
   "property": "C55",
   "status": "proved",
   "theorems": [
    "Bab.Picker.C55_cursor",
    "Bab.Picker.C55_marked",
    "Bab.Picker.C55_enter",
    "Bab.Picker.C55_selected_exists",
    "Bab.Picker.C55_search",
    "Bab.Picker.C55_once",
    "Bab.Picker.C55_ranked",
    "Bab.Picker.C55_exact_alias_first",
    "Bab.Picker.C55_order_independent"
   ],
   "note": "The fuzzy matching library is a parameter."
  },
  {
   "property": "C56",
   "status": "proved",
   "theorems": [
    "Bab.View.C56_lines",
    "Bab.View.C56_clear",
    "Bab.View.C56_cancel_once",
    "Bab.View.growing_register"
   ],
   "note": "Keys of registered children are longer than those of their parents, which View.growing_register shows for the keys the runner uses."
  },
  {
   "property": "C57",
   "status": "proved",
   "theorems": [
    "Bab.View.C57_active",
    "Bab.View.C57_inverse",
    "Bab.View.C57_roots_present",
    "Bab.View.nested_not_root"
   ],
   "note": ""
  },
  {
   "property": "C58",
   "status": "proved",
   "theorems": [
    "Bab.C58_completions",
    "Bab.C58_no_duplicates",
    "Bab.C58_order_independent"
   ],
   "note": "Names contain no tab, which separates name and description."
  },
  {
   "property": "C59",
   "status": "proved",
   "theorems": [
    "Bab.C59_rows",
    "Bab.C59_sorted",
    "Bab.C59_once",
    "Bab.C59_order_independent"
   ],
   "note": ""
  },
  {
   "property": "C60",
   "status": "proved",
   "theorems": [
    "Bab.Forms.C60_answer_fits",
    "Bab.Forms.C60_password_twice",
    "Bab.Forms.C60_abort",
    "Bab.Forms.C60_no_form_without_terminal",
    "Bab.Forms.C60_empty_number"
   ],
   "note": "except that a number prompt with a default accepts the empty text, shown by C60_empty_number; the form library is a parameter that respects its checks"
  },
  {
   "property": "C61",
   "status": "proved",
   "theorems": [
    "Bab.Json.C61_valid_is_read",
    "Bab.Json.C61_read_iff",
    "Bab.Json.C61_without_prompts",
    "Bab.Json.C61_names",
    "Bab.Json.C61_name_pattern",
    "Bab.Json.C61_rejected_though_valid",
    "Bab.Json.C61_read_though_invalid",
    "Bab.Json.C61_include_names",
    "Bab.Json.C61_prompt_basics",
    "Bab.Json.C61_variables"
   ],
   "note": "The schema as data, validity as a function on YAML trees; both directions for prompts; witnesses for the disagreements."
  },
  {
   "property": "C62",
   "status": "proved",
   "theorems": [
    "Bab.C62_confined",
    "Bab.C62_processes",
    "Bab.C62_others_irrelevant",
    "Bab.C62_same_symm"
   ],
   "note": "every event of every execution; simulation between the programs of two task maps"
  },
  {
   "property": "C63",
   "status": "proved",
   "theorems": [
    "Bab.C63_explained",
    "Bab.C63_accepted_ready",
    "Bab.C63_accepted",
    "Bab.Sample.C63_blank_command"
   ],
   "note": "for every execution; the trace before the failure or the definitions hold the explanation; a command of blanks is accepted and fails only when it runs (C63_blank_command)"
  },
  {
   "property": "C64",
   "status": "proved",
   "theorems": [
    "Bab.C64_load",
    "Bab.C64_nothing_runs",
    "Bab.C64_validate",
    "Bab.C64_list",
    "Bab.C64_task",
    "Bab.C64_picked",
    "Bab.C64_alias",
    "Bab.C64_unknown",
    "Bab.C64_nearest",
    "Bab.C64_dry_run",
    "Bab.C64_completion",
    "Bab.C64_script",
    "Bab.Sample.C64_validate_misses_variables",
    "Bab.Sample.C64_blank_alias"
   ],
   "note": "cobra's parsing of flags is not modelled; that --validate does not look at global variables is shown by C64_validate_misses_variables"
  },
  {
   "property": "C65",
   "status": "proved",
   "theorems": [
    "Bab.C65_same",
    "Bab.C65_completion",
    "Bab.C65_same_runs"
   ],
   "note": "which message is shown when loading fails may depend on the order (C38)"
  },
  {
   "property": "C66",
   "status": "partial",
   "theorems": [
    "Bab.C66_same_file",
    "Bab.C66_elsewhere",
    "Bab.C66_below",
    "Bab.C66_text",
    "Bab.C66_errors",
    "Bab.C66_line_partial",
    "Bab.C66_place_partial",
    "Bab.C66_first",
    "Bab.C66_dep_reported",
    "Bab.C66_call_reported",
    "Bab.Sample.C66_wrong_file",
    "Bab.Sample.C66_colon"
   ],
   "note": "the line is always right; the file is right if nothing is included, and wrong otherwise, shown by C66_wrong_file"
  },
  {
   "property": "C67",
   "status": "proved",
   "theorems": [
    "Bab.C67_variables",
    "Bab.C67_included",
    "Bab.C67_effects",
    "Bab.C67_result",
    "Bab.C67_exit_status"
   ],
   "note": "for files under a root without settings and for tasks that meet the conditions of Portable; without each of them it is false: C33_condition_when_included, C33_variables_when_included, C33_answers_when_included, C33_block_settings_lost"
  },
  {
   "property": "C68",
   "status": "proved",
   "theorems": [
    "Bab.View.C68_items",
    "Bab.View.C68_handled",
    "Bab.View.C68_grouped",
    "Bab.View.C68_titles",
    "Bab.View.C68_tabs",
    "Bab.View.C68_tab_nested",
    "Bab.View.C68_tab_lines",
    "Bab.View.C68_summary",
    "Bab.View.C68_summary_nested",
    "Bab.View.C68_end",
    "Bab.View.Sample.C68_tab_of_silent_item"
   ],
   "note": "a message counts as handled when it is sent; what a tab says about an item without output is not part of the claim: C68_tab_of_silent_item shows that it can say Running after the end"
  },
  {
   "property": "C69",
   "status": "partial",
   "theorems": [
    "Bab.Picker.C69_text",
    "Bab.Picker.C69_name",
    "Bab.Picker.C69_rows",
    "Bab.Picker.C69_fits",
    "Bab.Picker.C69_separator",
    "Bab.Picker.C69_alias_marked",
    "Bab.Picker.C69_alias_place_partial",
    "Bab.Picker.Sample.C69_wrong_alias"
   ],
   "note": "The alias that is highlighted is the right text, but it is highlighted at its first occurrence among the aliases, which is the wrong place if it is part of an earlier alias (counterexample). Everything else is proved."
  },
  {
   "property": "C70",
   "status": "proved",
   "theorems": [
    "Bab.C70_way",
    "Bab.C70_reports",
    "Bab.C70_printed",
    "Bab.C70_quote",
    "Bab.C70_readable"
   ],
   "note": "texts from the operating system and libraries and of unknown tasks are parameters; where two failures are possible the specification allows both"
  },
  {
   "property": "C71",
   "status": "proved",
   "theorems": [
    "Bab.C71_task",
    "Bab.C71_announced",
    "Bab.C71_once",
    "Bab.C71_items",
    "Bab.C71_output",
    "Bab.C71_one_call",
    "Bab.C71_different",
    "Bab.C71_never_raw",
    "Bab.C71_view"
   ],
   "note": ""
  },
  {
   "property": "C72",
   "status": "partial",
   "theorems": [
    "Bab.C72_message",
    "Bab.C72_way",
    "Bab.C72_circle",
    "Bab.C72_chain_partial",
    "Bab.C72_parse",
    "Bab.C72_names",
    "Bab.Sample.C72_wrong_chain"
   ],
   "note": "The files in front of the message are proved to be the way to the file at fault. The chain given after 'circular include:' is the sorted list of the base names of all files on the way, so it is not the circle (counterexample); proved is which files it names. Texts of reading and YAML errors are parameters."
  },
  {
   "property": "C73",
   "status": "partial",
   "theorems": [
    "Bab.C73_use",
    "Bab.C73_cycle",
    "Bab.C73_printed",
    "Bab.C73_cycle_printed",
    "Bab.C73_file_partial",
    "Bab.C73_included"
   ],
   "note": "The line is proved right for every execution. The file is right for Babfiles that include nothing; for tasks of included files the message names the main file (counterexample). That items and tasks carry the lines of their YAML nodes is part of C40_entry and C40_file."
  },
  {
   "property": "C74",
   "status": "proved",
   "theorems": [
    "Bab.Yaml.C74_reports",
    "Bab.Yaml.C74_accepted",
    "Bab.Yaml.C74_item",
    "Bab.Yaml.C74_together",
    "Bab.Yaml.C74_tasks",
    "Bab.Yaml.C74_place",
    "Bab.Yaml.C74_shown",
    "Bab.Yaml.C74_begins",
    "Bab.Yaml.C74_load",
    "Bab.Yaml.C74_same_name",
    "Bab.Yaml.C74_cause_alone",
    "Bab.Yaml.C74_hidden"
   ],
   "note": "What counts as a problem is a specification on YAML trees (Spec/Faults); it says where one problem keeps another from being looked at. The texts of node.Decode and regexp errors are parameters."
  },
  {
   "property": "C75",
   "status": "proved",
   "theorems": [
    "Bab.Yaml.C75_place",
    "Bab.Yaml.C75_line",
    "Bab.Yaml.C75_no_line",
    "Bab.Yaml.C75_reason",
    "Bab.Yaml.C75_load",
    "Bab.Yaml.C75_mention_is_cut"
   ],
   "note": "C75_line and C75_no_line are for messages that do not mention a further line; such a mention is cut out (C75_mention_is_cut). The messages of yaml.v3 about syntax have none."
  },
  {
   "property": "C76",
   "status": "proved",
   "theorems": [
    "Bab.C76_plan",
    "Bab.C76_order",
    "Bab.C76_possible",
    "Bab.C76_unique",
    "Bab.C76_same"
   ],
   "note": "The plan is an inductive specification (Spec/Plan) of what a task means when nothing it needs asks or runs in parallel. Like in the whole model, the files and the environment bab itself looks at do not change during an invocation."
  },
  {
   "property": "C77",
   "status": "proved",
   "theorems": [
    "Bab.C77_dry_run",
    "Bab.C77_calls_not_shown",
    "Bab.C77_prompt_fails"
   ],
   "note": "The claim is about tasks that need no prompts, parallel blocks and calls in items. Beyond that it is false: a dry run only names called tasks (C77_calls_not_shown) and fails where the answer of a prompt is used (C77_prompt_fails)."
  },
  {
   "property": "C78",
   "status": "proved",
   "theorems": [
    "Bab.C78_only",
    "Bab.C78_all",
    "Bab.C78_same",
    "Bab.C78_part",
    "Bab.C78_process",
    "Bab.C78_ahead"
   ],
   "note": "What is due is defined by its own inductive relation (Spec/Due). Prompts are excluded because their answers come from outside. Whether a run succeeds is not determined, see C19."
  },
  {
   "property": "C79",
   "status": "proved",
   "theorems": [
    "Bab.C79_works",
    "Bab.C79_success",
    "Bab.C79_exact",
    "Bab.C79_again",
    "Bab.C79_accepted"
   ],
   "note": "Both directions, so success is characterised exactly. That items keep out of each other's way is a hypothesis because otherwise the code can fail with a spurious cycle (C19_spurious_cycle)."
  },
  {
   "property": "C80",
   "status": "proved",
   "theorems": [
    "Bab.C80_command",
    "Bab.C80_message",
    "Bab.C80_dry_run",
    "Bab.C80_prompt",
    "Bab.C80_invoked"
   ],
   "note": "Stated on the YAML trees (Spec/Document). How YAML text becomes a tree is not modelled."
  },
  {
   "property": "C81",
   "status": "proved",
   "theorems": [
    "Bab.C81_exact",
    "Bab.C81_completion",
    "Bab.C81_picked"
   ],
   "note": "Names with a tab are excluded for completion, because there a tab separates the name from its description."
  },
  {
   "property": "C82",
   "status": "proved",
   "theorems": [
    "Bab.C82_done",
    "Bab.C82_requested"
   ],
   "note": "The converse of C80, on the YAML trees (Spec/Complete). Interruptions are excluded because of C16_cancelled_block_reports_success; a key that is given twice counts the last time (C40_run_given_twice), and merge keys are not read (C40_merge_key)."
  },
  {
   "property": "C83",
   "status": "proved",
   "theorems": [
    "Bab.C83_exit_status",
    "Bab.C83_works"
   ],
   "note": "Composition of C64, C63, C37, C79 and C54. The conditions on prompts and parallel blocks are those of C79."
  },
  {
   "property": "C84",
   "status": "proved",
   "theorems": [
    "Bab.C84_no_orphan",
    "Bab.C84_all_ends",
    "Bab.C84_task"
   ],
   "note": "A process is the one bab starts (the shell); for what it starts itself see C85."
  },
  {
   "property": "C85",
   "status": "partial",
   "theorems": [
    "Bab.C85_all_killed",
    "Bab.C85_others_spared",
    "Bab.C85_can_cancel",
    "Bab.C85_windows_leaves",
    "Bab.C85_number_reused"
   ],
   "note": "Holds on Unix for a process that has not been waited for, up to processes that leave the process group on their own account. Fails on Windows, and in the moment between waiting for the process and asking the watching goroutine, when the number may have been reused."
  },
  {
   "property": "C86",
   "status": "partial",
   "theorems": [
    "Bab.C86_reading_stops",
    "Bab.C86_input_partial"
   ],
   "note": "Fails on Unix: every command is put in a process group in the background and is stopped when it reads from the terminal. The part that holds: without a process group of its own."
  },
  {
   "property": "C87",
   "status": "partial",
   "theorems": [
    "Bab.C87_background_blocks",
    "Bab.C87_ends_partial",
    "Bab.C87_ends_unpiped",
    "Bab.C87_piped_iff"
   ],
   "note": "Fails if a command whose output comes through a pipe has left a process in the background that holds the pipe. Proved for everything else on Unix."
  },
  {
   "property": "C88",
   "status": "proved",
   "theorems": [
    "Bab.C88_sh_verified",
    "Bab.C88_sh_accepts",
    "Bab.C88_openssl_useless"
   ],
   "note": "The name is matched as a regular expression in which only the dot is special. A hash computed by openssl is never accepted (a defect, but on the safe side)."
  },
  {
   "property": "C89",
   "status": "partial",
   "theorems": [
    "Bab.C89_place",
    "Bab.C89_installed_partial",
    "Bab.C89_elsewhere",
    "Bab.C89_prerelease"
   ],
   "note": "Fails if a bab of the same version is found anywhere in PATH, or a pre-release of the version. Proved otherwise. The same comparison is in install.ps1."
  },
  {
   "property": "C90",
   "status": "proved",
   "theorems": [
    "Bab.C90_sh_name",
    "Bab.C90_sh_known",
    "Bab.C90_ps_name",
    "Bab.C90_ps_missing"
   ],
   "note": "Beyond the claim: install.ps1 calls ARM64 and x86 supported and asks for archives no release has."
  },
  {
   "property": "C91",
   "status": "partial",
   "theorems": [
    "Bab.C91_ps_unverified",
    "Bab.C91_ps_unlisted",
    "Bab.C91_ps_verified_partial"
   ],
   "note": "Fails if the checksum file cannot be got, does not mention the archive, or the hash cannot be computed."
  },
  {
   "property": "C92",
   "status": "partial",
   "theorems": [
    "Bab.C92_no_data_race_partial",
    "Bab.C92_own_variables",
    "Bab.C92_data_race"
   ],
   "note": "Fails: answers of prompts in tasks without vars are written to the shared map. Proved for all files in which no item of a block may run such a task while another item may run a task; the dependencies of the items, which are run before, do not count. In particular if every task with prompts has a vars block."
  },
  {
   "property": "C93",
   "status": "partial",
   "theorems": [
    "Bab.C93_one_question_partial",
    "Bab.C93_no_question_in_block_partial",
    "Bab.C93_two_questions"
   ],
   "note": "Fails: tasks called by the items of a block may prompt. Proved if at most one item (no item) of each block may run a task with a prompt; dependencies of the items do not count."
  },
  {
   "property": "C94",
   "status": "partial",
   "theorems": [
    "Bab.C94_no_control",
    "Bab.C94_keeps_lines",
    "Bab.C94_own_lines_partial",
    "Bab.C94_prefix_partial",
    "Bab.C94_label_newline",
    "Bab.C94_aligned",
    "Bab.C94_text",
    "Bab.C94_whole_characters",
    "Bab.C94_raw_csi"
   ],
   "note": "Fails for items whose label has a newline in it (commands of several lines without a label). Proved for all bytes and all other labels. With color: false it is assumed that ansi.Strip adds no newline. The byte 0x9b alone passes."
  },
  {
   "property": "C95",
   "status": "proved",
   "theorems": [
    "Bab.C95_reads",
    "Bab.C95_one_reading",
    "Bab.C95_same_meaning",
    "Bab.C95_unknown",
    "Bab.C95_dry_run",
    "Bab.C95_dry_anywhere",
    "Bab.C95_dashes",
    "Bab.C95_first_word",
    "Bab.C95_help",
    "Bab.C95_empty_value",
    "Bab.C95_switch",
    "Bab.C95_text",
    "Bab.C95_no_others"
   ],
   "note": "What pflag and cobra do is taken from their documentation and source; __complete and -test. arguments are left out. Words after the first are ignored, and an empty value of --completion counts as not given."
  },
  {
   "property": "C96",
   "status": "partial",
   "theorems": [
    "Bab.C96_messages_partial",
    "Bab.C96_command_line_partial",
    "Bab.C96_always",
    "Bab.C96_debug_in_block"
   ],
   "note": "Fails: messages of level debug in parallel blocks, or in tasks run in one, are printed without --verbose. Proved for all files without such messages; all other messages are always printed."
  },
  {
   "property": "C97",
   "status": "proved",
   "theorems": [
    "Bab.C97_summary",
    "Bab.C97_tick",
    "Bab.C97_one_sign",
    "Bab.C97_result"
   ],
   "note": "Colours and styles of the line are left out, and whether the line is printed at all (silent)."
  },
  {
   "property": "C98",
   "status": "partial",
   "theorems": [
    "Bab.Update.C98_once_a_day_partial",
    "Bab.Update.C98_announced",
    "Bab.Update.C98_stays",
    "Bab.Update.C98_short_runs"
   ],
   "note": "Fails for invocations that end before the answer has come, and for failed requests: nothing is saved, so the next invocation asks again. Proved for requests whose answer was saved, if the clock does not go back and invocations do not overlap."
  },
  {
   "property": "C99",
   "status": "proved",
   "theorems": [
    "Bab.C99_usage",
    "Bab.C99_flags",
    "Bab.C99_task",
    "Bab.C99_task_fails",
    "Bab.C99_picker",
    "Bab.C99_left"
   ],
   "note": "Composition of C95, C64, C54, C15 and C16. Assumed: errors in the text of a Babfile are not context.Canceled."
  }
 ]
}