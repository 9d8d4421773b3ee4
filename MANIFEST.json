{
 "claims": [
  {
   "property": "C01",
   "status": "partial",
   "theorems": [
    "LB.C01_session",
    "LB.C01_enter_line",
    "LB.C01_enter_zero_empty",
    "LB.C01_delete_line",
    "LB.C01_edits_partial",
    "LB.C05_zero_violated",
    "LB.C05_violated"
   ],
   "note": "typed lines: for numbers from 1 to 4294967295; outside that range it fails, shown by the last two theorems"
  },
  {
   "property": "C02",
   "status": "proved",
   "theorems": [
    "LB.C02_save_load",
    "LB.C02_long_line_not_reloadable"
   ],
   "note": "holds under the stated line-length condition, which is shown necessary"
  },
  {
   "property": "C03",
   "status": "proved",
   "theorems": [
    "LB.C03_load_iff",
    "LB.C03_load_total"
   ],
   "note": ""
  },
  {
   "property": "C04",
   "status": "proved",
   "theorems": [
    "LB.C04_list_range",
    "LB.C04_list_from",
    "LB.C04_list_paged",
    "LB.C04_paged_same"
   ],
   "note": ""
  },
  {
   "property": "C05",
   "status": "partial",
   "theorems": [
    "LB.C05_enter_partial",
    "LB.C05_delete_partial",
    "LB.C05_violated",
    "LB.C05_zero_violated"
   ],
   "note": "for numbers from 1 to 4294967295; fails otherwise, shown by the last two theorems"
  },
  {
   "property": "C06",
   "status": "proved",
   "theorems": [
    "LB.C06_index_exact",
    "LB.C06_compiled",
    "LB.C06_lineStart",
    "LB.C06_goto"
   ],
   "note": "C06_goto is for sessions without RENUM, in which line numbers are always distinct"
  },
  {
   "property": "C07",
   "status": "proved",
   "theorems": [
    "LB.C07_keyword_iff",
    "LB.C07_otherwise_name"
   ],
   "note": ""
  },
  {
   "property": "C08",
   "status": "proved",
   "theorems": [
    "LB.C08_prefix_iff",
    "LB.C08_prefix_length",
    "LB.C08_prefix_unique"
   ],
   "note": ""
  },
  {
   "property": "C09",
   "status": "proved",
   "theorems": [
    "LB.C09_next",
    "LB.C09_data",
    "LB.C09_terminates"
   ],
   "note": ""
  },
  {
   "property": "C10",
   "status": "proved",
   "theorems": [
    "LB.C10_name",
    "LB.C10_keyword",
    "LB.C10_name_anywhere",
    "LB.C10_string",
    "LB.C10_string_long"
   ],
   "note": ""
  },
  {
   "property": "C11",
   "status": "proved",
   "theorems": [
    "LB.C11_item",
    "LB.C11_statement"
   ],
   "note": ""
  },
  {
   "property": "C12",
   "status": "proved",
   "theorems": [
    "LB.C12_lookup",
    "LB.C12_case",
    "LB.C12_classes",
    "LB.C12_session",
    "LB.C12_identity",
    "LB.C12_resolve"
   ],
   "note": ""
  },
  {
   "property": "C13",
   "status": "partial",
   "theorems": [
    "LB.C13_access_inside",
    "LB.C13_session_partial",
    "LB.C13_violated_at_wrap"
   ],
   "note": "proved for every array of every session that has cells; fails for DIM A(4294967295), shown by the last theorem"
  },
  {
   "property": "C14",
   "status": "proved",
   "theorems": [
    "LB.C14_elements_separate"
   ],
   "note": ""
  },
  {
   "property": "C15",
   "status": "partial",
   "theorems": [
    "LB.C15_dim_partial",
    "LB.C15_dim_number_partial",
    "LB.C15_dim_string_partial",
    "LB.C15_auto_number_partial",
    "LB.C15_auto_string_partial",
    "LB.C15_auto_store_partial",
    "LB.C15_dim_wraps",
    "LB.C15_dim_divides_by_zero",
    "LB.C15_three_violated"
   ],
   "note": "fails when a largest subscript is 4294967295 and for three dimensions, shown by the last three theorems"
  },
  {
   "property": "C16",
   "status": "proved",
   "theorems": [
    "LB.C16_names_sorted_unique"
   ],
   "note": ""
  },
  {
   "property": "C17",
   "status": "partial",
   "theorems": [
    "LB.C17_for",
    "LB.C17_next_exit",
    "LB.C17_next_again",
    "LB.C17_iterations",
    "LB.C17_clear_in_loop"
   ],
   "note": "tracing option off; fails after CLEAR inside the loop, shown by the last theorem"
  },
  {
   "property": "C18",
   "status": "proved",
   "theorems": [
    "LB.C18_open_loops",
    "LB.C18_session_moment",
    "LB.C18_ninth_loop",
    "LB.C18_next_without_for",
    "LB.C17_for",
    "LB.C17_next_exit",
    "LB.C17_next_again"
   ],
   "note": ""
  },
  {
   "property": "C19",
   "status": "proved",
   "theorems": [
    "LB.C19_return",
    "LB.C19_return_without_gosub",
    "LB.C19_ninth_gosub",
    "LB.C19_gosub"
   ],
   "note": ""
  },
  {
   "property": "C20",
   "status": "proved",
   "theorems": [
    "LB.C20_goto_selected",
    "LB.C20_gosub_selected",
    "LB.C20_missing_line",
    "LB.C20_falls_through",
    "LB.C20_not_integer"
   ],
   "note": ""
  },
  {
   "property": "C21",
   "status": "proved",
   "theorems": [
    "LB.C21_else_taken",
    "LB.C21_then_taken",
    "LB.C21_else_skipped",
    "LB.C21_no_else",
    "LB.C21_line_number",
    "LB.C21_layout"
   ],
   "note": "C21_layout: all code ever run has the layout that the other theorems are about"
  },
  {
   "property": "C22",
   "status": "partial",
   "theorems": [
    "LB.C22_read_string",
    "LB.C22_read_number",
    "LB.C22_read_element",
    "LB.C22_exhausted",
    "LB.C22_not_number",
    "LB.C22_restore",
    "LB.C22_step",
    "LB.C22_run",
    "LB.C22_known",
    "LB.C22_session",
    "LB.C22_program",
    "LB.C22_typed",
    "LB.C22_typed_exhausted",
    "LB.C22_typed_restore",
    "LB.C22_text_partial"
   ],
   "note": "that the order of the items in the code is that in the text is proved for programs of the statements of C52: one or two subscripts, no name both that of a function and of an array assigned to"
  },
  {
   "property": "C23",
   "status": "partial",
   "theorems": [
    "LB.C23",
    "LB.C23_error",
    "LB.C23_halt",
    "LB.C23_refused",
    "LB.C23_session_partial",
    "LB.C23_leak"
   ],
   "note": "The call itself is proved for all bodies, arguments and machines, with success, error and halt of the body. In a session every call meets the hypotheses; that exactly one value is left is false when RND or TIME$ is given an argument with a type error (C23_leak), so the session theorem only says the value is on top."
  },
  {
   "property": "C24",
   "status": "partial",
   "theorems": [
    "LB.C24_partial",
    "LB.C24_direct",
    "LB.C24_violated"
   ],
   "note": "False as stated (C24_violated): the parameter keeps the argument, and after an error in a program calls are refused until RUN or a compilation. C24_partial describes what every failed call leaves; calls from typed statements leave functions usable."
  },
  {
   "property": "C25",
   "status": "proved",
   "theorems": [
    "LB.C25_short",
    "LB.C25_concat"
   ],
   "note": ""
  },
  {
   "property": "C26",
   "status": "proved",
   "theorems": [
    "LB.C26_left",
    "LB.C26_right",
    "LB.C26_mid",
    "LB.C26_mid_error",
    "LB.C26_len",
    "LB.C26_split",
    "LB.C49_refused"
   ],
   "note": "the limit of 255 characters is a hypothesis here; C25 is about it"
  },
  {
   "property": "C27",
   "status": "proved",
   "theorems": [
    "LB.C27_compare",
    "LB.C27_total",
    "LB.C27_order"
   ],
   "note": ""
  },
  {
   "property": "C28",
   "status": "partial",
   "theorems": [
    "LB.C28_chr",
    "LB.C28_chr_refused",
    "LB.C28_asc_chr_partial",
    "LB.C28_violated"
   ],
   "note": "fails for codes from 128 on, shown by the last theorem"
  },
  {
   "property": "C29",
   "status": "proved",
   "theorems": [
    "LB.C29_and",
    "LB.C29_or",
    "LB.C29_not",
    "LB.C29_refused",
    "LB.C29_compare",
    "LB.C29_connectives"
   ],
   "note": ""
  },
  {
   "property": "C30",
   "status": "proved",
   "theorems": [
    "LB.C30_item",
    "LB.C30_tab",
    "LB.C30_comma",
    "LB.C30_run",
    "LB.C49_accepted"
   ],
   "note": "tracing off; counter modulo 2^32; INPUT and CLS excluded"
  },
  {
   "property": "C31",
   "status": "partial",
   "theorems": [
    "LB.C31_accepted",
    "LB.C31_refused_partial",
    "LB.C31_until_accepted_partial",
    "LB.C31_violated"
   ],
   "note": "holds for scalar variables; fails for array elements, shown by the last theorem"
  },
  {
   "property": "C32",
   "status": "partial",
   "theorems": [
    "LB.C32_finishes_partial",
    "LB.C32_violated"
   ],
   "note": "fails whenever the line read last is not acceptable, shown by the last theorem"
  },
  {
   "property": "C33",
   "status": "proved",
   "theorems": [
    "LB.C33_unique",
    "LB.C33_val",
    "LB.C33_read",
    "LB.C33_input"
   ],
   "note": ""
  },
  {
   "property": "C34",
   "status": "partial",
   "theorems": [
    "LB.C34_partial",
    "LB.C34_violated"
   ],
   "note": "proved for sessions without RENUM whose last INPUT line buffers agree (C34_violated shows why) and for at most 65536 names"
  },
  {
   "property": "C35",
   "status": "partial",
   "theorems": [
    "LB.C35_resume",
    "LB.C35_refused_after_edit",
    "LB.C35_after_break_partial",
    "LB.C35_violated",
    "LB.C35_renum_violated"
   ],
   "note": "fails for an interrupt arriving after the last statement, and after RENUM, shown by the last two theorems"
  },
  {
   "property": "C36",
   "status": "partial",
   "theorems": [
    "LB.C36_renum_partial",
    "LB.C36_refused",
    "LB.C36_violated"
   ],
   "note": "fails when the first new number equals the number of the line before, shown by the last theorem"
  },
  {
   "property": "C37",
   "status": "partial",
   "theorems": [
    "LB.C37_renum_partial",
    "LB.C37_on_violated",
    "LB.C37_then_goto_violated",
    "LB.C37_comment_violated"
   ],
   "note": "the text of every line is the old one with exactly the references RENUM looks for changed to the new numbers of their lines, white space and everything else kept; fails for ON lists, for GOTO/GOSUB directly behind THEN/ELSE and for comments, shown by the other theorems"
  },
  {
   "property": "C38",
   "status": "partial",
   "theorems": [
    "LB.C38_code_current_partial",
    "LB.C38_between_commands_partial",
    "LB.C38_violated"
   ],
   "note": "fails after RENUM, shown by the last theorem"
  },
  {
   "property": "C39",
   "status": "partial",
   "theorems": [
    "LB.C39_compiles_partial",
    "LB.C39_evaluates_partial",
    "LB.C39_print_partial",
    "LB.C39_steady",
    "LB.C39_minus",
    "LB.C39_not_not",
    "LB.C39_val"
   ],
   "note": "expressions of numbers, strings, variables, elements of arrays with one or two subscripts, operators, parentheses and built-in functions including RND and TIME$; calls of user functions are treated in running programs only (C52); nothing is said about a subscript 4294967295 and a generator that never gives a number below 1; at most 65536 names and room on the evaluation stacks; NOT NOT compiles to nothing, as the last theorem shows"
  },
  {
   "property": "C40",
   "status": "partial",
   "theorems": [
    "LB.C40_partial",
    "LB.C40_run_partial",
    "LB.C40_violated"
   ],
   "note": "CONT must not resume inside a statement whose run ended with an error in the same instruction as an interrupt, or after another INPUT; at most 65536 names; the last theorem shows a failure"
  },
  {
   "property": "C41",
   "status": "partial",
   "theorems": [
    "LB.C41_compile_partial",
    "LB.C41_ordinary_partial",
    "LB.C41_data_violated",
    "LB.C41_long_violated",
    "LB.C41_read_violated"
   ],
   "note": "malformed DATA items and READ of a reserved function name end the process instead, as the last theorems show"
  },
  {
   "property": "C42",
   "status": "partial",
   "theorems": [
    "LB.C42_partial",
    "LB.C42_run_partial",
    "LB.C42_builtin_violated",
    "LB.C42_subscripts_violated",
    "LB.C42_size_violated",
    "LB.C42_divide_violated"
   ],
   "note": "fails for assignment to a built-in name, more than two subscripts and the subscript 4294967295, as the last theorems show; with and without tracing; CONT as in C40, at most 65536 names"
  },
  {
   "property": "C43",
   "status": "partial",
   "theorems": [
    "LB.C43_partial",
    "LB.C43_statements_partial",
    "LB.C43_violated"
   ],
   "note": "proved except that a statement may report a full evaluation stack (C43_violated shows that it does), for at most 65536 names"
  },
  {
   "property": "C44",
   "status": "proved",
   "theorems": [
    "LB.C44_clear",
    "LB.C44_scalars",
    "LB.C44_arrays",
    "LB.C44_functions",
    "LB.C44_run",
    "LB.C44_run_command",
    "LB.C44_new"
   ],
   "note": "CLEAR in every state of a session, RUN, NEW"
  },
  {
   "property": "C45",
   "status": "proved",
   "theorems": [
    "LB.C45_replace"
   ],
   "note": ""
  },
  {
   "property": "C46",
   "status": "partial",
   "theorems": [
    "LB.C46_command",
    "LB.C46_statement",
    "LB.C46_line_read",
    "LB.C46_long_line",
    "LB.C46_whole_lines_partial",
    "LB.C46_bye",
    "LB.C46_only_bye",
    "LB.C46_violated"
   ],
   "note": "fails for a line with a NUL character, shown by the last theorem"
  },
  {
   "property": "C47",
   "status": "proved",
   "theorems": [
    "LB.C47_get_number",
    "LB.C47_get_string",
    "LB.C47_let_number",
    "LB.C47_let_string",
    "LB.C47_other",
    "LB.C47_quiet",
    "LB.C47_last_number",
    "LB.C47_last_string",
    "LB.C17_for",
    "LB.C22_read_number",
    "LB.C22_read_string",
    "LB.C31_accepted"
   ],
   "note": "assignments by FOR, READ and INPUT are C17_for, C22_read_*, C31_accepted"
  },
  {
   "property": "C48",
   "status": "proved",
   "theorems": [
    "LB.C48_rnd",
    "LB.C48_returns"
   ],
   "note": "the generator is a parameter with its maximum between 1 and 2147483647"
  },
  {
   "property": "C49",
   "status": "proved",
   "theorems": [
    "LB.C49_refused",
    "LB.C49_accepted",
    "LB.C49_subscript_refused",
    "LB.C49_dim_refused",
    "LB.C49_subscript_accepted",
    "LB.C26_left",
    "LB.C26_right",
    "LB.C26_mid"
   ],
   "note": ""
  },
  {
   "property": "C50",
   "status": "proved",
   "theorems": [
    "LB.C50_within_limits",
    "LB.C50_push_number",
    "LB.C50_push_string",
    "LB.C18_ninth_loop"
   ],
   "note": ""
  },
  {
   "property": "C51",
   "status": "partial",
   "theorems": [
    "LB.C51_number",
    "LB.C51_else_violated"
   ],
   "note": "fails for a number directly followed by ELSE when keywords are recognised anywhere, shown by the last theorem"
  },
  {
   "property": "C52",
   "status": "partial",
   "theorems": [
    "LB.C52_ends_partial",
    "LB.C52_forever_partial",
    "LB.C52_passes_partial",
    "LB.C52_exactly_partial",
    "LB.C52_session_partial",
    "LB.C52_session_forever_partial",
    "LB.C52_cont_partial",
    "LB.C52_cont_forever_partial",
    "LB.C52_stop_command_partial",
    "LB.C52_cont_command_partial",
    "LB.C52_break_partial",
    "LB.C52_break_skips"
   ],
   "note": "programs of LET, DIM, PRINT, GOTO, GOSUB, RETURN, IF/THEN/ELSE, FOR, NEXT, ON, DATA, READ, RESTORE, INPUT, LINE INPUT, CLS, CLEAR, RANDOMIZE, DEF, END, STOP and REM over expressions of numbers, strings, variables, elements of arrays, operators, parentheses, built-in functions and functions made with DEF that fit the stacks; nothing is said after something that is not a number is typed for an element of an array of numbers (its subscripts stay on the stack, C31_violated); no name is that of a function and of an array assigned to; nothing is said after CLEAR inside a loop; no tracing; output is not described for the error that loops are nested too deeply; CONT only directly after STOP, or after an interrupt at the beginning of a line (within a line CONT leaves out a STOP about to be performed, as C52_break_skips shows)"
  },
  {
   "property": "C53",
   "status": "proved",
   "theorems": [
    "LB.C53_operator",
    "LB.C53_unique",
    "LB.C53_minus",
    "LB.C53_rounding",
    "LB.C53_compare"
   ],
   "note": "operands are numbers a double can hold; the result of ^ is left to the library"
  },
  {
   "property": "C54",
   "status": "proved",
   "theorems": [
    "LB.C54_print",
    "LB.C54_str",
    "LB.C54_integer",
    "LB.C54_back"
   ],
   "note": "numbers are those a double can hold; the sign of NaN is not modelled"
  },
  {
   "property": "C55",
   "status": "proved",
   "theorems": [
    "LB.C55_doubles",
    "LB.C55_operator",
    "LB.C55_print",
    "LB.C55_str"
   ],
   "note": "the library functions are assumed to give doubles for doubles; the sign of NaN is not modelled"
  },
  {
   "property": "C56",
   "status": "proved",
   "theorems": [
    "LB.C56_options",
    "LB.C56_determined",
    "LB.C56_help",
    "LB.C56_usage",
    "LB.C56_refused",
    "LB.C56_cases",
    "LB.C56_version"
   ],
   "note": "builds for Linux without unit tests; --trace-log, which writes to standard error only, is not modelled beyond being accepted"
  },
  {
   "property": "C57",
   "status": "partial",
   "theorems": [
    "LB.C57_run_partial",
    "LB.C57_forever_partial",
    "LB.C57_traced_partial",
    "LB.C57_traced_forever_partial",
    "LB.C57_unreadable"
   ],
   "note": "programs of the statements treated in C52 with the same exceptions; the text of the report of memory is left open"
  },
  {
   "property": "C58",
   "status": "partial",
   "theorems": [
    "LB.C58_list",
    "LB.C58_list_reload",
    "LB.C58_list_not_reloadable",
    "LB.C58_check",
    "LB.C58_check_accepts",
    "LB.C58_code",
    "LB.C58_names",
    "LB.C58_names_ends",
    "LB.C58_unreadable"
   ],
   "note": "what --list shows cannot be loaded again if a number is below 10000, because it begins with spaces; the names are characterised for lines of ordinary tokens and without --keywords-anywhere; that --parse succeeds is shown for programs of the statements treated in C52"
  },
  {
   "property": "C59",
   "status": "partial",
   "theorems": [
    "LB.C59_dialogue_partial",
    "LB.C59_mode_alone"
   ],
   "note": "dialogues of the lines listed in the property; RENUM that is not refused, CONT after a STOP, COMPILE of programs outside that language and statements typed without a line number are not covered; programs as in C52; errors of a run appear on standard error, which is not modelled"
  },
  {
   "property": "C60",
   "status": "partial",
   "theorems": [
    "LB.C60_load_run_partial"
   ],
   "note": "the dialogue must not have used RENUM, its last INPUT line buffer must be empty (C34_violated shows why), and the file has at most 65536 names"
  },
  {
   "property": "C61",
   "status": "partial",
   "theorems": [
    "LB.C61_partial",
    "LB.C61_run_partial",
    "LB.C61_line_partial"
   ],
   "note": "at most 65536 names; between two sessions in use as for C34: no RENUM before, same buffer of the last INPUT line; messages of errors go to standard error, which is not modelled; --trace-log is not modelled"
  },
  {
   "property": "C62",
   "status": "partial",
   "theorems": [
    "LB.C62_same_partial",
    "LB.C62_forever_partial"
   ],
   "note": "programs of the statements treated in C52 with the same exceptions"
  }
 ]
}