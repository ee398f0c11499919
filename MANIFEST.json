{
 "claims": [
  {
   "property": "C01",
   "status": "proved",
   "theorems": [
    "Bcalc.C01_tokens_iff",
    "Bcalc.C01_tokens_tile"
   ],
   "note": "Accepted lines are exactly the ASCII non-command lines with a decomposition into blanks, symbols and maximal words; the tokens are that (unique) decomposition with exact places."
  },
  {
   "property": "C02",
   "status": "proved",
   "theorems": [
    "Bcalc.C02_number_iff",
    "Bcalc.C02_number_in_line"
   ],
   "note": "An equivalence: a word is a number token iff it is a numeral of the radix, and its value is the positional one."
  },
  {
   "property": "C03",
   "status": "proved",
   "theorems": [
    "Bcalc.C03_nonAscii",
    "Bcalc.C03_badWord_iff",
    "Bcalc.C03_no_bad_word_accepted"
   ],
   "note": "The reported word is the first one that stands for no token, at its exact place."
  },
  {
   "property": "C04",
   "status": "proved",
   "theorems": [
    "Bcalc.C04_command_iff",
    "Bcalc.C04_command_split"
   ],
   "note": "Leading white space includes the vertical tab, as in str::trim_start."
  },
  {
   "property": "C05",
   "status": "proved",
   "theorems": [
    "Bcalc.C05_no_crash"
   ],
   "note": "Every panic of the tokenizer is an explicit outcome of the model; none is reachable."
  },
  {
   "property": "C06",
   "status": "proved",
   "theorems": [
    "Bcalc.C06_insert_blanks"
   ],
   "note": "By transporting the decomposition of C01."
  },
  {
   "property": "C07",
   "status": "proved",
   "theorems": [
    "Bcalc.C07_same_digits",
    "Bcalc.C07_same_value"
   ],
   "note": "By the positional value of C02."
  },
  {
   "property": "C08",
   "status": "proved",
   "theorems": [
    "Bcalc.C08_int_list_iff",
    "Bcalc.C08_no_crash"
   ],
   "note": "The list is accepted iff it is made of integers of magnitude at most 2^63-1 with optional single minus; -2^63 is therefore not accepted."
  },
  {
   "property": "C09",
   "status": "proved",
   "theorems": [
    "Bcalc.C09_variable_list_iff"
   ],
   "note": "The list is exactly the variables written, in order."
  },
  {
   "property": "C10",
   "status": "proved",
   "theorems": [
    "Bcalc.C10_parser_iff_grammar"
   ],
   "note": "An equivalence between the parser and a layered grammar, for all token lists."
  },
  {
   "property": "C11",
   "status": "proved",
   "theorems": [
    "Bcalc.C11_one_reading",
    "Bcalc.C11_one_reading_expression"
   ],
   "note": "Uniqueness of derivations from C10."
  },
  {
   "property": "C12",
   "status": "proved",
   "theorems": [
    "Bcalc.C12_total"
   ],
   "note": "The model's recursion fuel is proved sufficient."
  },
  {
   "property": "C13",
   "status": "proved",
   "theorems": [
    "Bcalc.C13_two_operators",
    "Bcalc.C13_left_associative",
    "Bcalc.C13_levels"
   ],
   "note": "For arbitrary operands."
  },
  {
   "property": "C14",
   "status": "proved",
   "theorems": [
    "Bcalc.C14_subtraction",
    "Bcalc.C14_leading",
    "Bcalc.C14_after_operator",
    "Bcalc.C14_after_unary",
    "Bcalc.C14_after_function",
    "Bcalc.C14_after_open"
   ],
   "note": "For arbitrary operands."
  },
  {
   "property": "C15",
   "status": "proved",
   "theorems": [
    "Bcalc.C15_accepted_balanced",
    "Bcalc.C15_unbalanced_rejected"
   ],
   "note": "Balance stated by counting."
  },
  {
   "property": "C16",
   "status": "proved",
   "theorems": [
    "Bcalc.C16_error_inside",
    "Bcalc.C16_error_inside_line",
    "Bcalc.C16_tree_span",
    "Bcalc.C16_tree_span_assignment"
   ],
   "note": "One exception, stated in the theorem: the error for a missing right side of an assignment is reported at place (0,0), which is in the line but need not be under the tokens."
  },
  {
   "property": "C17",
   "status": "proved",
   "theorems": [
    "Bcalc.C17_parens_expression",
    "Bcalc.C17_parens_assignment"
   ],
   "note": "For any expression in any context."
  },
  {
   "property": "C18",
   "status": "proved",
   "theorems": [
    "Bcalc.C18_assignment_iff",
    "Bcalc.C18_assign_elsewhere",
    "Bcalc.C18_value"
   ],
   "note": "Assignments are only accepted at the top of a line."
  },
  {
   "property": "C19",
   "status": "proved",
   "theorems": [
    "Bcalc.C19_exact",
    "Bcalc.C19_succeeds",
    "Bcalc.C19_settings",
    "Bcalc.C19_settingsList",
    "Bcalc.C19_value"
   ],
   "note": "Arithmetic fragment: exact, succeeds, independent of all settings (C19_exact, C19_succeeds, C19_settings); C19_value extends the soundness statement to the whole language."
  },
  {
   "property": "C20",
   "status": "proved",
   "theorems": [
    "Bcalc.C20_zero_divisor",
    "Bcalc.C20_reported",
    "Bcalc.C20_nonzero_divisor"
   ],
   "note": "Error text and position, propagation to the whole calculation through any reached position, exact quotient otherwise."
  },
  {
   "property": "C21",
   "status": "proved",
   "theorems": [
    "Bcalc.C21_remainder",
    "Bcalc.C21_formula",
    "Bcalc.C21_unique",
    "Bcalc.C21_zero_divisor_panics",
    "Bcalc.C21_violation"
   ],
   "note": "Proved for b != 0 with uniqueness and closed formula; the code's crash for b = 0, which the statement mentions, is proved as C21_zero_divisor_panics / C21_violation."
  },
  {
   "property": "C22",
   "status": "proved",
   "theorems": [
    "Bcalc.C22_integer_power",
    "Bcalc.C22_natural_power",
    "Bcalc.C22_zero_to_negative_panics",
    "Bcalc.C22_violation"
   ],
   "note": "Proved for every precision (checked builds: sum <= 254); the crash for 0^-n, which the statement mentions, is proved."
  },
  {
   "property": "C23",
   "status": "proved",
   "theorems": [
    "Bcalc.C23_even_root_of_negative",
    "Bcalc.C23_sqrt_of_negative",
    "Bcalc.C23_number_implies_real"
   ],
   "note": "Even roots of negative numbers are complaints; odd roots have the right sign."
  },
  {
   "property": "C24",
   "status": "proved",
   "theorems": [
    "Bcalc.C24_exact_root",
    "Bcalc.C24_sqrt_of_square",
    "Bcalc.C24_only_whole",
    "Bcalc.C24_too_large",
    "Bcalc.C24_sqrt_too_large",
    "Bcalc.C24_violation"
   ],
   "note": "For every fuel, precision and degree (checked builds: precision sum <= 254). C24_only_whole, C24_too_large and C24_sqrt_too_large are the converse (any precision, any build); C24_violation is the visible consequence."
  },
  {
   "property": "C25",
   "status": "proved",
   "theorems": [
    "Bcalc.C25_accuracy",
    "Bcalc.C25_sqrt_accuracy",
    "Bcalc.C25_tolerance",
    "Bcalc.C25_never_small",
    "Bcalc.C25_taken_back",
    "Bcalc.C25_found",
    "Bcalc.C25_violation"
   ],
   "note": "The tolerance itself is proved whenever d*d*(d-1) <= 2/tolerance (so for all square roots), (d-1)*tolerance for every degree, never nearer to zero than the true root; roots exist for every radicand the statement covers, and a concrete violation for a degree that is too large."
  },
  {
   "property": "C26",
   "status": "proved",
   "theorems": [
    "Bcalc.C26_expression_terminates",
    "Bcalc.C26_calculation_terminates"
   ],
   "note": "Enough iterations always exist, after which the outcome is fixed; for expressions and whole calculations with assignment."
  },
  {
   "property": "C27",
   "status": "proved",
   "theorems": [
    "Bcalc.C27_crashes_iff",
    "Bcalc.C27_arithmetic_never_crashes",
    "Bcalc.C27_violation_modulus",
    "Bcalc.C27_violation_power",
    "Bcalc.C27_violation_root",
    "Bcalc.C27_violation_overflow",
    "Bcalc.C27_violation_overflow_sum"
   ],
   "note": "The exact set of crashing evaluations, as an equivalence; the database hypothesis VarsOk (stored variables decodable) holds for every database the program writes (C39/C46)."
  },
  {
   "property": "C28",
   "status": "proved",
   "theorems": [
    "Bcalc.C28_max_min",
    "Bcalc.C28_arguments",
    "Bcalc.C28_no_arguments"
   ],
   "note": "Any number of arguments."
  },
  {
   "property": "C29",
   "status": "proved",
   "theorems": [
    "Bcalc.C29_tolerance",
    "Bcalc.C29_result",
    "Bcalc.C29_violation",
    "Bcalc.C29_violation_wraps"
   ],
   "note": "Tolerance for all sums <= 254 and the violations for 255 and above, as the statement says."
  },
  {
   "property": "C30",
   "status": "proved",
   "theorems": [
    "Bcalc.C30_rounded",
    "Bcalc.C30_rounded_unique",
    "Bcalc.C30_error"
   ],
   "note": "The text without commas is sign ++ numeral; the numeral denotes the magnitude rounded to the nearest multiple of radix^-precision, ties away from zero; uniqueness of the rounding and the half-unit error bound are proved too."
  },
  {
   "property": "C31",
   "status": "proved",
   "theorems": [
    "Bcalc.C31_fraction",
    "Bcalc.C31_leading"
   ],
   "note": "Trailing zeros, bare point and (C31_leading) no superfluous leading zeros."
  },
  {
   "property": "C32",
   "status": "proved",
   "theorems": [
    "Bcalc.C32_again",
    "Bcalc.C32_again_session",
    "Bcalc.C32_fraction_again",
    "Bcalc.C32_fraction_again_session",
    "Bcalc.C32_violation",
    "Bcalc.C32_reads_back",
    "Bcalc.C32_reads_back_exact",
    "Bcalc.C32_one_shot"
   ],
   "note": "Read back through tokenizer, parser and evaluator; C32_one_shot: the whole one-shot program reproduces the text of a representable value. C32_again, C32_fraction_again (and _session): for every answer of the program; C32_violation: fractions under another input radix."
  },
  {
   "property": "C33",
   "status": "proved",
   "theorems": [
    "Bcalc.C33_groups",
    "Bcalc.C33_remove"
   ],
   "note": "Groups of three from the right; removing commas."
  },
  {
   "property": "C34",
   "status": "proved",
   "theorems": [
    "Bcalc.C34_upper"
   ],
   "note": "Also in fractional mode (where the setting has no effect)."
  },
  {
   "property": "C35",
   "status": "proved",
   "theorems": [
    "Bcalc.C35_sign"
   ],
   "note": "Both display modes."
  },
  {
   "property": "C36",
   "status": "proved",
   "theorems": [
    "Bcalc.C36_fraction",
    "Bcalc.C36_injective",
    "Bcalc.C36_violation_radix"
   ],
   "note": "Lowest terms, base ten, injective; C36_violation_radix is the witness that the output radix is ignored, as the property says."
  },
  {
   "property": "C37",
   "status": "proved",
   "theorems": [
    "Bcalc.C37_displays",
    "Bcalc.C37_violation_radix_one",
    "Bcalc.C37_only_one"
   ],
   "note": "Holds for output radices 2..16 (C37_displays, C37_only_one); C37_violation_radix_one proves the violation stated in the property for --convert-to-radix 1."
  },
  {
   "property": "C38",
   "status": "proved",
   "theorems": [
    "Bcalc.C38_keeps_value"
   ],
   "note": "Any number of further inputs interleaved with arbitrary changes by other processes (inductive Unassigned)."
  },
  {
   "property": "C39",
   "status": "proved",
   "theorems": [
    "Bcalc.C39_session",
    "Bcalc.C39_database",
    "Bcalc.C39_stored",
    "Bcalc.C39_loaded",
    "Bcalc.C39_visible"
   ],
   "note": "Recording the failing input itself may evict the oldest history entry and the variables last used by it; C39_stored states what stays stored under that."
  },
  {
   "property": "C40",
   "status": "proved",
   "theorems": [
    "Bcalc.C40_exact",
    "Bcalc.C40_read",
    "Bcalc.C40_assignment_stored"
   ],
   "note": "Exact round trip through the decimal text stored in the database, for all rationals."
  },
  {
   "property": "C41",
   "status": "proved",
   "theorems": [
    "Bcalc.C41_gone",
    "Bcalc.C41_until_assigned",
    "Bcalc.C41_others_session",
    "Bcalc.C41_others_database",
    "Bcalc.C41_others_stored"
   ],
   "note": "In the session, in the database, until assigned again; all other variables unaffected."
  },
  {
   "property": "C42",
   "status": "proved",
   "theorems": [
    "Bcalc.C42_reload",
    "Bcalc.C42_others",
    "Bcalc.C42_interference"
   ],
   "note": "C42_reload for a database that no other process changes meanwhile, C42_interference for arbitrary interference."
  },
  {
   "property": "C43",
   "status": "proved",
   "theorems": [
    "Bcalc.C43_unknown",
    "Bcalc.C43_no_store",
    "Bcalc.C43_no_store_assignment",
    "Bcalc.C43_only_unknown"
   ],
   "note": "Evaluation reaching an unknown variable reports it by name and position, and only then (C43_only_unknown)."
  },
  {
   "property": "C44",
   "status": "proved",
   "theorems": [
    "Bcalc.C44_update",
    "Bcalc.C44_session",
    "Bcalc.C44_earlier_failure"
   ],
   "note": "If storing fails the session's variable has the new value (C44_update, C44_session); a failure before evaluation leaves the variables as they were (C44_earlier_failure)."
  },
  {
   "property": "C45",
   "status": "proved",
   "theorems": [
    "Bcalc.C45_history",
    "Bcalc.C45_newest_first",
    "Bcalc.C45_add",
    "Bcalc.C45_others",
    "Bcalc.C45_session"
   ],
   "note": "storeAfter is the abstract saved data; the database's history equals the last `capacity` recorded inputs for every operation history of any sessions, and entering a line records its text once, first."
  },
  {
   "property": "C46",
   "status": "proved",
   "theorems": [
    "Bcalc.C46_linked",
    "Bcalc.C46_references",
    "Bcalc.C46_operations",
    "Bcalc.C46_setVariable",
    "Bcalc.C46_touchVariable",
    "Bcalc.C46_connection",
    "Bcalc.C46_session"
   ],
   "note": "Every reachable database is a well-formed doubly linked list with all references satisfied, and the operations of sessions do not fail for internal reasons (only when another session dropped the input in between, or for outside reasons)."
  },
  {
   "property": "C47",
   "status": "proved",
   "theorems": [
    "Bcalc.C47_id",
    "Bcalc.C47_increasing",
    "Bcalc.C47_same_input",
    "Bcalc.C47_gone"
   ],
   "note": "Ids are unique, increase in order of recording, are never reused while anything refers to them, and a dropped id does not come back."
  },
  {
   "property": "C48",
   "status": "proved",
   "theorems": [
    "Bcalc.C48_newest_first",
    "Bcalc.C48_complete",
    "Bcalc.C48_end",
    "Bcalc.C48_failure"
   ],
   "note": "Scrollback against arbitrary interleaved operations of other sessions."
  },
  {
   "property": "C49",
   "status": "proved",
   "theorems": [
    "Bcalc.C49_exact",
    "Bcalc.C49_alive",
    "Bcalc.C49_evict",
    "Bcalc.C49_used",
    "Bcalc.C49_session"
   ],
   "note": "Exact characterisation of stored variables by last use, for all operation histories, and at session level."
  },
  {
   "property": "C50",
   "status": "proved",
   "theorems": [
    "Bcalc.C50_set",
    "Bcalc.C50_invalid",
    "Bcalc.C50_command_set",
    "Bcalc.C50_command_invalid",
    "Bcalc.C50_command_malformed",
    "Bcalc.C50_command_show",
    "Bcalc.C50_no_database"
   ],
   "note": "On the database for every reachable state, and as the /histcap command of a session (set, invalid, malformed, show, no database)."
  },
  {
   "property": "C51",
   "status": "proved",
   "theorems": [
    "Bcalc.C51_crash",
    "Bcalc.C51_concurrent",
    "Bcalc.C51_durable"
   ],
   "note": "Crash points are the states committed by the connection (atomicity and durability of one SQLite transaction are trusted)."
  },
  {
   "property": "C52",
   "status": "proved",
   "theorems": [
    "Bcalc.C52_existing",
    "Bcalc.C52_concurrent",
    "Bcalc.C52_fresh",
    "Bcalc.C52_keeps",
    "Bcalc.C52_idempotent",
    "Bcalc.C52_refused",
    "Bcalc.C52_message"
   ],
   "note": "All database contents, also unreachable ones."
  },
  {
   "property": "C53",
   "status": "proved",
   "theorems": [
    "Bcalc.C53_line",
    "Bcalc.C53_event",
    "Bcalc.C53_record",
    "Bcalc.C53_panics",
    "Bcalc.C53_violation",
    "Bcalc.C53_usable"
   ],
   "note": "For every reachable editor state: always a current line (C53_line), event handling never panics (C53_event), the only panics of a step are those of evaluating the line, a 2-column wrapped view (C53_violation) or more than 65535 rows (C53_panics); C53_usable: in a terminal of at least 5 columns every event succeeds."
  },
  {
   "property": "C54",
   "status": "proved",
   "theorems": [
    "Bcalc.C54_step",
    "Bcalc.C54_history",
    "Bcalc.C54_unedited"
   ],
   "note": "Per event (C54_step) and for any continuation of the session (C54_history); recalled lines unedited after Enter (C54_unedited)."
  },
  {
   "property": "C55",
   "status": "proved",
   "theorems": [
    "Bcalc.C55_up",
    "Bcalc.C55_up_known",
    "Bcalc.C55_down",
    "Bcalc.C55_up_down",
    "Bcalc.C55_down_up"
   ],
   "note": "Including lines loaded from the database while going up."
  },
  {
   "property": "C56",
   "status": "proved",
   "theorems": [
    "Bcalc.C56_enter",
    "Bcalc.C56_database",
    "Bcalc.C56_no_database"
   ],
   "note": "What is drawn, evaluated, appended to the session's history and recorded in the database is the line shown; other processes may use the database meanwhile."
  },
  {
   "property": "C57",
   "status": "proved",
   "theorems": [
    "Bcalc.C57_cursor",
    "Bcalc.C57_event"
   ],
   "note": "Also between handling an event and drawing (C57_event)."
  },
  {
   "property": "C58",
   "status": "proved",
   "theorems": [
    "Bcalc.C58_match",
    "Bcalc.C58_jump",
    "Bcalc.C58_twice"
   ],
   "note": "Pair is the usual definition by balanced text; C58_match is an equivalence."
  },
  {
   "property": "C59",
   "status": "proved",
   "theorems": [
    "Bcalc.C59_view",
    "Bcalc.C59_steady",
    "Bcalc.C59_narrow",
    "Bcalc.C59_violation"
   ],
   "note": "For what is on the screen in every reachable state (OnScreen); C59_violation proves the violation with 5 columns stated in the property, C59_narrow the error with at most 4."
  },
  {
   "property": "C60",
   "status": "proved",
   "theorems": [
    "Bcalc.C60_view",
    "Bcalc.C60_entered",
    "Bcalc.C60_violation",
    "Bcalc.C60_narrow"
   ],
   "note": "For what is on the screen in every reachable state, rows below 65536; C60_violation proves the division by zero with 2 columns stated in the property."
  },
  {
   "property": "C61",
   "status": "proved",
   "theorems": [
    "Bcalc.C61_type",
    "Bcalc.C61_type_shift",
    "Bcalc.C61_backspace",
    "Bcalc.C61_delete",
    "Bcalc.C61_left",
    "Bcalc.C61_right",
    "Bcalc.C61_home",
    "Bcalc.C61_end",
    "Bcalc.C61_resize",
    "Bcalc.C61_ignored",
    "Bcalc.C61_quit",
    "Bcalc.C61_quit_only",
    "Bcalc.C61_paste",
    "Bcalc.C61_quiet"
   ],
   "note": "Every key of the editor, at the level of whole events including the redraw; keys without meaning, quitting keys, resizing and pasting included."
  },
  {
   "property": "C62",
   "status": "proved",
   "theorems": [
    "Bcalc.C62_session",
    "Bcalc.C62_interactive"
   ],
   "note": "For every sequence of inputs (Entered), and for every run of the interactive program (Leads), from valid settings."
  },
  {
   "property": "C63",
   "status": "proved",
   "theorems": [
    "Bcalc.C63_failing",
    "Bcalc.C63_other",
    "Bcalc.C63_interactive"
   ],
   "note": "Any outcome other than a result (error, crash) leaves the settings; so does every line that is no setting command; in the interactive program only Enter on a successful setting command changes a setting."
  },
  {
   "property": "C64",
   "status": "proved",
   "theorems": [
    "Bcalc.C64_set",
    "Bcalc.C64_show",
    "Bcalc.C64_otherwise",
    "Bcalc.C64_stays",
    "Bcalc.C64_read_back",
    "Bcalc.C64_faithful",
    "Bcalc.C64_history_capacity"
   ],
   "note": "Exact behaviour of every setting command: proper argument sets, no argument shows, anything else is an error; the value persists until the command is used again; texts are faithful; /histcap for a session alone at its database."
  },
  {
   "property": "C65",
   "status": "proved",
   "theorems": [
    "Bcalc.C65_setting_command",
    "Bcalc.C65_variables_and_data",
    "Bcalc.C65_history_capacity",
    "Bcalc.C65_help"
   ],
   "note": "The session afterwards is the recorded one with only the command's setting changed; /histcap changes only the database, /help nothing."
  },
  {
   "property": "C66",
   "status": "proved",
   "theorems": [
    "Bcalc.C66_start",
    "Bcalc.C66_names",
    "Bcalc.C66_unambiguous",
    "Bcalc.C66_one_command",
    "Bcalc.C66_alias",
    "Bcalc.C66_unknown"
   ],
   "note": "Table construction, resolution iff documented, aliases equal in effect and result, unknown names reported at their place."
  },
  {
   "property": "C67",
   "status": "proved",
   "theorems": [
    "Bcalc.C67_line",
    "Bcalc.C67_session",
    "Bcalc.C67_start",
    "Bcalc.C67_failure"
   ],
   "note": "C67_line for one input, C67_session for any sequence of events, C67_start for the start (C68_determined covers one-shot mode); for a session alone at a working database (C67_failure shows that with a failing database the order becomes visible). Lines of /reloadvar may be permuted, nothing else."
  },
  {
   "property": "C68",
   "status": "proved",
   "theorems": [
    "Bcalc.C68_determined",
    "Bcalc.C68_nothing_kept",
    "Bcalc.C68_no_runtime_error",
    "Bcalc.C68_variable",
    "Bcalc.C68_variable_error",
    "Bcalc.C68_assignment_error",
    "Bcalc.C68_as_in_session"
   ],
   "note": "For every input and all valid settings: the result exists, is the same on every machine with the same overflow checks and enough fuel, nothing is kept, there is no runtime error, an input with a variable never has a result, and expressions without variables show what they show in a session."
  },
  {
   "property": "C69",
   "status": "proved",
   "theorems": [
    "Bcalc.C69_history",
    "Bcalc.C69_database",
    "Bcalc.C69_consistent",
    "Bcalc.C69_no_database",
    "Bcalc.C69_editor",
    "Bcalc.C69_fatal"
   ],
   "note": "History for every outcome (also crashes); database for a session alone at its database (C45_session covers other processes and failures); no internal inconsistency error from any line, on the screen, or as a fatal error of the editor."
  },
  {
   "property": "C70",
   "status": "proved",
   "theorems": [
    "Bcalc.C70_key",
    "Bcalc.C70_editing",
    "Bcalc.C70_text",
    "Bcalc.C70_usable"
   ],
   "note": "Ideal line buffer in Spec/Typing.lean; recalled lines included (the buffer is whichever line is shown). Up, Down, Enter, the jump to a parenthesis, quitting and pasting are not editing events (C53-C66)."
  },
  {
   "property": "C71",
   "status": "proved",
   "theorems": [
    "Bcalc.C71_session",
    "Bcalc.C71_complete",
    "Bcalc.C71_start"
   ],
   "note": "Editor.start is at the prompt (C71_start). The failure-free direction assumes windows of at least five columns and fewer than 65536 keys below the last row number."
  },
  {
   "property": "C72",
   "status": "proved",
   "theorems": [
    "Bcalc.C72_sound",
    "Bcalc.C72_sound_quiet",
    "Bcalc.C72_editor",
    "Bcalc.C72_one_shot",
    "Bcalc.C72_exact",
    "Bcalc.C72_one_reading"
   ],
   "note": "Spec/Answer.lean: Answer, Displays, Finds. Composes C01, C10, C17-C24 and the display theorems; uniqueness of the reading is C72_one_reading. Radix and precision settings assumed valid (they always are, C62)."
  },
  {
   "property": "C73",
   "status": "proved",
   "theorems": [
    "Bcalc.C73_values",
    "Bcalc.C73_justified",
    "Bcalc.C73_one_shot"
   ],
   "note": "Spec/Answer.lean: Complaint, Refused; syntax complaints by Spec/Defect.lean (C75). With others using the database there may also be database errors (C44)."
  },
  {
   "property": "C74",
   "status": "proved",
   "theorems": [
    "Bcalc.C74_answered",
    "Bcalc.C74_refused",
    "Bcalc.C74_malformed",
    "Bcalc.C74_exact_operations"
   ],
   "note": "Exact: all but irrational roots; for these Newton's method may run out of room (C25, C27)."
  },
  {
   "property": "C75",
   "status": "proved",
   "theorems": [
    "Bcalc.C75_named",
    "Bcalc.C75_real",
    "Bcalc.C75_iff",
    "Bcalc.C75_line"
   ],
   "note": "If a line has several defects, which of them is reported is not specified."
  },
  {
   "property": "C76",
   "status": "proved",
   "theorems": [
    "Bcalc.C76_justified",
    "Bcalc.C76_complaint_iff",
    "Bcalc.C76_unique",
    "Bcalc.C76_place",
    "Bcalc.C76_violation"
   ],
   "note": "C76_violation records that places in integer and variable lists are relative to the argument text, and the spec records that a meaningless word in an integer list is called a variable name."
  },
  {
   "property": "C77",
   "status": "proved",
   "theorems": [
    "Bcalc.C77_database_ignored",
    "Bcalc.C77_no_database",
    "Bcalc.C77_no_database_error",
    "Bcalc.C77_own_history",
    "Bcalc.C77_recall",
    "Bcalc.C77_every_run"
   ],
   "note": "All terminals and event sequences; errors that remain possible (paste, window too narrow) are not database errors."
  },
  {
   "property": "C78",
   "status": "proved",
   "theorems": [
    "Bcalc.C78_only_enter",
    "Bcalc.C78_history",
    "Bcalc.C78_recall",
    "Bcalc.C78_next_session",
    "Bcalc.C78_used",
    "Bcalc.C78_assigned",
    "Bcalc.C78_every_run"
   ],
   "note": "The bound is sharp: examples show that a line more loses the variable, because a line is recorded (and old inputs dropped) before it is evaluated."
  },
  {
   "property": "C79",
   "status": "proved",
   "theorems": [
    "Bcalc.C79_carried_out",
    "Bcalc.C79_carried_out_one_shot",
    "Bcalc.C79_lacking",
    "Bcalc.C79_available",
    "Bcalc.C79_available_one_shot",
    "Bcalc.C79_listing",
    "Bcalc.C79_topic"
   ],
   "note": "Documentation quirk: the help of /reloadvar says it fails for a variable that is not stored; in fact it reports that variable as unchanged and goes on (C40)."
  },
  {
   "property": "C80",
   "status": "proved",
   "theorems": [
    "Bcalc.C80_ends",
    "Bcalc.C80_crash_iff",
    "Bcalc.C80_terminates",
    "Bcalc.C80_evaluating_one_shot",
    "Bcalc.C80_one_shot",
    "Bcalc.C80_evaluating_ready",
    "Bcalc.C80_step",
    "Bcalc.C80_usable"
   ],
   "note": "The three crash points are defects of the code (C27); here it is proved that there are no others."
  },
  {
   "property": "C81",
   "status": "proved",
   "theorems": [
    "Bcalc.C81_restored",
    "Bcalc.C81_throughout",
    "Bcalc.C81_course",
    "Bcalc.C81_failure",
    "Bcalc.C81_crash_violation"
   ],
   "note": "C81_crash_violation: a panic (C80 says which lines panic) leaves raw mode on."
  },
  {
   "property": "C82",
   "status": "proved",
   "theorems": [
    "Bcalc.C82_inline",
    "Bcalc.C82_alternate"
   ],
   "note": "Characters take one cell each."
  },
  {
   "property": "C83",
   "status": "proved",
   "theorems": [
    "Bcalc.C83_program",
    "Bcalc.C83_program_quit",
    "Bcalc.C83_truthful",
    "Bcalc.C83_watchable",
    "Bcalc.C83_transcript",
    "Bcalc.C83_quit"
   ],
   "note": "The terminal is assumed to answer truthfully when asked for its cursor and size."
  },
  {
   "property": "C84",
   "status": "proved",
   "theorems": [
    "Bcalc.C84_program",
    "Bcalc.C84_program_cursor",
    "Bcalc.C84_transcript",
    "Bcalc.C84_cursor",
    "Bcalc.C84_last_row_violation"
   ],
   "note": "C84_last_row_violation is a defect of the code: MoveToNextLine does not scroll."
  },
  {
   "property": "C85",
   "status": "proved",
   "theorems": [
    "Bcalc.C85_line",
    "Bcalc.C85_dialogue"
   ],
   "note": "Nobody else uses the database during the lines (Undisturbed); for what others can change see C42, C45, C67."
  },
  {
   "property": "C86",
   "status": "proved",
   "theorems": [
    "Bcalc.C86_replace",
    "Bcalc.C86_after"
   ],
   "note": "Complaints are compared without their places, which move with the text. Nobody else uses the database during the lines (Undisturbed)."
  },
  {
   "property": "C87",
   "status": "proved",
   "theorems": [
    "Bcalc.C87_identity",
    "Bcalc.C87_exact",
    "Bcalc.C87_laws"
   ],
   "note": "One direction: the side that has an answer decides ((a/a) needs a to be non-zero, 1 does not). C87_laws lists 54 laws; C87_identity takes any identity of forms. sqrt, and ^ with other exponents than numerals for natural numbers, may only occur inside the holes (their rounding is C22-C25)."
  },
  {
   "property": "C88",
   "status": "proved",
   "theorems": [
    "Bcalc.C88_line",
    "Bcalc.C88_lines",
    "Bcalc.C88_events",
    "Bcalc.C88_start"
   ],
   "note": "Settings are assumed in range on both sides (C62 shows that they stay so)."
  },
  {
   "property": "C89",
   "status": "proved",
   "theorems": [
    "Bcalc.C89_printed",
    "Bcalc.C89_one_shot",
    "Bcalc.C89_square_root",
    "Bcalc.C89_violation"
   ],
   "note": "The violation for output radix 16 and input radix 2 is proved (sqrt 101 off by more than 46000 units in the last place)."
  },
  {
   "property": "C90",
   "status": "proved",
   "theorems": [
    "Bcalc.C90_line",
    "Bcalc.C90_closed"
   ],
   "note": ""
  },
  {
   "property": "C91",
   "status": "proved",
   "theorems": [
    "Bcalc.C91_swap"
   ],
   "note": "Adjacent swaps generate every reordering that respects dependencies."
  },
  {
   "property": "C92",
   "status": "proved",
   "theorems": [
    "Bcalc.C92_no_trace"
   ],
   "note": ""
  },
  {
   "property": "C93",
   "status": "proved",
   "theorems": [
    "Bcalc.C93_prints_one",
    "Bcalc.C93_fraction_one",
    "Bcalc.C93_one_shot",
    "Bcalc.C93_session",
    "Bcalc.C93_same_text"
   ],
   "note": "C93_same_text is the contrapositive reading for equal texts; C93_prints_one and C93_fraction_one: a text prints one number."
  },
  {
   "property": "C94",
   "status": "proved",
   "theorems": [
    "Bcalc.C94_streams",
    "Bcalc.C94_one_stream",
    "Bcalc.C94_ends",
    "Bcalc.C94_session",
    "Bcalc.C94_interactive",
    "Bcalc.C94_violation"
   ],
   "note": "C94_violation: dividing by zero ends with status 0."
  },
  {
   "property": "C95",
   "status": "proved",
   "theorems": [
    "Bcalc.C95_command_line",
    "Bcalc.C95_otherwise",
    "Bcalc.C95_info",
    "Bcalc.C95_order",
    "Bcalc.C95_reach",
    "Bcalc.C95_any_line",
    "Bcalc.C95_defaults",
    "Bcalc.C95_violation",
    "Bcalc.C95_answers"
   ],
   "note": "C95_violation: a line that begins with '-' (and is not only '-') is refused as the word after -i or --input. clap's rules are trusted (its source is not in /repo)."
  },
  {
   "property": "C96",
   "status": "proved",
   "theorems": [
    "Bcalc.C96_square_of_root",
    "Bcalc.C96_root_of_square",
    "Bcalc.C96_power_of_root",
    "Bcalc.C96_violation"
   ],
   "note": "C96_violation: with precision 0 and no extra digits, (((9384)^((1)/(3)))^(3)) prints 9385. The numbers are printed with zeros behind the point (2.00000), which C31 explains."
  },
  {
   "property": "C97",
   "status": "proved",
   "theorems": [
    "Bcalc.C97_square_root",
    "Bcalc.C97_power",
    "Bcalc.C97_search",
    "Bcalc.C97_expression",
    "Bcalc.C97_line"
   ],
   "note": "C97_square_root and C97_power also give the value (PowerValue, C25). Magnitudes between zero and one crash the program (C27). C97_search is about the body of the loop (bisectStep), iterated."
  },
  {
   "property": "C98",
   "status": "proved",
   "theorems": [
    "Bcalc.C98_history",
    "Bcalc.C98_found",
    "Bcalc.C98_own",
    "Bcalc.C98_reload",
    "Bcalc.C98_answer"
   ],
   "note": "Lines of different sessions are interleaved as wholes here (a crash may cut one short); interleaving of single operations is C38, C42, C45, C47, C48 and C49."
  },
  {
   "property": "C99",
   "status": "proved",
   "theorems": [
    "Bcalc.C99_mentioned",
    "Bcalc.C99_history",
    "Bcalc.C99_count"
   ],
   "note": "interleaving at the granularity of lines, as for C98"
  },
  {
   "property": "C100",
   "status": "proved",
   "theorems": [
    "Bcalc.C100_value",
    "Bcalc.C100_nodes",
    "Bcalc.C100_answer"
   ],
   "note": "Numbers are counted in lowest terms after each operation, as num-rational keeps them; what it does inside one operation is not modelled."
  },
  {
   "property": "C101",
   "status": "proved",
   "theorems": [
    "Bcalc.C101_any_line",
    "Bcalc.C101_answer",
    "Bcalc.C101_prompt",
    "Bcalc.C101_leave"
   ],
   "note": "Window of at least 5 columns and rows < 65536, as in C53/C70; lines with modulus, power or square root are left out because evaluating them may crash the program (C21, C22, C27)."
  },
  {
   "property": "C102",
   "status": "proved",
   "theorems": [
    "Bcalc.C102_orderly",
    "Bcalc.C102_session",
    "Bcalc.C102_among"
   ],
   "note": "Spec/Interleave.lean has the order of operations in terms of the recorded inputs only; no reference to internal state of sessions."
  },
  {
   "property": "C103",
   "status": "proved",
   "theorems": [
    "Bcalc.C103_line",
    "Bcalc.C103_session",
    "Bcalc.C103_same",
    "Bcalc.C103_recall"
   ],
   "note": "Spec/Conversation.lean defines the relation and the entered lines by means of what is shown when Enter is pressed only."
  },
  {
   "property": "C104",
   "status": "proved",
   "theorems": [
    "Bcalc.C104_again",
    "Bcalc.C104_keyboard"
   ],
   "note": "Does not assume that the session knows all saved variables."
  },
  {
   "property": "C105",
   "status": "proved",
   "theorems": [
    "Bcalc.C105_line",
    "Bcalc.C105_dialogue",
    "Bcalc.C105_setting",
    "Bcalc.C105_blanks",
    "Bcalc.C105_digits"
   ],
   "note": "Spec/Rename.lean: same words by the lexical specification, corresponding places by edges of words, replies. C105_blanks and C105_digits carry C06 and C07 through to the answers."
  },
  {
   "property": "C106",
   "status": "proved",
   "theorems": [
    "Bcalc.C106_dialogue",
    "Bcalc.C106_begins",
    "Bcalc.C106_keyboard"
   ],
   "note": "Spec/Calculator.lean is the machine (Enters, Does, Converses); it is stated without databases, hash maps or editors. The way expressions are evaluated is a parameter (Evaluator) with its laws: at most one value, right to the asked tolerance, not refused; the same one for all lines, settings and sessions of a build."
  },
  {
   "property": "C107",
   "status": "proved",
   "theorems": [
    "Bcalc.C107_decided",
    "Bcalc.C107_reply",
    "Bcalc.C107_talk",
    "Bcalc.C107_lines"
   ],
   "note": "About the specification machine of Spec/Calculator.lean, so that C106 says all there is to say. C107_talk is for conversations whose states keep the precisions below 255; C107_lines instantiates it to conversations without /precision."
  },
  {
   "property": "C108",
   "status": "proved",
   "theorems": [
    "Bcalc.C108_one",
    "Bcalc.C108_written",
    "Bcalc.C108_displays"
   ],
   "note": "C108_written is an equivalence, so every deviation of the display in any character, for any number, falsifies it. C108_displays links it to the description used by C72."
  },
  {
   "property": "C109",
   "status": "proved",
   "theorems": [
    "Bcalc.C109_together",
    "Bcalc.C109_begins"
   ],
   "note": "Lines of different sessions are processed one after the other, as in C98; transactions of different sessions that interleave within a line are the subject of C46, C47 and C102. A session that dies before its line is recorded is one that leaves."
  },
  {
   "property": "C110",
   "status": "proved",
   "theorems": [
    "Bcalc.C110_power",
    "Bcalc.C110_square_root",
    "Bcalc.C110_expression",
    "Bcalc.C110_square_roots",
    "Bcalc.C110_answer"
   ],
   "note": "The bounds are for the exact fractions the program holds."
  },
  {
   "property": "C111",
   "status": "proved",
   "theorems": [
    "Bcalc.C111_normal_screen",
    "Bcalc.C111_alternate_screen",
    "Bcalc.C111_launched",
    "Bcalc.C111_next"
   ],
   "note": "Nobody else uses the database meanwhile (C106). The precisions together are at most 255 and the output radix is not 1 (C37, C62)."
  },
  {
   "property": "C112",
   "status": "proved",
   "theorems": [
    "Bcalc.C112_untouched",
    "Bcalc.C112_normal",
    "Bcalc.C112_session"
   ],
   "note": "Messages that are written to standard error after the terminal has been restored (C108) come after that. If the program crashes the alternate screen stays (C81), the normal one is still as it was."
  },
  {
   "property": "C113",
   "status": "proved",
   "theorems": [
    "Bcalc.C113_normal",
    "Bcalc.C113_alternate",
    "Bcalc.C113_goes_on"
   ],
   "note": "On the normal screen the rows below the cursor are taken to be blank after the change; several changes are several applications of the theorem. On the alternate screen the prompt is taken to have begun in the first column."
  },
  {
   "property": "C114",
   "status": "proved",
   "theorems": [
    "Bcalc.C114_kept",
    "Bcalc.C114_answers"
   ],
   "note": "Outputs for which there is no room are not covered: C84_last_row_violation shows that they are lost."
  },
  {
   "property": "C115",
   "status": "proved",
   "theorems": [
    "Bcalc.C115_above",
    "Bcalc.C115_scroll",
    "Bcalc.C115_answers"
   ],
   "note": ""
  },
  {
   "property": "C116",
   "status": "proved",
   "theorems": [
    "Bcalc.C116_alternate",
    "Bcalc.C116_normal"
   ],
   "note": ""
  }
 ]
}