{"id": "C01", "title": "Tokens tile the input exactly", "statement": "When an input line is accepted as an expression, its tokens come in order, each is non-empty and covers exactly the characters of its reported position, the characters between tokens are whitespace only, and two multi-character words are never adjacent without whitespace or an operator between them (maximal munch). Conversely every such decomposition is the one produced. Nothing the user typed is dropped or invented.", "quantifier": "every ASCII input string of any length and every radix from 2 to 16", "why_tests_cant": "infinitely many strings; buffer/position bookkeeping errors appear only at particular mixes of operators, words and blanks", "anchors": ["src/token.rs: Tokenizer::tokenize", "src/token.rs: tokenize_on_multichar_end"]}
{"id": "C02", "title": "Numeric literals denote their exact value", "statement": "A word is read as a number exactly when, after removing underscores and at most one decimal point, what remains is a non-empty string of digits of the radix; its value is then exactly (digits as an integer) / radix^(number of digits after the point), with no rounding.", "quantifier": "every word and every radix 2..16, any number of digits before and after the point", "why_tests_cant": "the exactness claim is about arbitrarily long literals", "anchors": ["src/token.rs: tokenize_on_multichar_end"]}
{"id": "C03", "title": "Bad words are rejected at the right place", "statement": "If the input contains a non-ASCII character the whole input is rejected at the index of the first one; otherwise, if it is not a command and contains a word that is neither a $variable, a keyword, nor a numeral of the radix, the input is rejected and the error names the first such word and carries exactly its span. No input with a bad word is ever accepted.", "quantifier": "every string and radix 2..16", "why_tests_cant": "needs all positions and all malformed words", "anchors": ["src/token.rs: Tokenizer::tokenize", "src/error.rs: ParseError"]}
{"id": "C04", "title": "Commands are recognised and split faithfully", "statement": "An ASCII input is treated as a command exactly when its first non-blank character is '/'; the command name is the text from after the slash up to the first whitespace, the argument text is everything after that whitespace, and both reported positions select the corresponding text of the input.", "quantifier": "every ASCII string", "why_tests_cant": "unbounded strings and blank patterns", "anchors": ["src/token.rs: maybe_extract_command"]}
{"id": "C05", "title": "Tokenizing never crashes", "statement": "For any input text and any radix the program can be configured with (2..16), tokenizing returns a token list, a command, or a parse error; it never panics.", "quantifier": "every string (ASCII or not), every radix 2..16", "why_tests_cant": "absence of a panic over all inputs", "anchors": ["src/token.rs: Tokenizer::tokenize"]}
{"id": "C06", "title": "Blank space around tokens does not matter", "statement": "Inserting additional whitespace at the start, at the end, or between two tokens of an accepted expression changes only the token positions, never the tokens.", "quantifier": "every accepted input, every split point at a token boundary, every whitespace string", "why_tests_cant": "relates all pairs of inputs", "anchors": ["src/token.rs: Tokenizer::tokenize"]}
{"id": "C07", "title": "Underscores and digit case do not change a number", "statement": "Adding or removing '_' separators inside a numeral, or changing the case of its letter digits, never changes its value nor whether it is accepted.", "quantifier": "every word, every placement of underscores, every radix 2..16", "why_tests_cant": "relates unboundedly many spellings", "anchors": ["src/token.rs: tokenize_on_multichar_end"]}
{"id": "C08", "title": "Integer argument lists are read exactly", "statement": "A command argument list of integers is accepted exactly when it consists of integer literals, each optionally preceded by a single minus sign, with magnitude at most 2^63-1; the integers returned are exactly those written. No arithmetic overflow can occur while negating.", "quantifier": "every argument string and radix 2..16", "why_tests_cant": "overflow and sign bookkeeping over all token sequences", "anchors": ["src/token.rs: tokenize_int_list"]}
{"id": "C09", "title": "Variable argument lists contain only variables", "statement": "A command argument list of variables is accepted exactly when every word in it is a $variable; the names returned are the words in order.", "quantifier": "every argument string", "why_tests_cant": "all token sequences", "anchors": ["src/token.rs: tokenize_variable_list"]}
{"id": "C10", "title": "The parser accepts exactly the calculator's grammar", "statement": "A token sequence is accepted iff it derives from the calculator's grammar (optional '$v =', then sums of products of moduli of powers of signed operands; operands are numbers, variables, parenthesised expressions, sqrt/abs applied to a signed operand, and max/min applied to a parenthesised list or to one signed operand), and the tree built is the derivation's tree.", "quantifier": "every token sequence of any length and nesting depth", "why_tests_cant": "unbounded nesting and length; the code reaches the tree through several list-rewriting passes", "anchors": ["src/syntax_tree.rs: SyntaxTree::new", "src/syntax_tree.rs: read_expression"]}
{"id": "C11", "title": "Every expression has one reading", "statement": "No token sequence derives two different trees from the grammar, so the value of an expression is never a matter of which rule was tried first.", "quantifier": "every token sequence and every pair of derivations", "why_tests_cant": "quantifies over pairs of derivations", "anchors": ["src/syntax_tree.rs: read_expression", "src/token.rs: ORDERED_BINARY_OPERATORS"]}
{"id": "C12", "title": "Parsing never crashes and always finishes", "statement": "For every token sequence, building the syntax tree ends with a tree or a positioned syntax error: no panic (including the 'not in ORDERED_BINARY_OPERATORS' and unwrap panics) and no infinite loop.", "quantifier": "every token sequence", "why_tests_cant": "absence of panics/hangs over all inputs", "anchors": ["src/syntax_tree.rs: read_expression", "src/syntax_tree.rs: OperandOrOperator::unwrap_operand", "src/syntax_tree.rs: OperandOrOperator::unwrap_operator"]}
{"id": "C13", "title": "Operator precedence and left associativity", "statement": "'^' binds tighter than '%', which binds tighter than '*' and '/', which bind tighter than '+' and '-'; operators of one level group to the left (including '^').", "quantifier": "any two operators and any operand expressions around them, of any size", "why_tests_cant": "operands are arbitrary subexpressions", "anchors": ["src/token.rs: ORDERED_BINARY_OPERATORS", "src/syntax_tree.rs: read_expression"]}
{"id": "C14", "title": "Minus signs are disambiguated", "statement": "A '-' after an operand is subtraction; a '-' at the start of an expression, after an operator, or after sqrt/abs/max/min is negation, which binds tighter than every binary operator; any number of consecutive negations is allowed.", "quantifier": "any number of consecutive minus signs, any operands", "why_tests_cant": "unbounded runs of minus signs", "anchors": ["src/syntax_tree.rs: read_expression", "src/syntax_tree.rs: read_operand"]}
{"id": "C15", "title": "Accepted expressions have balanced parentheses", "statement": "If a token sequence is accepted, its parentheses are balanced and properly nested; consequently unbalanced input is always an error.", "quantifier": "every token sequence", "why_tests_cant": "all nestings", "anchors": ["src/syntax_tree.rs: read_parenthesized_node", "src/syntax_tree.rs: read_function_node"]}
{"id": "C16", "title": "Syntax errors point inside the input", "statement": "The span of every syntax error lies within the text spanned by the tokens, and the span of a built tree is exactly the span from its first to its last token.", "quantifier": "every token sequence coming from the tokenizer", "why_tests_cant": "all error paths of all inputs", "anchors": ["src/position.rs: Position::from_span", "src/position.rs: Position::from_between", "src/syntax_tree.rs: OperationNode::position"]}
{"id": "C17", "title": "Redundant parentheses are harmless", "statement": "Wrapping any accepted expression in a further pair of parentheses is accepted and evaluates to the same result (same value, or same failure) in every state.", "quantifier": "every expression, every variable store and database", "why_tests_cant": "all expressions and states", "anchors": ["src/syntax_tree.rs: read_parenthesized_node", "src/syntax_tree.rs: ParenthesizedNode"]}
{"id": "C18", "title": "Assignment syntax", "statement": "An input is an assignment exactly when it starts with a variable followed by '='; '=' anywhere else is a syntax error; an assignment evaluates the right side and yields its value.", "quantifier": "every token sequence", "why_tests_cant": "all placements of '='", "anchors": ["src/syntax_tree.rs: SyntaxTree::new"]}
{"id": "C19", "title": "Arithmetic is exact", "statement": "Evaluating +, -, *, /, negation, abs, max and min gives exactly the rational number that mathematics assigns to the expression; no precision is ever lost whatever the precision settings.", "quantifier": "every expression tree over these operators, every variable assignment, every setting", "why_tests_cant": "unbounded numbers and expressions", "anchors": ["src/syntax_tree.rs: BinaryNode::execute", "src/syntax_tree.rs: UnaryNode::execute", "src/syntax_tree.rs: FunctionNode::execute"]}
{"id": "C20", "title": "Division by zero is reported, not crashed on", "statement": "If a divisor evaluates to zero, the calculation fails with 'Cannot divide by 0' at that operator; a division with non-zero divisor always succeeds with the exact quotient.", "quantifier": "all operand expressions", "why_tests_cant": "all operand values", "anchors": ["src/syntax_tree.rs: BinaryNode::execute"]}
{"id": "C21", "title": "Modulus is the truncated remainder", "statement": "a % b is a - b*trunc(a/b): it differs from a by an integer multiple of b, has magnitude below |b| and the sign of a. For b = 0 an error should be reported (the code panics instead).", "quantifier": "all rationals a and b", "why_tests_cant": "all rationals", "anchors": ["src/syntax_tree.rs: BinaryNode::execute"]}
{"id": "C22", "title": "Integer powers are exact", "statement": "b^n for integer n is the exact rational power, b^-n = 1/b^n, b^0 = 1 (also for b = 0), whatever the precision. For b = 0 and n < 0 an error should be reported (the code panics instead).", "quantifier": "all rationals b, all integers n", "why_tests_cant": "unbounded values", "anchors": ["src/operations.rs: exponentiate"]}
{"id": "C23", "title": "No real root, no number", "statement": "Raising a negative radicand to an even root is reported as an error and never yields a number; odd roots of negative numbers yield negative numbers.", "quantifier": "all bases and exponents", "why_tests_cant": "all rationals", "anchors": ["src/operations.rs: exponentiate"]}
{"id": "C24", "title": "Perfect powers have exact roots", "statement": "If b^n is the d-th power of an integer k (k >= 0 for even d), then b^(n/d) evaluates to exactly k, whatever the precision. In particular sqrt of a perfect square is exact. Conversely a root is exact only if it is an integer: every other root, also one like sqrt 2.25 that is a fraction, is returned strictly too large in magnitude (and so printed with trailing zeros, 1.50000).", "quantifier": "all integers k, all degrees d >= 2", "why_tests_cant": "needs correctness of the bracketing search for every magnitude", "anchors": ["src/operations.rs: exponentiate"]}
{"id": "C25", "title": "Irrational roots are accurate to the configured precision", "statement": "When b^(n/d) is not exact, the returned value differs from the true real root by at most radix^-(precision+extra+1), and is never nearer to zero than it. (True whenever d*d*(d-1) is at most 2*radix^(precision+extra+1), so for every square root and, with the default settings, every degree up to thousands; for larger degrees the stopping rule guarantees only (d-1) times that, and the code does violate the property.)", "quantifier": "all radicands of magnitude >= 1, all degrees, all radix/precision settings", "why_tests_cant": "convergence and stopping for all inputs", "anchors": ["src/operations.rs: exponentiate"]}
{"id": "C26", "title": "Every calculation terminates", "statement": "Evaluating any expression finishes (with a value, an error or a crash): neither the bracketing search nor Newton's iteration can run forever.", "quantifier": "all expressions, states and settings", "why_tests_cant": "non-termination cannot be tested", "anchors": ["src/operations.rs: exponentiate", "src/syntax_tree.rs: SyntaxTree::execute"]}
{"id": "C27", "title": "Evaluation does not crash", "statement": "Evaluating an accepted expression never panics. (Violated: modulus by zero, zero to a negative power, fractional powers whose radicand lies strictly between -1 and 1 and is not 0, and 8-bit overflow of the precision sum in a checked build. Outside exactly these cases it holds.)", "quantifier": "all expressions, states and settings", "why_tests_cant": "absence of panics", "anchors": ["src/operations.rs: exponentiate", "src/syntax_tree.rs: BinaryNode::execute"]}
{"id": "C28", "title": "max and min", "statement": "max/min of a non-empty argument list returns one of the arguments, not smaller/greater than any other; with no argument an error is reported.", "quantifier": "argument lists of any length", "why_tests_cant": "all lists", "anchors": ["src/syntax_tree.rs: FunctionNode::execute"]}
{"id": "C29", "title": "The precision setting is honoured at its limits", "statement": "The internal precision used is precision+extra+1 for all accepted settings. (Violated when precision+extra >= 255: 8-bit overflow; a checked build panics, an unchecked build silently uses a tolerance of 1 or coarser than asked.)", "quantifier": "all 8-bit precision and extra values", "why_tests_cant": "only the extreme values fail", "anchors": ["src/syntax_tree.rs: UnaryNode::execute", "src/operations.rs: exponentiate", "src/commands.rs: PrecisionCommand"]}
{"id": "C30", "title": "Displayed numbers are correctly rounded", "statement": "The decimal display of a value denotes the multiple of radix^-precision nearest to it, ties away from zero; the error is at most half a unit of the last displayed place.", "quantifier": "all rationals, radix 2..16, precision 0..255", "why_tests_cant": "all rationals", "anchors": ["src/operations.rs: make_decimal_string"]}
{"id": "C31", "title": "Trailing zeros are significant", "statement": "If the value is exactly representable with the configured precision, the display has no trailing fractional zeros and no bare point; otherwise it shows exactly `precision` fractional digits.", "quantifier": "all rationals, radices, precisions", "why_tests_cant": "all rationals", "anchors": ["src/operations.rs: make_decimal_string"]}
{"id": "C32", "title": "Displayed numbers can be typed back", "statement": "Without commas, the displayed text of a value is accepted as input in the same radix and evaluates to exactly the displayed (rounded) value; when the value is exactly representable, to the value itself. So any answer given to the program again, in one-shot mode or in a session, prints the same number, and the text of that answer is printed again to the letter; in fraction mode (decimal input) every answer is printed again to the letter at once. (With another input radix the text of a fraction, which is always decimal, means another number.)", "quantifier": "all rationals, radix 2..16, precision 0..255, upper or lower case", "why_tests_cant": "composition of printer, lexer, parser and evaluator over all values", "anchors": ["src/operations.rs: make_decimal_string", "src/token.rs: Tokenizer::tokenize"]}
{"id": "C33", "title": "Thousands separators", "statement": "With commas enabled the integer part is split in groups of exactly three from the right, the first group having one to three digits; removing the commas gives the display without commas.", "quantifier": "all values", "why_tests_cant": "all lengths", "anchors": ["src/operations.rs: make_decimal_string"]}
{"id": "C34", "title": "Upper-case setting only changes letter case", "statement": "Switching the upper setting changes the display only by the case of letter digits: upper output has no lower-case letter, lower output no upper-case letter, and they agree up to case.", "quantifier": "all values and settings", "why_tests_cant": "all values", "anchors": ["src/operations.rs: make_decimal_string"]}
{"id": "C35", "title": "Sign of displayed numbers", "statement": "The display starts with '-' exactly when the value is negative, and contains no other '-'.", "quantifier": "all values and settings", "why_tests_cant": "all values", "anchors": ["src/operations.rs: make_decimal_string"]}
{"id": "C36", "title": "Fractional display is exact", "statement": "In fractional mode the output is numerator/denominator in lowest terms (just the numerator for integers), in base ten, and denotes exactly the value. (It ignores the output radix, contrary to the documented meaning of the radix setting.)", "quantifier": "all rationals and settings", "why_tests_cant": "all rationals", "anchors": ["src/main.rs: calculate"]}
{"id": "C37", "title": "Any accepted output radix can display any number", "statement": "For every output radix accepted on the command line or by /converttoradix, displaying any value succeeds. (Violated: --convert-to-radix 1 is accepted and makes every display panic; it holds for 2..16.)", "quantifier": "all accepted radices, all values", "why_tests_cant": "all values", "anchors": ["src/main.rs: Args", "src/operations.rs: make_decimal_string"]}
{"id": "C38", "title": "A variable keeps its last assigned value", "statement": "After a successful '$v = e' the value of $v is the value of e, and stays so through any sequence of further inputs that neither assign, reload nor purge $v, whatever other processes do to the database.", "quantifier": "all sequences of inputs of any length, all interleaved database changes", "why_tests_cant": "unbounded histories", "anchors": ["src/variable.rs: VariableStore::update", "src/variable.rs: VariableStore::get", "src/syntax_tree.rs: SyntaxTree::execute"]}
{"id": "C39", "title": "Failed calculations change no variable", "statement": "If an input fails while being parsed or evaluated (syntax error, unknown variable, division by zero, no real root, missing arguments), then no variable's value as seen by later inputs changes, and the values stored in the database do not change.", "quantifier": "all inputs, states and fault schedules", "why_tests_cant": "all failing inputs", "anchors": ["src/syntax_tree.rs: SyntaxTree::execute", "src/main.rs: calculate"]}
{"id": "C40", "title": "Saved variables come back exactly", "statement": "The value of a variable written to the database is read back exactly equal by a later session, for numbers of any size and sign.", "quantifier": "all rationals, all names", "why_tests_cant": "all values", "anchors": ["src/saved_data.rs: SavedData::set_variable", "src/saved_data.rs: SavedData::get_variable"]}
{"id": "C41", "title": "Purged variables are gone", "statement": "After /purgevar of a variable it is unknown, both in this session and in the database, until assigned again; no other variable is affected.", "quantifier": "all states and name lists", "why_tests_cant": "all states", "anchors": ["src/variable.rs: VariableStore::purge", "src/commands.rs: PurgeVarCommand", "src/saved_data.rs: SavedData::clear_variable"]}
{"id": "C42", "title": "Reload takes the stored value", "statement": "/reloadvar sets each listed variable that exists in the database to its stored value and leaves every other variable of the session unchanged.", "quantifier": "all states and name lists", "why_tests_cant": "all states", "anchors": ["src/variable.rs: VariableStore::reload", "src/commands.rs: ReloadVarCommand"]}
{"id": "C43", "title": "Unknown variables are errors", "statement": "Using a variable that is neither in the session nor in the database is reported as an error naming it, at its position; without a variable store the error says so.", "quantifier": "all expressions and states", "why_tests_cant": "all states", "anchors": ["src/syntax_tree.rs: VariableNode::execute", "src/variable.rs: VariableStore::get"]}
{"id": "C44", "title": "Assignments survive database failure in the session", "statement": "If storing an assignment in the database fails, an error is reported but the session's own variable still has the new value.", "quantifier": "all states, all failures", "why_tests_cant": "failure injection at every point", "anchors": ["src/variable.rs: VariableStore::update"]}
{"id": "C45", "title": "The saved history is exactly the newest inputs", "statement": "After any sequence of operations by any number of concurrent sessions, the saved history is the most recent inputs in order, as many as the capacity in force at each point allowed: adding puts the input in front and drops only the oldest entries beyond the capacity.", "quantifier": "all interleavings of all sessions' operations of any length, all capacities >= 1", "why_tests_cant": "unbounded histories and interleavings", "anchors": ["src/saved_data.rs: SavedData::add_to_input_history", "src/saved_data.rs: enforce_history_size_with_transaction"]}
{"id": "C46", "title": "Database operations never corrupt or wedge the database", "statement": "From a fresh database, after any sequence of operations by any number of sessions, the stored list is a well-formed doubly linked list with correct ends, all references resolve, and adding inputs or changing the capacity cannot fail with a constraint or missing-value error.", "quantifier": "all interleavings of operations", "why_tests_cant": "inductive invariant over histories", "anchors": ["src/saved_data.rs: SavedData::add_to_input_history", "src/saved_data.rs: enforce_history_size_with_transaction"]}
{"id": "C47", "title": "History ids are never reused", "statement": "The id given to a newly recorded input is larger than every id ever given before, so a remembered id never comes to denote a different input.", "quantifier": "all operation histories (ids below 2^63)", "why_tests_cant": "unbounded histories with evictions", "anchors": ["src/saved_data.rs: SavedData::add_to_input_history", "src/saved_data.rs: get_prev_input_history"]}
{"id": "C48", "title": "Scrollback shows the earlier sessions' inputs, newest first", "statement": "Successive scrollback requests of a session return the inputs that were in the saved history when the session opened, newest first, each at most once, stopping early only if the rest has been evicted, and never an input recorded after the session opened, whatever other sessions do in between.", "quantifier": "all interleavings", "why_tests_cant": "concurrent insertion and eviction", "anchors": ["src/saved_data.rs: get_prev_input_history", "src/saved_data.rs: SavedData::open"]}
{"id": "C49", "title": "Variables live as long as their last use", "statement": "A variable stays in the database exactly as long as the input that last set or used it is in the saved history: eviction of an input removes exactly the variables last used by it.", "quantifier": "all operation histories", "why_tests_cant": "unbounded histories", "anchors": ["src/saved_data.rs: set_variable", "src/saved_data.rs: touch_variable", "src/saved_data.rs: enforce_history_size_with_transaction"]}
{"id": "C50", "title": "History capacity", "statement": "/histcap n (n >= 1) makes the capacity n, keeps the newest n inputs and drops the rest; values below 1 are rejected without any change; /histcap prints the capacity in force.", "quantifier": "all sizes, all states", "why_tests_cant": "all states", "anchors": ["src/commands.rs: HistoryCapacityCommand", "src/saved_data.rs: set_max_history_size", "src/saved_data.rs: validate_max_history_size"]}
{"id": "C51", "title": "Crash safety of the saved data", "statement": "If the process dies at any point during the handling of an input, the database is left in a well-formed state that is one of the committed intermediate states: the input recorded or not, and then each variable either at its old or at its new value.", "quantifier": "all crash points (between and inside transactions) of all inputs", "why_tests_cant": "crash points cannot be enumerated by tests", "anchors": ["src/saved_data.rs: SavedData", "src/main.rs: calculate"]}
{"id": "C52", "title": "Opening is idempotent and version-safe", "statement": "Opening an existing database changes nothing in it; opening a fresh one yields an empty history with capacity 100; a database that declares a newer minimum version is refused and left untouched.", "quantifier": "all database contents", "why_tests_cant": "all contents", "anchors": ["src/saved_data.rs: SavedData::open"]}
{"id": "C53", "title": "History navigation never crashes", "statement": "Whatever keys are pressed, the line editor always has a current line to show: no out-of-range access in the input history is possible.", "quantifier": "all sequences of keys, history contents and database answers", "why_tests_cant": "unbounded key sequences", "anchors": ["src/input_history.rs: InputHistory::current_line", "src/input_history.rs: try_to_go_to_earlier_line"]}
{"id": "C54", "title": "Editing a recalled line does not change the history", "statement": "Recorded inputs never change or disappear in the session: editing a recalled line and pressing Enter appends the edited text as a new entry, and after Enter every older line is shown unedited again.", "quantifier": "all sequences of edits and navigation", "why_tests_cant": "unbounded sequences", "anchors": ["src/input_history.rs: InputHistory"]}
{"id": "C55", "title": "Up and Down are inverse", "statement": "Moving up and then down shows the line one came from including its pending edits; Down at the newest line and Up at the oldest do nothing.", "quantifier": "all editor states", "why_tests_cant": "all states", "anchors": ["src/input_history.rs: try_to_go_to_earlier_line", "src/input_history.rs: try_to_go_to_later_line"]}
{"id": "C56", "title": "What you see is what is evaluated and recorded", "statement": "On Enter the line shown is exactly the text that is evaluated, the text appended to the session history and the text recorded in the database.", "quantifier": "all editor histories", "why_tests_cant": "all states", "anchors": ["src/main.rs: interactive_calc", "src/input_history.rs: input_finished"]}
{"id": "C57", "title": "The cursor stays within the line", "statement": "At all times the cursor is between 0 and the length of the current line, so that insertions, deletions and display slices are always in range.", "quantifier": "all event sequences", "why_tests_cant": "unbounded event sequences", "anchors": ["src/main.rs: interactive_calc"]}
{"id": "C58", "title": "Parenthesis jump finds the match", "statement": "Ctrl+N on a parenthesis moves the cursor to the matching one (the text in between is balanced and every proper prefix is not), does nothing when there is none, and jumping twice returns.", "quantifier": "all lines and cursor positions", "why_tests_cant": "all nestings", "anchors": ["src/main.rs: interactive_calc"]}
{"id": "C59", "title": "The scrolled view shows the cursor", "statement": "In scrolling mode the drawn line never exceeds the terminal width, shows a contiguous slice of the line, marks hidden text on the left/right exactly when there is some, and contains the cursor (in terminals with at least 6 columns; with 5 columns the cursor can fall outside).", "quantifier": "all lines, cursor positions, scroll offsets and widths", "why_tests_cant": "all widths and offsets", "anchors": ["src/main.rs: interactive_calc"]}
{"id": "C60", "title": "The wrapped view shows everything", "statement": "In wrapping mode the drawn rows concatenate to the whole line, fit the terminal, and the cursor is drawn on the character it is at. (With exactly 2 columns the program divides by zero.)", "quantifier": "all lines, cursor positions and widths", "why_tests_cant": "all widths", "anchors": ["src/main.rs: interactive_calc"]}
{"id": "C61", "title": "Editing keys do what they say", "statement": "Typing inserts the character at the cursor, Backspace removes the character before it, Delete the one at it, arrows/Home/End move within the line by the documented distance, and nothing else of the line changes.", "quantifier": "all lines, cursor positions and keys", "why_tests_cant": "all states", "anchors": ["src/main.rs: interactive_calc", "src/input_history.rs: insert_char_into_current_line", "src/input_history.rs: remove_char_from_current_line"]}
{"id": "C62", "title": "Settings stay valid", "statement": "In any session the radix stays in 2..16, the output radix is unset or in 2..16, and precision+extra stays at most 255, if they were so initially.", "quantifier": "all sequences of inputs", "why_tests_cant": "unbounded sessions", "anchors": ["src/commands.rs: RadixCommand", "src/commands.rs: ConvertToRadixCommand", "src/commands.rs: PrecisionCommand"]}
{"id": "C63", "title": "Failing inputs change no setting", "statement": "An input that ends in an error leaves every setting as it was; so does every input that is not a setting command.", "quantifier": "all inputs and states", "why_tests_cant": "all inputs", "anchors": ["src/commands.rs: CommandExecutor::execute_command", "src/main.rs: calculate"]}
{"id": "C64", "title": "Settings read back what was set", "statement": "After setting any setting by its command, the same command without argument prints the value set.", "quantifier": "all values and states", "why_tests_cant": "all values", "anchors": ["src/commands.rs: RadixCommand", "src/commands.rs: PrecisionCommand", "src/commands.rs: UpperCommand", "src/commands.rs: CommaCommand", "src/commands.rs: FractionalCommand", "src/commands.rs: ConvertToRadixCommand", "src/commands.rs: HistoryCapacityCommand"]}
{"id": "C65", "title": "Commands change only what they name", "statement": "Each setting command changes only its own setting; no setting command touches variables or saved data other than recording the input.", "quantifier": "all commands, arguments and states", "why_tests_cant": "all arguments", "anchors": ["src/commands.rs: Command::execute"]}
{"id": "C66", "title": "Command dispatch is unambiguous", "statement": "Every command name and alias resolves to exactly one command, an alias behaves exactly as the command it abbreviates, anything else is reported as 'No such command', and start-up never panics over the command table.", "quantifier": "all strings as command names", "why_tests_cant": "all names", "anchors": ["src/commands.rs: CommandExecutor::new", "src/commands.rs: CommandExecutor::execute_command"]}
{"id": "C67", "title": "Results do not depend on hash order", "statement": "The program iterates hash sets of variable names; whatever the iteration order, the resulting session variables and saved data are the same and the messages differ only in the order of lines.", "quantifier": "all permutations", "why_tests_cant": "nondeterministic iteration order", "anchors": ["src/commands.rs: ReloadVarCommand", "src/commands.rs: PurgeVarCommand", "src/main.rs: calculate"]}
{"id": "C68", "title": "One-shot mode", "statement": "With --input the result depends only on the input and the options: no history, variables or database are read or written, and using a variable is reported as an error.", "quantifier": "all inputs and options", "why_tests_cant": "all inputs", "anchors": ["src/main.rs: main", "src/main.rs: calculate"]}
{"id": "C69", "title": "Every entered line is recorded before it is evaluated", "statement": "In a session every entered line (also empty, failing, or command lines) is appended to the session history, and to the database when there is one; the internal-inconsistency errors about missing input ids cannot occur.", "quantifier": "all inputs and sessions", "why_tests_cant": "all sessions", "anchors": ["src/main.rs: calculate", "src/input_history.rs: input_finished", "src/variable.rs: VariableStore::touch"]}
{"id": "C70", "title": "Editing a line composes", "statement": "Any sequence of editing keys (typing, Backspace, Delete, Left/Right, Home, End, resizes, ignored keys) changes the shown line and the cursor exactly as the same operations on a text with a cursor would; nothing is printed and nothing else about the session changes; and in a window of at least five columns it never fails.", "quantifier": "all reachable editor states, all sequences of editing events of any length, all terminal sizes", "why_tests_cant": "must hold for all sequences", "anchors": ["src/main.rs: main", "src/input_history.rs: InputHistory"]}
{"id": "C71", "title": "The keyboard is transparent", "statement": "Whatever keys are used to produce the lines of a session at the keyboard, the printed answers, the remembered history, the variables, the settings and the database are those obtained by giving the finished lines to the calculator one after the other; and every conversation that does not crash the calculator can be typed in a window of at least five columns.", "quantifier": "all sequences of lines, all ways of typing them, all window sizes", "why_tests_cant": "must hold for all sequences", "anchors": ["src/main.rs: main", "src/main.rs: calculate", "src/input_history.rs: InputHistory"]}
{"id": "C72", "title": "Every answer is right", "statement": "Whenever the calculator prints a result for a line that is no command - at the keyboard or in one-shot mode, with any settings and any database shared with others - the line is blank and nothing is printed, or the line reads, in exactly one way, as a sequence of words forming an expression or an assignment, and the printed text displays a value of that expression (exact up to the asked tolerance for irrational roots) for the values that the variables have in the session or in the database.", "quantifier": "all lines, settings, sessions, reachable databases and schedules of others' operations", "why_tests_cant": "composes lexer, parser, evaluator, variable lookup and printer for all inputs", "anchors": ["src/main.rs: calculate", "src/token.rs: tokenize", "src/syntax_tree.rs: SyntaxTree::new", "src/syntax_tree.rs: SyntaxTree::execute"]}
{"id": "C73", "title": "Every complaint is justified", "statement": "If nobody else uses the database, every error for a line that is no command points at a place in the line and is justified: a character there is not ASCII, a word there means nothing, the words form no expression or assignment, or reading from the left the first part of the expression without a value is there - a variable without a value, a division by zero, an even root of a negative number, max() or min() - and the message says which; in one-shot mode also any variable.", "quantifier": "all lines, settings, sessions and reachable databases", "why_tests_cant": "every error path of the whole pipeline, for all inputs", "anchors": ["src/main.rs: calculate", "src/syntax_tree.rs: SyntaxTree::execute", "src/error.rs: CalculatorFailure"]}
{"id": "C74", "title": "Nothing is refused without a reason", "statement": "If nobody else uses the database, every line that reads as an expression or assignment with an exact value is answered, and the answer displays that value; a line whose first part without a value is at p is refused with the message that says why, at p; lines with characters or words that mean nothing, or with words that form no expression, are refused; blank lines are answered by nothing.", "quantifier": "all lines, settings, sessions and reachable databases", "why_tests_cant": "completeness of the whole pipeline, for all inputs", "anchors": ["src/main.rs: calculate", "src/syntax_tree.rs: SyntaxTree::execute", "src/operations.rs"]}
{"id": "C75", "title": "Syntax errors name a real defect, at its place", "statement": "Every syntax error names a defect that the line really has, at the place where it is: an operator without an operand before or after it, the gap between two operands, a parenthesis that is never closed or never opened, empty parentheses, a comma outside of the arguments of a function or without an operand, a function without arguments, a misplaced =; words with such a defect are never accepted, and words without one always are.", "quantifier": "all token sequences in order, hence all lines", "why_tests_cant": "must hold for every malformed line and every error path of the parser", "anchors": ["src/syntax_tree.rs: SyntaxTree::new", "src/error.rs: SyntaxError", "src/position.rs: Position::from_between"]}
{"id": "C76", "title": "A refused command says what is wrong with it", "statement": "A command complains exactly when its arguments are not acceptable, and the message names the reason: an unknown name given to /help, an argument of a switch that is neither true nor false, an argument list that is no list of integers or variables (naming the first offending word or token), too many arguments, a radix outside 2..16, a precision or sum of precisions outside 0..255, a history capacity below 1, or a missing database or variable store. There is never more than one complaint, and a refused command changes nothing. The place reported for /help and for the switches is that of the offending text in the line; for integer and variable lists it is counted from the beginning of the argument text (documented deviation).", "quantifier": "every command line, every command and argument text, every session state", "why_tests_cant": "Argument texts are unbounded and the reason must be the right one, at the right place, for every one of them; tests only sample a few bad arguments.", "anchors": ["src/commands.rs: HelpCommand::execute", "src/commands.rs: RadixCommand::execute", "src/commands.rs: ConvertToRadixCommand::execute", "src/commands.rs: PrecisionCommand::execute", "src/commands.rs: HistoryCapacityCommand::execute", "src/commands.rs: FractionalCommand::execute", "src/commands.rs: ReloadVarCommand::execute", "src/commands.rs: PurgeVarCommand::execute", "src/token.rs: tokenize_int_list", "src/token.rs: tokenize_variable_list", "src/position.rs: Positioned<String>::trim"]}
{"id": "C77", "title": "Sessions without a database are private", "statement": "Started with --no-db, the program behaves exactly the same whatever database exists next to it (every drawing, every answer, the final state), never holds a database and so cannot change one; no run ends with, and no line is answered with, a database error; and the lines that can be recalled are exactly the lines entered in this session: after Enter, n presses of Up show the n-th newest of them, and the oldest stays.", "quantifier": "all databases (with any contents, schedule of failures and concurrent writers), all settings, terminals, and all sequences of key events", "why_tests_cant": "It is a non-interference property over two runs with arbitrary databases and unbounded event sequences; tests can only compare single runs.", "anchors": ["src/main.rs: interactive_calc (no_db)", "src/input_history.rs: InputHistory::new, try_to_go_to_earlier_line, input_finished", "src/variable.rs: VariableStore"]}
{"id": "C78", "title": "What one session leaves, the next one finds", "statement": "When no other session uses the database: after a session in which some lines were entered (none changing the capacity), the saved history is the old one followed by these lines, cut to the capacity; in the next session n presses of Up show the n-th newest of them and stay at the oldest; a variable that was assigned to, or used while stored, is found with the same value by the first line of the next session, as long as the lines in between (the finding line included) are fewer than the capacity and none of them assigns to it, purges it or changes the capacity; and no event other than Enter, those that end the session included, changes the saved data.", "quantifier": "all reachable databases, settings, terminals, all sequences of key events in the first session, any number of presses of Up in the second, all lines", "why_tests_cant": "It relates two whole sessions through the file; the bound on the number of lines is a relation between unbounded histories and an arbitrary capacity.", "anchors": ["src/main.rs: interactive_calc", "src/saved_data.rs: SavedData::open, add_to_input_history, get_prev_input_history, set_variable, get_variable", "src/input_history.rs: InputHistory", "src/variable.rs: VariableStore"]}
{"id": "C79", "title": "Commands do what help says", "statement": "/help alone lists every command exactly once under its full name, in alphabetical order, one per line with the descriptions in one column, and marks as unavailable exactly the commands that lack the database or the place for variables they work with; /help with any name of a command gives the usage of that command, the other names it goes by, and says that it is unavailable exactly when it is. A command marked unavailable is never carried out, whatever its arguments; any other command is carried out without arguments; and in a session nobody disturbs a command is carried out whenever there is nothing to object to in its arguments.", "quantifier": "all sessions (with and without database, history, variables, and one-shot mode), all settings, all lines that are commands under any of their names with any argument text", "why_tests_cant": "It ranges over all argument texts and all session states, and ties the help texts to the behaviour of every command in each of them.", "anchors": ["src/commands.rs: HelpCommand, Command::short_help, long_help, CommandExecutor::execute_command", "src/main.rs: calculate"]}
{"id": "C80", "title": "What can crash the program", "statement": "A line without a modulus, a power or a square root — any command and anything that is not understood included — always comes to a result or an error message, whatever fails in the database and whatever other sessions do to it meanwhile. A line crashes the program exactly if it is an expression whose evaluation comes to a modulus by zero or to a power or root that cannot be computed. In a session an event crashes the program only if it is Enter on a line with one of those operations, or if the window is too narrow, or if the text would go past row 65535; in a window of a usual size everything else is carried out, but for Up when the database fails.", "quantifier": "all lines, all sessions with valid settings and any database the program made, all failures of database operations and all interleavings with other sessions, all states of the editor after any events, all further events", "why_tests_cant": "It ranges over all lines, all database contents, all failure points, all interleavings with other processes and all event histories.", "anchors": ["src/main.rs: calculate, interactive_calc, one_shot", "src/operations.rs: Operator implementations, to_power", "src/saved_data.rs: SavedData", "src/commands.rs: CommandExecutor::execute_command", "src/syntax_tree.rs: SyntaxTree::execute"]}
{"id": "C81", "title": "The terminal is left as it was found", "statement": "Whenever the interactive program ends by itself, because the user quit or because anything failed (the terminal at any operation, the database, an event that is not supported), the terminal is out of raw mode and on the normal screen again, as before the start. Everything in between is written, asked and read in raw mode, on the alternate screen exactly if the option says so, whatever commands are given. Without failures at the terminal the program ends as the session does. (Only a crash leaves the terminal in raw mode and on the alternate screen.)", "quantifier": "all settings, all results of opening the database, all event sequences and answers of the terminal, all points at which an operation on the terminal fails", "why_tests_cant": "It ranges over all event sequences and every point at which the terminal may fail.", "anchors": ["src/main.rs: main, interactive_calc", "src/commands.rs: CommandExecutor::execute_command"]}
{"id": "C82", "title": "A redraw shows the line and touches nothing else", "statement": "On the normal screen a redraw replaces the row of the cursor, whatever was in it, by the prompt and the line or the part of it that fits, with marks where text is hidden, puts the cursor on the character it is at, and changes no other row; nothing scrolls. On the alternate screen nothing above the row in which the input starts changes and nothing scrolls; if the input fits on the screen it is shown in full, later rows indented, nothing remains below, and the cursor is on the character it is at.", "quantifier": "all states of the editor after any events, all screens and their contents", "why_tests_cant": "It ranges over all event histories and all contents of the screen.", "anchors": ["src/main.rs: interactive_calc"]}
{"id": "C83", "title": "The normal screen has the whole session", "statement": "On the normal screen, after any events, the screen with its scrollback has from the row on which the program was started all the inputs of the session with their outputs below them, in full and in order, then the row in which the current line is edited, and nothing after that; what was above is untouched. This is what the program has written from its start on; when the user quits, it stays there, and the cursor is on a blank row below.", "quantifier": "all sessions on a terminal of at least 6 columns, all event sequences without a change of the window size, all contents of the screen before", "why_tests_cant": "It ranges over all event histories and screens.", "anchors": ["src/main.rs: interactive_calc, calculate"]}
{"id": "C84", "title": "The alternate screen shows the whole session while there is room", "statement": "On the alternate screen, after any events, as long as there is a row left for the prompt, the screen shows from the first row on all the inputs with their outputs, in full and in order, and has not scrolled; the current line follows, in full, if it fits, with the cursor where it belongs, and then nothing. (Once the prompt is on the last row nothing scrolls any more: an answer is erased as soon as it is shown.)", "quantifier": "all sessions on the alternate screen, all event sequences without a change of the window size", "why_tests_cant": "It ranges over all event histories and screens.", "anchors": ["src/main.rs: interactive_calc, calculate"]}
{"id": "C85", "title": "The database never changes an answer", "statement": "The answer to a line that is no command depends only on the settings and on the values that the line finds for its variables: not on the history, not on what else is in the database, not on the order in which sets are iterated. A session that already knows the variables stored in its database (a fresh one, for instance) gives, line for line, the answers that a session without a database gives, whatever is entered — expressions, assignments, nonsense, commands for settings, /purgevar — except for /help, /reloadvar and /histcap, which speak of the database; and the values and settings afterwards are the same.", "quantifier": "all lines and all sequences of lines, all settings, all databases the program made, all histories, all hash orders", "why_tests_cant": "It compares two runs over all sequences of lines and all contents of databases and histories.", "anchors": ["src/main.rs: calculate", "src/variable.rs: VariableStore", "src/syntax_tree.rs: SyntaxTree::execute, SyntaxTreeNode::execute", "src/commands.rs: CommandExecutor::execute_command"]}
{"id": "C86", "title": "A value can be given a name", "statement": "Where a name has the value of an expression — right after the expression, which does not mention the name, was assigned to the name, or whenever assigning it again would give the value that the name already has — the name can be replaced by the expression in parentheses, anywhere in a well-formed expression or on the right of an assignment: the line gets the same answer, or the same complaint apart from its place, and the same values are found afterwards.", "quantifier": "all expressions, all names, all contexts of a well-formed line, all settings, all sessions whose database nobody else uses, all valuations", "why_tests_cant": "It compares two runs of the calculator over all expressions, contexts and valuations.", "anchors": ["src/syntax_tree.rs: SyntaxTree::new, SyntaxTreeNode::execute", "src/main.rs: calculate", "src/variable.rs: VariableStore", "src/token.rs: tokenize"]}
{"id": "C87", "title": "Identities of rational arithmetic hold to the last digit", "statement": "Sums, differences, products, quotients, remainders, signs, absolute values, maxima, minima and natural powers are computed without any rounding, however deeply nested: two expressions built with them and with numerals that denote the same rational number whatever their parts denote get, wherever the first has an answer, the same answer, to the last digit shown, whatever expressions (roots included) are put in for the parts, in every radix and precision. For example a*(b+c) and a*b+a*c, or (a/b)*b and a, or (a%b)%b and a%b.", "quantifier": "all identities between forms built from these operations, all expressions in the holes, all settings, all sessions whose database nobody else uses", "why_tests_cant": "It ranges over all identities and over all expressions put in them.", "anchors": ["src/syntax_tree.rs: SyntaxTreeNode::execute, SyntaxTree::new", "src/token.rs: tokenize", "src/main.rs: calculate"]}
{"id": "C88", "title": "How numbers are shown never changes what is calculated", "statement": "Two sessions that agree in everything but the settings for showing numbers (fractional, commas, upper, output radix) do the same with every line: both answer or both fail with the same failure; the answers to an expression or assignment show the same number, each in its session's way, and to a command are the same text unless the command shows one of those settings; afterwards database, history, variables and all other settings are equal again. The same holds for whole dialogues, for the interactive program under the same keys (same drawings of the input line, same failures), and for starting it.", "quantifier": "all lines, settings in range, sessions, database behaviours (including errors, crashes and other processes), key sequences and terminals", "why_tests_cant": "It compares two runs for every line, every pair of display settings and every database behaviour; tests look at single runs.", "anchors": ["src/main.rs: calculate, interactive_calc, Args", "src/commands.rs: all commands", "src/syntax_tree.rs: SyntaxTree::execute", "src/operations.rs"]}
{"id": "C89", "title": "Printed digits are right, roots included", "statement": "If mathematics assigns the real number x to the typed expression, the number printed is a multiple of the last place and differs from x by at most half a unit in the last place plus the errors of the roots taken, which are radix^-(precision+extra+1) for each root of an exact number and add up through sums, products, quotients, square roots, max and min as in error analysis (no errors from anything else); printed as a fraction, by at most the errors of the roots. In particular sqrt of a numeral is printed right up to (1/2 + radix^-(extra+1)) units, never more than one unit, in the last place, if the output radix is not larger than the input radix. (With a larger output radix the code does print wrong digits.)", "quantifier": "all lines that read as an expression or assignment, settings in range, sessions whose database nobody else uses, one-shot mode", "why_tests_cant": "ranges over all real values and all nestings of operations; a test compares finitely many digits of finitely many roots", "anchors": ["src/main.rs: calculate", "src/operations.rs: exponentiate", "src/syntax_tree.rs: SyntaxNode::execute", "src/syntax_tree.rs: SyntaxTree::execute"]}
{"id": "C90", "title": "A line looks only at the variables that occur in it", "statement": "Two sessions with the same settings in which the variables that occur in the line have the same values (or lack values alike) answer the line in the same way, to the letter, errors included, whatever other variables, histories and databases they have. A line without variables is answered alike in all sessions with the same settings.", "quantifier": "all lines that are no commands, all pairs of sessions whose databases nobody else uses, all settings in range", "why_tests_cant": "compares two runs over all contents of the rest of the state", "anchors": ["src/main.rs: calculate", "src/syntax_tree.rs: SyntaxTree::execute", "src/variable.rs: VariableStore"]}
{"id": "C91", "title": "Independent lines can be entered in either order", "statement": "If two consecutive lines of a dialogue are expressions or assignments and neither assigns to a variable that occurs in the other, entering them in the other order gives each the same answer (errors included), leaves all other answers of the dialogue the same, and ends with the same settings and the same values of variables.", "quantifier": "all dialogues (any lines before and after, commands about the database excepted), all sessions whose database, if any, nobody else uses and whose stored variables are known", "why_tests_cant": "quantifies over pairs of histories of any length", "anchors": ["src/main.rs: calculate", "src/syntax_tree.rs: SyntaxTree::execute", "src/variable.rs: VariableStore"]}
{"id": "C92", "title": "Lines that fail or only calculate leave no trace", "statement": "A line that got an error - an expression, an assignment, or a refused command - and an expression that is not assigned can be left out of a dialogue: all other answers stay the same and the settings and values of variables in the end are the same.", "quantifier": "all dialogues (any lines before and after, commands about the database excepted), all sessions whose database, if any, nobody else uses and whose stored variables are known", "why_tests_cant": "compares two histories of any length; a failing line may fail at any point of its processing", "anchors": ["src/main.rs: calculate", "src/syntax_tree.rs: SyntaxTree::execute", "src/variable.rs: VariableStore", "src/commands.rs: CommandExecutor::execute_command"]}
{"id": "C93", "title": "Printed numbers keep their order", "statement": "If mathematics assigns x to one expression and y to another, the roots in them being off by at most d and d' in all, and x + d + d' <= y, then the number printed for the first is at most the number printed for the second (under the same settings, whatever the radix, precision, signs and commas), and less if y - x - d - d' is at least a unit in the last place. Printed as fractions the numbers are strictly in order whenever x + d + d' < y. So the same text is never printed for numbers that are a unit in the last place apart, and a text stands for one number only.", "quantifier": "all pairs of lines that read as expressions or assignments, settings in range, one-shot mode and sessions whose database nobody else uses", "why_tests_cant": "ranges over all pairs of inputs; rounding errors that break monotonicity show only next to ties", "anchors": ["src/main.rs: calculate", "src/operations.rs: make_decimal_string", "src/syntax_tree.rs: SyntaxTree::execute"]}
{"id": "C94", "title": "One line on one stream", "statement": "With --input and a line that is no command the program writes either a right answer, in one line, to standard output and nothing to standard error, or nothing to standard output and 'Error: ' and a justified complaint, in one line, to standard error; the exit status is 0 in both cases. Otherwise it panics, with exit status 101. Whatever the input (commands included), exactly one of the streams is written to and the exit status is never 1; and the program always ends. In a session too, answers to and complaints about lines that are no commands are single lines. An interactive session ends with exit status 0 only after Ctrl+C, Ctrl+D or Ctrl+Z, and whenever its status is 0 or 1 the terminal is as before. (So a failure of the input cannot be seen from the exit status: 1/0 ends with 0.)", "quantifier": "all inputs, all settings in range, all sessions, all sequences of events and faults of the terminal", "why_tests_cant": "ranges over all inputs and all ways to fail; the texts contain parts of the input", "anchors": ["src/main.rs: main", "src/main.rs: calculate", "src/error.rs: SyntaxError", "src/error.rs: ParseError"]}
{"id": "C95", "title": "The command line means what it says", "statement": "The program starts exactly on those command lines that are a sequence of its options, each in one of the usual forms (--name, --name=value, --name value, -x, -xvalue, -x=value, -x value, letters together), none given twice, all numbers in their ranges; it then has the values given and the defaults for everything else, and evaluates the input if there is one. The order of the options and the form of each do not matter. On every other command line nothing is evaluated, and the exit status is 2, or 0 if help or the version was asked for. Every combination of settings in range, with any line, can be given; any line at all after '--input='. A line that is no command is then answered rightly or refused with a justified complaint, in these settings. (A line that begins with a minus sign is refused after -i.)", "quantifier": "all command lines, all settings, all lines", "why_tests_cant": "ranges over all command lines; options interact (duplicates, letters together, words that look like options)", "anchors": ["src/main.rs: Args", "src/main.rs: main", "Cargo.toml: clap"]}
{"id": "C96", "title": "Powers take back roots to the last printed digit", "statement": "Whatever expression A stands for, ((sqrt(A))^(2)) prints the value of A again, if that value has no more digits than are printed, and differs from it by at most radix^-(2*(precision+extra+1)) in any case; (sqrt((A)^(2))) prints the absolute value of A, if it is at least one; (((A)^((1)/(n)))^(n)) prints the value of A, as long as it is not so large that n*(n-1)/2 * root^(n-2) * radix^-(2*(precision+extra+1)) reaches half a unit in the last place. (Beyond that the code does violate it.)", "quantifier": "all expressions, all degrees, all sessions with all settings with precision+extra <= 254 and an output radix up to the square of the input radix", "why_tests_cant": "ranges over all numbers; Newton's iteration stops at a tolerance that says nothing about the power of the result directly", "anchors": ["src/operations.rs: exponentiate", "src/syntax_tree.rs: UnaryNode::execute", "src/main.rs: calculate"]}
{"id": "C97", "title": "Roots take few iterations", "statement": "Whatever the settings, the square root of a number that is zero or at least one is found within 11 iterations of Newton's method, however large the number is; a root of degree d within d*(d-1+4*(precision+extra+1))+2 iterations, whatever the number is. The binary search for where to start is left after at most as many rounds as the whole part of the number has binary digits. A line therefore ends (with an answer, an error or a crash) as soon as that many iterations are allowed for each power its evaluation comes to.", "quantifier": "all numbers, degrees, expressions, lines and sessions with all valid settings", "why_tests_cant": "ranges over all numbers and degrees; an input on which the iteration is slow would not be found by trying ('Otherwise it takes forever', as the source has it)", "anchors": ["src/operations.rs: exponentiate", "src/syntax_tree.rs: BinaryNode::execute, UnaryNode::execute", "src/main.rs: calculate"]}
{"id": "C98", "title": "Sessions can run side by side", "statement": "Any number of sessions share a database; they are opened, end, are killed, process lines and die while processing lines, in any order. The saved history is then what it was, followed by all the lines that came to be recorded, of whichever session, in the order in which they were entered, cut to the capacity. A value that one session assigns to a variable is found by every other session that has no value of its own for it, until as many lines have been entered as the capacity allows or one of them sets or removes it. A session that has a value of its own keeps it until it sets it itself; when it enters /reloadvar it has the one assigned last, by whichever session. The answer to a line whose variables have values in the session does not depend on the others.", "quantifier": "all numbers of sessions, all schedules of opening, ending, killing, lines and crashes (also between the transactions of a line), all lines, settings and databases the program made", "why_tests_cant": "ranges over all schedules of any number of processes", "anchors": ["src/saved_data.rs: SavedData::open, add_to_input_history, set_variable, touch_variable, get_variable", "src/variable.rs: VariableStore", "src/main.rs: calculate", "src/commands.rs: reloadvar"]}
{"id": "C99", "title": "Every saved variable is mentioned in a saved input", "statement": "A value is saved for a variable only as long as the saved history contains a line that mentions it. However many sessions share a database, whatever they enter in whatever order (including changes of the history's capacity, /reloadvar and /purgevar), and whichever of them crash while they process a line: for each saved variable, the input recorded as the one that last set or used it is still in the saved history, and the variable stands in that line as a word of its own. So there are never more saved variables than dollar signs in the saved history.", "quantifier": "all machines and hash orders, all numbers of sessions with any valid settings, all interleavings at the granularity of lines, all lines, all crash points inside a line, starting from a new database", "why_tests_cant": "the claim relates two tables of the database after arbitrarily long histories of concurrent sessions, evictions and crashes; tests can only try particular histories", "anchors": ["src/main.rs: calculate, calculate_tokens", "src/saved_data.rs: add_to_input_history, set_variable, touch_variable, set_max_history_size", "src/variable.rs: VariableStore", "src/commands.rs: execute_reload_var", "src/token.rs: tokenize, tokenize_variable_list"]}
{"id": "C100", "title": "Without powers and roots, numbers stay as short as the line", "statement": "The size of a calculation is bounded by the size of the line. The tree of an expression has no more nodes than the line has characters. If neither ^ nor sqrt occurs, then the numerator and the denominator of the value, and of every value on the way, are at most R^L in magnitude, where R is the input radix and L the number of characters of the line; variables whose values have numerators and denominators of at most B contribute a factor B for each time they are written. So the printed answer to a line without powers, roots and variables has at most 8 L + precision + 4 characters, whatever the settings.", "quantifier": "all lines, all settings, all values of variables, all sessions", "why_tests_cant": "ranges over all expressions of any length and nesting; no finite set of examples bounds the growth of intermediate fractions", "anchors": ["src/syntax_tree.rs: SyntaxTree::new, SyntaxTreeNode::execute", "src/operations.rs: make_decimal_string", "src/token.rs: tokenize", "src/main.rs: calculate"]}
{"id": "C101", "title": "The user is never stuck", "statement": "At any time in an interactive session, whatever has happened in it, whatever line is being edited (typed or recalled) and wherever the cursor is: pressing End, Backspace once for each character of the line, and then the characters of any ASCII text leaves exactly that text on the line, prints nothing and changes neither settings, variables, database nor other lines. If the text has no modulus, power or square root, Enter then prints exactly its answer (or error message), computed with the settings, variables and database of that moment, and begins a new line. So from every state a new line can be reached, and Ctrl+C always ends the program without printing or changing anything.", "quantifier": "Every state reachable from any valid start by any events, every line and cursor position, every ASCII text, every window of at least 5 columns (and row numbers that fit in 16 bits).", "why_tests_cant": "It says that from every one of infinitely many reachable editor states some sequence of keys leads to every possible input; tests follow a few particular sequences of keys.", "anchors": ["src/main.rs: interactive_calc, InteractiveCalc event loop", "src/input_history.rs: InputHistory", "src/main.rs: calculate"]}
{"id": "C102", "title": "Interleaved database operations keep every saved variable tied to an input that mentions it", "statement": "Let any number of processes work on the same database, their single database operations interleaved in any way, and let any of them fail. If every operation that sets or uses a variable does so on behalf of an input that was recorded before and that mentions the variable, then at each point of time every saved variable is mentioned by the saved input that last set or used it. A session that processes a line is such a process, whatever the others do between its operations: it records its line at most once, before everything else it does, and sets or uses variables only for that line, under the number the line got, and only variables the line mentions. So, among others that keep this order, it leaves no saved variable whose input is missing or does not mention it, not even if it dies on the way.", "quantifier": "every sequence of database operations; every line, session, settings and schedule of other processes' operations and failures between the operations of the session; every point at which the session may die", "why_tests_cant": "The races are between single database operations of different processes; tests run one process, and C99 treats each line as one step", "anchors": ["src/saved_data.rs: add_to_input_history, set_variable, touch_variable", "src/main.rs: calculate", "src/input_history.rs: input_finished", "src/variable.rs: update, touch"]}
{"id": "C103", "title": "What is answered depends only on the lines that are entered, not on how they got into the editor", "statement": "Whatever keys are pressed and however the terminal is resized in between, the answers that an interactive session prints are those that the calculator gives, one after the other, to the lines that were shown when Enter was pressed; the history of the session, the saved lines it has recalled, the line being edited and the size of the terminal have no influence on them, and the settings, values of variables and contents of the database are the same afterwards. So two users who enter the same lines, one by typing and the other by recalling and editing, on terminals of different sizes, are answered the same and have the same settings and variables at the end. Enter followed by Up, Enter any number of times enters the same line each time.", "quantifier": "every session waiting for input (with or without a database that nobody else uses), every sequence of key presses, pastes and resizes; for single lines: every two sessions that agree on settings, variables, database and future failures", "why_tests_cant": "It relates all ways in which lines may come into the editor to the lines themselves, for unbounded sequences of events", "anchors": ["src/main.rs: interactive_calc, calculate", "src/input_history.rs: InputHistory", "src/terminal.rs: Terminal"]}
{"id": "C104", "title": "Asked again, answered again", "statement": "A line that is not a command and assigns nothing (or was answered with an error), if entered again any number of times in a row, is answered in the same way each time, in any session that is alone with its database: whichever of the saved variables it has already loaded, and although each time the line is recorded, old inputs are dropped from the history and with them variables that only they used. At the keyboard: Enter, followed by Up and Enter any number of times, prints the same answer each time.", "quantifier": "every line that is no command, every session without other users of its database, all settings, every capacity of the history, any number of repetitions", "why_tests_cant": "Loading saved variables, recording, dropping old inputs and variables, and marking variables as used interact over an unbounded sequence of entries", "anchors": ["src/main.rs: calculate", "src/variable.rs: lookup, touch", "src/saved_data.rs: add_to_input_history, get_variable, touch_variable"]}
{"id": "C105", "title": "Only the words of a line matter, and names are only names", "statement": "Two lines that consist of the same words, whatever blanks are between them, however their numbers are spelled (underscores, case of digits, zeros at the end) and however their variables are called (as long as different variables have different names and the same names are used throughout), get the same reply in sessions that have the same settings and the same values under these names: the same result, or the same refusal, at the corresponding place, with the other name where a variable is unknown; or both crash. Afterwards the values are again the same under these names, so this holds for whole sessions, and settings can be changed in between. This includes lines with syntax errors.", "quantifier": "every pair of lines of the same words in any radix, every injective renaming of variables, all settings, all sessions with or without databases, any number of lines", "why_tests_cant": "Renaming and spelling range over all lines, names and sessions; relational property between two runs", "anchors": ["src/token.rs: Tokenizer", "src/syntax_tree.rs: SyntaxTree::new, execute", "src/variable.rs: VariableStore", "src/main.rs: calculate", "src/position.rs: Position::from_span, from_between"]}
{"id": "C106", "title": "The calculator on one page", "statement": "The whole program behaves as a small machine whose state is only the settings, the values of the variables in the session, and the saved data (the inputs recorded, how many are kept, the capacity, and each saved variable with its value and the number of the input that last used it). Each line has exactly these effects: it is recorded (which may drop the oldest input, and with it the saved variables it was the last to use); if it is no command, the variables in it count as used, those that evaluation looked up become values of the session, and an assignment gives the variable its value in the session and in the saved data; a setting command changes the setting; /histcap the capacity; /purgevar and /reloadvar the variables that are named; /help, complaints and everything else change nothing. The reply is the value to the asked precision as displayed under the settings, a justified complaint at its place, or what the command has to say. At the keyboard, what is printed are the replies of this machine to the lines entered.", "quantifier": "all sequences of lines and of key presses, all settings, all values and saved data that any earlier sessions have left, with or without a database; sessions in which no line crashes or runs forever", "why_tests_cant": "Refinement of the complete program by a specification machine, over all histories; the interplay of recording, eviction, use, lazy loading, assignment and commands cannot be enumerated", "anchors": ["src/main.rs: calculate, interactive loop", "src/saved_data.rs: SavedData", "src/variable.rs: VariableStore", "src/commands.rs: CommandExecutor, all commands", "src/syntax_tree.rs: SyntaxTree::execute", "src/token.rs: Tokenizer", "src/input_history.rs: InputHistory::input_finished"]}
{"id": "C107", "title": "The description of the calculator leaves nothing open", "statement": "The rules of the calculator on one page (C106) determine what happens: from a given state a given line leads to only one next state, and either only to results or only to complaints; so the same lines always lead to the same settings, values and saved data. The reply itself is determined to the last character, except that of several defects in a line any may be named, that /help may choose its words, and that /reloadvar may mention the variables in any order.", "quantifier": "all ways of evaluating expressions that C106 allows, all states with valid settings whose two precisions add up to at most 254, all lines, all conversations", "why_tests_cant": "Determinism of a relational specification over all states and lines; a relation that allowed several outcomes would make the refinement C106 weak, which no test of the program can reveal", "anchors": ["src/main.rs: calculate", "src/commands.rs: CommandExecutor", "src/syntax_tree.rs: SyntaxTree::execute", "src/token.rs: Tokenizer", "src/saved_data.rs: SavedData"]}
{"id": "C108", "title": "The text of a result is determined to the last character", "statement": "A result is written in exactly one way: in fractional mode as sign, numerator and, unless it is 1, denominator in lowest terms; otherwise as an optional minus sign, the digits of the integer part without leading zeros and with commas before each group of three from the right if asked for, and, if there are any, a point and the fractional digits; the digits denote the nearest number of the configured precision, without zeros at the end if that is the number itself and with exactly the configured number of digits otherwise; letters are upper-case exactly if asked for.", "quantifier": "all rational numbers, all output radices from 2 to 16, all precisions, all display settings", "why_tests_cant": "Equivalence of the formatting code with a declarative description, for all numbers and settings", "anchors": ["src/operations.rs: make_decimal_string", "src/main.rs: Args"]}
{"id": "C109", "title": "Several calculators that share the saved data, with crashes, on one page", "statement": "Any number of sessions that use the same database, whose lines are processed one at a time in any order, and each of which may be opened, may end, and may die at any point while it processes a line, behave as an office of calculators of C106 with a desk for each session and one set of saved data: every reply is the one that the calculator at the desk gives, with the saved data as they are then, and in the end settings, values, history, capacity and saved variables are as in the office. A session that dies after its line was recorded leaves the saved data as after the recording, or with some of the variables used by the line marked as used, or with some of the variables that the line purges gone, or as after the whole line, and nothing else.", "quantifier": "all numbers of sessions, all orders of opening, ending, entering and dying, all lines, all crash points, all reachable databases, all valid settings, all hash orders", "why_tests_cant": "Ranges over all interleavings of arbitrarily many sessions and all points at which each of them may die", "anchors": ["src/main.rs: calculate", "src/saved_data.rs: SavedData", "src/commands.rs: CommandExecutor", "src/variable.rs: VariableStore", "src/input_history.rs: InputHistory"]}
{"id": "C110", "title": "Powers and roots have a size that can be told beforehand", "statement": "The memory a calculation takes is bounded beforehand, powers and roots included. If the numerator and the denominator of b are at most B in magnitude, then those of b^e, as the program calculates it, are at most B^|e| for a whole number e, and at most (d B^|k|)^(2 d^i) for e = k/d in lowest terms, where i is the number of iterations of C97, which does not depend on b; for square roots that is (2 B)^4096, however many digits are asked for. The size of the value of any expression follows from this part by part. In a line without ^, the value and all values on the way have numerators and denominators of at most (B^u R^L)^(4096^k), where R is the input radix, L the number of characters of the line, u the number of times variables are written in it, B a bound for their values, and k the number of times sqrt is written; so the answer to a line without ^ and without variables has at most 8 L 4096^k + precision + 4 characters.", "quantifier": "all numbers, exponents, expressions, lines and sessions with all valid settings", "why_tests_cant": "Ranges over all numbers and exponents and all nestings of roots; the iterates of Newton's method grow doubly exponentially, so tests cannot even reach the bound", "anchors": ["src/operations.rs: exponentiate", "src/syntax_tree.rs: SyntaxTreeNode::execute", "src/main.rs: calculate"]}
{"id": "C111", "title": "From the command line to the screen", "statement": "Started with any options that mean an interactive session, the program shows on the screen a conversation with the calculator on one page of C106, which begins with the settings that the options mean, no values, and the saved data of all earlier sessions: from the row on which it was started, every line as it was entered, and below it the reply of that calculator, in order, then the line that is being edited, and nothing else; what was above is untouched. When the user quits, all of it stays there and the exit status is 0. Settings, values and saved data are those of that calculator. On the alternate screen the same holds as long as there is a row left for the prompt. The next start of the program begins with what that calculator has saved.", "quantifier": "all command lines, all key sequences, all contents of the saved data and of the screen, all terminals of at least 6 columns that answer truthfully and keep their size", "why_tests_cant": "It ranges over all command lines, key sequences, databases and screens, and goes through every part of the program at once.", "anchors": ["src/main.rs: main, Args, interactive_calc, calculate", "src/saved_data.rs: SavedData"]}
{"id": "C112", "title": "The alternate screen leaves the normal screen alone", "statement": "With the option for the alternate screen the program never writes on the normal screen of the terminal, nor scrolls it or moves its cursor: while it runs the normal screen is as it was before, and when it ends, because the user quits or because something fails, that screen is shown again, exactly as it was, with its scrollback and its cursor. Meanwhile the alternate screen shows the session: every input with its output, from the row of the window in which the program was started, and the line that is being edited. Without the option no alternate screen is ever shown, and all is written on the normal screen and stays there.", "quantifier": "all settings, key sequences, screen contents, answers of the terminal and points of failure", "why_tests_cant": "It ranges over all key sequences, all screens, and every operation at which the terminal may fail.", "anchors": ["src/main.rs: main, interactive_calc"]}
{"id": "C113", "title": "A window that changes its size", "statement": "When the window changes its size, whatever the terminal makes of the text on the screen, everything is from then on as before: on the normal screen, from the row on which the cursor then is, the screen has all the inputs that are entered from then on and their outputs, in full and in order, on as many rows as the new width requires, then the row in which the current line is edited, with the cursor, then nothing; what is above is untouched. On the alternate screen the same holds from the row of the window on which the prompt was, as long as there is room. A change to at least 5 columns never ends a session on the normal screen, and leaves the line and the place in it as they were.", "quantifier": "all states of the session, all sizes (of at least 6 columns on the normal screen), all texts on the screen, all key sequences afterwards", "why_tests_cant": "It ranges over all states, all sizes, and everything that a terminal may do with the old text.", "anchors": ["src/main.rs: interactive_calc"]}
{"id": "C114", "title": "What has been answered is never overwritten", "statement": "On the alternate screen nothing above the row of the prompt is ever written on again, whatever is typed and entered, and whether there is room for it or not: it stays as it is, or scrolls out of view. So all the inputs and outputs for which there was room when they came stay, in full and in order, to the end of the session. (On the normal screen everything stays: C83.)", "quantifier": "all settings, key sequences, lengths of lines and outputs, screens and window sizes", "why_tests_cant": "It ranges over all key sequences and outputs, in particular those that do not fit on the screen.", "anchors": ["src/main.rs: interactive_calc"]}
{"id": "C115", "title": "Nothing that happens takes an answer off the normal screen", "statement": "On the normal screen nothing above the row of the cursor is ever written on again by the program, from any moment of its work on. So all the inputs and outputs stay on the screen (or in the scrollback), in full and in order, and so does what was there before the program was started, whatever happens after: more is typed and entered, an operation on the terminal fails, a calculation panics, or the program is killed between any two operations. And the screen scrolls only as far as is needed to have the row of the cursor in view.", "quantifier": "all settings, key sequences, lengths of lines and outputs, screens, points of failure and points at which the program is killed", "why_tests_cant": "It ranges over all key sequences and all points of failure.", "anchors": ["src/main.rs: main, interactive_calc"]}
{"id": "C116", "title": "The screen depends only on what was answered and what is being edited", "statement": "Two runs of the program on the same screen in which the same lines were entered and answered and the same line is being edited show the same to the last cell on the alternate screen while there is room, with the cursor at the same place, however different the keys, the saved data, the builds and the other settings are. On the normal screen they show the same but for the row in which the line is edited (a part of a long line is shown there, and which part depends on how the cursor was moved), have the cursor in the same row, and have scrolled equally.", "quantifier": "all pairs of runs: settings, key sequences, lengths of lines and outputs, screens", "why_tests_cant": "It relates all pairs of key sequences.", "anchors": ["src/main.rs: interactive_calc"]}
