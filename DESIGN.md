# bcalc formal model: design

Code: /repo (bytesized/bcalc, Rust, ~2700 non-test lines). Proof assistant: Lean 4.33.0, single Mathlib modules.

## Layout

* `lean/Verif/Model/*.lean`: the model, one file per Rust source file, each definition citing file and lines.
* `lean/Verif/Spec/*.lean`: small specifications, independent of the model's helpers.
* `lean/Verif/Proof/*.lean`: helper lemmas.
* `lean/Verif/Props/*.lean`: the property theorems (named `Cnn_...`), each with a concrete example meeting its hypotheses.

## Modelling conventions

* Strings are `List Char`. Byte offsets equal character offsets because non-ASCII input is rejected first (token.rs 161-165).
* `BigInt` is `Int`, `BigUint` is `Nat`, `BigRational` is Lean's `Rat` (same canonical form: coprime, positive denominator).
* `usize` positions are `Nat`; subtractions that could underflow are explicit panics. `u8` additions are explicit and follow a build-profile flag (`overflowChecks`).
* `Result` becomes `Outcome`: `ok`, `err`, plus `panic` and `diverge` (loop did not finish within the fuel). `panic` and `diverge` are proved unreachable or characterised.
* `&mut` state is threaded; after an error the mutated state is kept, as in Rust.
* Hash set iteration order is an arbitrary permutation supplied by the environment.
* SQLite: tables are lists of rows; every statement is followed by the foreign-key check; a failing statement or an injected environment fault aborts the transaction and leaves the database unchanged.

## Trusted base

**Kernel and axioms.** Lean 4.33.0's kernel. Of the theorems in MANIFEST.json, `C13_levels` uses no axiom, `C66_unambiguous` uses `propext`, and all others use `propext`, `Classical.choice` and `Quot.sound` (checked with `#print axioms`). No axioms of our own, no compiled evaluation: examples on literals are checked with `decide` / `decide +kernel`, i.e. by the kernel's own reduction.

**The reading of the Rust code.** That the definitions in `Model/` say what /repo/src says. Each cites its lines. The simplifications are those listed in the comments; they are collected here:

* text is a list of characters (non-ASCII lines are refused before any byte index is used; the theorems do cover non-ASCII lines, they are refused);
* integers are unbounded where the code has `usize` counters or positions (a line of 2^64 characters is out of scope); `u8`, `u16`, `i64` overflow is explicit where the code can reach it (precision sums, terminal rows, integer arguments);
* loops have explicit fuel and return `diverge` when it runs out. For the parser the fuel is proved to suffice (C12), for root finding enough fuel is proved to exist and the answer to be independent of it (C26);
* `HashMap`/`HashSet` are finite maps and lists; the iteration order of sets is an arbitrary permutation (`Machine.hashOrder`), so what the theorems say holds for every order (C67);
* the process environment of a session is a schedule carried in `SavedData.env`: before each database operation other processes may have changed the database (to any reachable one, or in the theorems that say so, to anything), and each operation may fail. `SavedData.commits` records the states committed, for the crash points of C51. Both are ghost data;
* messages: texts are modelled exactly, with the position under which they are shown; messages of the operating system and of SQLite are opaque.

**Behaviour of libraries taken from their documentation or source**

* num-bigint 0.4.6: `parse_bytes` (underscores are accepted inside digits, a sign first), `to_str_radix` (asserts 2 <= radix <= 36); num-rational 0.4.2: exact arithmetic in lowest terms, `round` ties away from zero, `trunc`, `%` truncated, panics on a zero denominator.
* SQLite through rusqlite: a transaction commits as a whole or not at all and is durable when committed; it is rolled back when dropped; `INTEGER PRIMARY KEY` without a value takes max+1; foreign keys are enforced per statement (`PRAGMA foreign_keys`), a violation fails the statement. A database that a session opens was created by the program (`Reachable` starts from the newly created database), except in C52, which is about any database.
* clap 4.0.29: the rules by which the words of a command line become options (`Model/Cli.lean`; its source is not in /repo, so these follow its documentation), exit status 2 after a usage error and 0 after help or version. The texts of these messages and words that are not Unicode are not modelled.
* crossterm: `Model/Terminal.lean` has the operations that main.rs queues, in order. What they do to a screen is the small terminal of `Spec/Screen.lean` (grid, cursor, scrollback, pending wrap, alternate screen), used in C82-C84 and C111-C115: characters take one cell each, printing in the last column leaves the wrap pending, a line feed in the last row scrolls, `MoveToNextLine` does not scroll, `position()` and `size()` answer truthfully. Modes (raw, alternate, paste) are in `Spec/Terminal.lean`, used in C81. Whether output is flushed is not observable in the model. Key events arrive as crossterm decodes them; resizing and pasting are events too.
* Rust std: exit status 0 after `Ok(())`, 1 after an error returned from `main`, 101 after a panic; `trim_start`, `char::to_digit`, `split_at`, `String::insert/remove`, iterators.

**Not modelled.** Memory exhaustion and stack overflow, i64 rowid exhaustion, where the database file is (`dirs`), `Display`/`Debug` impls that are not shown to the user.

**The repository's own tests.** All 66 unit tests of /repo are transcribed in `Verif/Tests/Repo.lean` as examples the kernel evaluates on the model: a check that the model follows the code where its authors wrote down what it does. No property rests on them.

**What is modelled** (all non-test functions of these files, except as said above):

| source | model | functions |
|---|---|---|
| position.rs | Model/Position.lean | `from_span`, `from_between`, `map`, `trim`, constructors, equality |
| token.rs | Model/Token.lean | `tokenize`, `maybe_extract_command`, `tokenize_on_multichar_end`, `tokenize_variable_list`, `tokenize_int_list`, texts |
| operations.rs | Model/Num.lean, Model/Operations.lean | `make_decimal_string`, `exponentiate`; the num-rational operations used |
| syntax_tree.rs | Model/SyntaxTree.lean | `SyntaxTree::new`, `read_*`, the passes of `read_expression`, `execute` and `position` of every node |
| variable.rs | Model/Variable.lean | `update`, `touch`, `get`, `reload`, `purge` |
| saved_data.rs | Model/SavedData.lean | `open` and its schema, `add_to_input_history`, size enforcement, `get_prev_input_history`, variables, capacity |
| input_history.rs | Model/InputHistory.lean | all |
| commands.rs | Model/Commands.lean | the table, `execute_command`, all commands with their help texts |
| error.rs | in the files where the errors arise | the error kinds, their texts and positions |
| main.rs | Model/Calc.lean, Model/Editor.lean, Model/Terminal.lean, Model/Main.lean, Model/Cli.lean | the command line (`Args`), `calculate`, `main` (one-shot and interactive), `interactive_calc`: every key, drawing of both views, output of results, terminal operations, standard streams and exit status (writing to the streams is assumed not to fail) |

## Specifications

Each property is stated with the API functions of the model (`tokenize`, `SyntaxTree.new`, `calculate`, `oneShot`, `Editor.start`/`step`, `SavedData` operations, terminal traces) and with small definitions in `Spec/`, which do not use the proofs' helpers:

* Lexical: blanks, symbols, words, numerals, `Lexes`. Grammar: the layered grammar. Denote: value of a tree in Q. Display: reading displayed digits. CrashPoints: where evaluation may crash. Defect, Refusal: what is wrong with a line or a command. Answer: `Answer`, `Complaint`, composed of these from the line to the text shown.
* Store: the abstract saved data (list of inputs with capacity, variables with last use) that the tables refine. Crash: committed states. Session, Sessions, Private, Laws: what a session sees (`Sees`, `Visible`), sequences of lines, `Undisturbed` (nobody else uses the database), names and forms. Settings, Commands, Help: the settings, their valid ranges, the commands. HashOrder: results up to the order of sets.
* Editor: pairs of parentheses, windows and rows. Typing: an ideal line buffer and what a typist enters. Terminal, Screen: modes and screens. Robust: which lines can crash. Identities: forms of expressions and their numbers. Near: the real value of an expression with roots and how errors add up. Independent: lines that do not influence each other. CommandLine: ways to write options and what they mean.
* Together: sessions side by side. Control: the keys that type a line from scratch. Rename: lines with the same words and other names. Written: the text of a number, character by character. Calculator: the whole program as a machine on one page (state: settings, values, saved data), with the conditions that its evaluation of expressions satisfies. Office: several such machines that share the saved data. Growth: how large powers, roots and whole expressions get. Program: what is taken for granted of the terminal while the program runs (truthful answers, an unchanged window). Whole: the conversation as the screen shows it, and the calculator with which the program begins. Console: a terminal with its normal and its alternate screen. Resize: a change of the window's size, after which the terminal shows any text.

Reachability predicates (`Reachable`, `Awaits`, `OnScreen`, `Leads`, `Entered`, `Since`, `Course`) are generated by the program's own steps from its start, so that hypotheses are met by every state that occurs; beside each theorem an `example` shows a concrete case.

## Defects found

Statements that the code does not satisfy are recorded as theorems about the concrete violation, and the property is stated with the exact condition under which it does hold:

* `1 % 0` and `0 ^ -1` crash (C21_violation, C22_violation, C27); roots of high degree may be wrong by more than the tolerance (C25_violation), square roots shown in a radix larger than the input radix may have wrong last digits (C89_violation), and roots of numbers below one crash (C27_violation_root); precision sums over 255 crash in checked builds and wrap in others (C27_violation_overflow, C29_violation, C29_violation_wraps). C80 proves that there is no other way to crash the program by a line.
* fractional display ignores the output radix (C36_violation_radix); output radix 1, which the options accept, crashes (C37_violation_radix_one).
* windows that are too narrow: 2 columns divide by zero in the wrapped view, 5 columns hide the cursor in the scrolled view (C53_violation, C59_violation, C60_violation).
* places of complaints about command arguments are relative to the argument (C76_violation), and a meaningless word in an integer list is called a variable name (C76).
* the help of /reloadvar describes a failure that does not happen (C79); with a failing database the order of a hash set becomes visible (C67_failure).
* a crash leaves the terminal in raw mode (C81_crash_violation); output on the last row of the alternate screen is overwritten (C84_last_row_violation); on quitting, the shell's prompt comes on the row below the input, but in the column where the cursor was (C83_quit).
* a one-shot line that begins with a minus sign is refused after `-i` (C95_violation); the text that `--help` shows for `--fractional` is the one of `--alternate-screen` (main.rs 80-83; help texts of clap are not modelled).
* a variable can be lost by recording the very line that uses it (C78, sharp bound).

## Testing the theorems against wrong programs

Done outside /verif (a copy of the project, one definition of `Model/` edited at a time, everything rebuilt; a theorem counts as failed if its own proof, or one it depends on, no longer checks). One line per edit in seeded/LOG.jsonl: definition, edit, claim broken, theorems that failed, theorems tightened. Edits after which no theorem that should fail did fail led to new or stronger theorems; edits that leave the program's behaviour unchanged on all inputs are marked as such (`kind: control` or `note`).

## Plan per property

* **C01 Tokens tile the input exactly** - Model `tokenize` as the byte loop it is; spec `Lexes` (Spec/Lexical.lean) describes an input as gaps and lexemes. Prove `tokenize = ok tokens <-> Lexes` by induction over the remaining input with the buffer as accumulator.
* **C02 Numeric literals denote their exact value** - Spec: positional value of a digit string. Prove the number branch of `tokenizeOnMulticharEnd` agrees with it, for all words.
* **C03 Bad words are rejected at the right place** - Induction over the input: the error is that of the first bad word.
* **C04 Commands are recognised and split faithfully** - Direct reasoning about `maybeExtractCommand` with a spec splitting the input as blanks ++ '/' ++ name ++ ws ++ args.
* **C05 Tokenizing never crashes** - Panics are explicit outcomes of the model (usize underflow, radix assertion, unwrap); prove none is reachable.
* **C06 Blank space around tokens does not matter** - Corollary of C01: transport a `Lexes` derivation along the insertion of blanks.
* **C07 Underscores and digit case do not change a number** - Numerals with equal cleaned, case-folded digits have equal value (lemma on the number branch).
* **C08 Integer argument lists are read exactly** - Spec: grammar of signed integer lists; induction over tokens. i64 range and negation overflow are explicit in the model.
* **C09 Variable argument lists contain only variables** - Induction over tokens.
* **C10 The parser accepts exactly the calculator's grammar** - Spec/Grammar.lean: mutual inductive predicates (layered grammar). Soundness by induction on the parser's fuel, completeness by induction on derivations; fuel proved irrelevant (never exhausted).
* **C11 Every expression has one reading** - Corollary of completeness (the parser is a function).
* **C12 Parsing never crashes and always finishes** - Panic outcomes explicit (unwrap_operand, unwrap_operator, 'not in ORDERED_BINARY_OPERATORS'); prove unreachable, and fuel never exhausted.
* **C13 Operator precedence and left associativity** - Corollaries of C10 for arbitrary operand derivations.
* **C14 Minus signs are disambiguated** - Corollaries of C10.
* **C15 Accepted expressions have balanced parentheses** - Induction on derivations with a counter spec of balance.
* **C16 Syntax errors point inside the input** - Induction on derivations (tree spans) and on the parser (error spans) for position-sorted tokens.
* **C17 Redundant parentheses are harmless** - From C10 and evaluation of parenthesised nodes.
* **C18 Assignment syntax** - From C10 and an invariant that '=' never occurs inside a derivation.
* **C19 Arithmetic is exact** - Spec/Denote.lean: denotation of trees in Q (partial). Prove evaluation = denotation by induction on trees.
* **C20 Division by zero is reported, not crashed on** - Case analysis on evaluation, from arbitrary subtrees.
* **C21 Modulus is the truncated remainder** - Spec: existence of an integer quotient, magnitude, sign. Panic for 0 proved as a violation.
* **C22 Integer powers are exact** - exponentiate with denominator 1; zpow in Q. Panic for 0^-n proved as a violation.
* **C23 No real root, no number** - exponentiate with even degree; sign of the iterates for odd degree.
* **C24 Perfect powers have exact roots** - Correctness of the bracketing search: unimodality of |x^d - r|. Converse: a Newton step from a point that is no root lands strictly above the root (strict Bernoulli inequality).
* **C25 Irrational roots are accurate to the configured precision** - Newton from above: AM-GM (Bernoulli) inequality in R; step bound. Counterexample for d=10 machine-checked.
* **C26 Every calculation terminates** - Newton steps after the first decrease by more than the tolerance and stay positive: explicit fuel bound.
* **C27 Evaluation does not crash** - Exact characterisation of panics by induction on trees; witnesses from raw input text.
* **C28 max and min** - Fold lemma.
* **C29 The precision setting is honoured at its limits** - u8 addition modelled with a build-profile flag; theorem for sums <= 254, witnesses for 255.
* **C30 Displayed numbers are correctly rounded** - Exact rational statement about the displayed text, read by an independent positional reader.
* **C31 Trailing zeros are significant** - Same reader/spec.
* **C32 Displayed numbers can be typed back** - Composition of printer, C01, C10 and evaluation.
* **C33 Thousands separators** - Lemma on chunking.
* **C34 Upper-case setting only changes letter case** - Lemma on ASCII case map.
* **C35 Sign of displayed numbers** - Direct.
* **C36 Fractional display is exact** - Direct plus positional reader; radix violation as witness.
* **C37 Any accepted output radix can display any number** - Panic of the radix assertion is explicit; proved unreachable for 2..16, reached for 1.
* **C38 A variable keeps its last assigned value** - Invariant over input sequences with arbitrary database substitution between inputs.
* **C39 Failed calculations change no variable** - Frame lemma over evaluation.
* **C40 Saved variables come back exactly** - to_str_radix/parse_bytes round trip.
* **C41 Purged variables are gone** - State lemmas on purge.
* **C42 Reload takes the stored value** - State lemmas on reload.
* **C43 Unknown variables are errors** - Evaluation of variable nodes.
* **C44 Assignments survive database failure in the session** - Case analysis of update.
* **C45 The saved history is exactly the newest inputs** - Refinement of the row/tag tables to an abstract list; induction over traces of operations of arbitrarily many sessions.
* **C46 Database operations never corrupt or wedge the database** - Same invariant; SQL foreign keys are checked explicitly by the model after each statement.
* **C47 History ids are never reused** - Invariant: ids increase along the list; ghost maximum.
* **C48 Scrollback shows the earlier sessions' inputs, newest first** - Ghost state: snapshot at open; invariant relating cursor id, snapshot and current list.
* **C49 Variables live as long as their last use** - Ghost state: id of last use per variable.
* **C50 History capacity** - Corollary of C45 plus command model.
* **C51 Crash safety of the saved data** - Committed states are exposed as a list by the model; invariant on each. Atomic rollback of SQLite transactions is assumed (trusted base).
* **C52 Opening is idempotent and version-safe** - Direct on the model of open.
* **C53 History navigation never crashes** - Invariant over key sequences; indexing out of range is an explicit panic.
* **C54 Editing a recalled line does not change the history** - Invariant/ghost.
* **C55 Up and Down are inverse** - State lemma under the invariant.
* **C56 What you see is what is evaluated and recorded** - Direct on the model of the Enter key.
* **C57 The cursor stays within the line** - Invariant over events.
* **C58 Parenthesis jump finds the match** - Spec by balance counter; induction over the scan.
* **C59 The scrolled view shows the cursor** - Arithmetic on the model of the scrolling view.
* **C60 The wrapped view shows everything** - Induction over chunks.
* **C61 Editing keys do what they say** - Spec: text-buffer operations.
* **C62 Settings stay valid** - Invariant over inputs.
* **C63 Failing inputs change no setting** - Frame lemma over calculate.
* **C64 Settings read back what was set** - Per command.
* **C65 Commands change only what they name** - Per command frame lemma.
* **C66 Command dispatch is unambiguous** - Finite table, lifted to all names.
* **C67 Results do not depend on hash order** - Permutation-invariance by commutation of the per-name updates.
* **C68 One-shot mode** - Direct.
* **C69 Every entered line is recorded before it is evaluated** - Direct, with invariant on the presence of ids.
* **C70 Editing a line composes** - Induction over the events against an ideal line buffer, with the per-key theorems of C61.
* **C71 The keyboard is transparent** - Induction over the lines: the editor refines a loop around calculate.
* **C72 Every answer is right** - Composition of the lexer, parser, evaluator and display theorems through recording, refreshing and the environment schedule.
* **C73 Every complaint is justified** - Inversion of every error of the pipeline, by induction over the expression.
* **C74 Nothing is refused without a reason** - Induction over the derivations of Exact and Refused.
* **C75 Syntax errors name a real defect, at its place** - Spec/Defect.lean states the defects by neighbouring words; mutual induction over the reading functions with the words before them as context, invariants of the negation and precedence passes; the converse by induction over the grammar.
* **C76 A refused command says what is wrong with it** - Spec/Refusal.lean defines `Objection` (declarative grounds for refusal, with texts and places); Proof/Refusal*.lean show each command's execution yields an input error iff there is an objection; Props/Refusal.lean lifts it to `calculate`.
* **C77 Sessions without a database are private** - Spec/Private.lean: a whole run (`interactive`) and the relation `Lines` between a run and the lines entered in it. Non-interference is an equation between two runs; the rest is an invariant (`Secluded`) kept by every event, with `Clean false` for the answers.
* **C78 What one session leaves, the next one finds** - Spec/Sessions.lean: `Since` (the lines entered between two states), `LeavesAlone`, `WorksOn`. History by induction over `Since` with the abstract store of C45; variables by the invariant `Fresh` (the variable's last use is one of the newest kept inputs); recall by the invariant `Upped` on the scroll position.
* **C79 Commands do what help says** - Spec/Help.lean: `fullName`, `Lacking`, `Listing`, `MarkedUnavailable`, `SaysUnavailable`. Availability by cases over the commands on the model's execute functions; carrying out by C76 (what is refused) and totality of the commands without disturbance (Proof/Commands3).
* **C80 What can crash the program** - Spec/Robust.lean: `Submitted`, `RiskyLine`, `Evaluating`, `Underway`. Every step of calculate ends on a database the program made (Proof/Robust: `ends_*`), including the commands and the recording; evaluation is handed to C27 (crash points) and to a lemma that expressions without the three operations end. Sessions: invariant of `Underway` by induction over events, with C53.
* **C81 The terminal is left as it was found** - Model/Terminal.lean: the crossterm operations of main.rs as traces. Spec/Terminal.lean: `Modes`, `modesAfter`. The operations within interactive_calc set no modes, and no step changes the alternate-screen setting (`handleEvent_args`, `calculate_alternate`), so that what is entered is what is left; the trace ends as `runEvents` does, by induction over the events.
* **C82 A redraw shows the line and touches nothing else** - Spec/Screen.lean: a terminal screen (grid, cursor, scrollback, pending wrap) and what each crossterm operation does to it. The drawing computed by the editor (C53, C59, C60) is run on it (Proof/Emulator*.lean).
* **C83 The normal screen has the whole session** - Invariant of `Course` (Proof/Emulator3: `inline_course`): input and output rows are appended at the cursor, scrolling keeps the rows above. C83_program, C83_program_quit: the operations of `mainInteractive` as a whole lead along a `Course`.
* **C84 The alternate screen shows the whole session while there is room** - Invariant of `Course` (Proof/Emulator4: `alternate_course`); the last row is treated separately (C84_last_row_violation); on quitting, the shell's prompt comes on the row below the input, but in the column where the cursor was (C83_quit). C84_program: the same for the alternate screen.
* **C85 The database never changes an answer** - Spec/Laws.lean: `Undisturbed`, `KnowsAll`, `Dialogue`, `AboutDatabase`. Evaluation is shown equal to a pure function of settings and valuation (Proof/Pure: `calculate_pure`); sessions that agree in values and settings and know their databases stay so (Proof/Alike), by induction on the dialogue.
* **C86 A value can be given a name** - Spec/Laws.lean: `VariableName`, `WellFormed`, `AssignedBetween`, `unplaced`. The tokens of the line with the expression in place of the name are the tokens of the parts, the derivation of the line is changed at the atom of the name (Proof/Swap, by induction on derivations), and evaluation is the pure function of Proof/Pure; Proof/Naming puts these together.
* **C87 Identities of rational arithmetic hold to the last digit** - Spec/Identities.lean: `Form`, its text and its number. By induction on the form, the text of a form lexes and parses to a tree whose pure evaluation is the number of the form (Proof/Identities); then `calculate_pure`.
* **C88 How numbers are shown never changes what is calculated** - A relational proof (`GoAlike`): recording, touching, executing and every command run in lockstep under the two settings; the display lemma of C30 gives the common number; lifted to `step` and `runEvents` by showing that events and drawings do not read those settings.
* **C89 Printed digits are right, roots included** - Spec `Near` (Spec/Near.lean) assigns real values and error bounds by the rules of error analysis; induction over its derivation and the value (C72) gives the bound; the display lemma (C30) adds half a unit.
* **C90 A line looks only at the variables that occur in it** - Evaluation is a function of settings and values (C85); induction over the grammar shows that it reads the valuation only at variables among the tokens.
* **C91 Independent lines can be entered in either order** - Effects of lines on valuations commute for independent lines; the rest of the dialogue runs alike (C85).
* **C92 Lines that fail or only calculate leave no trace** - Failing and unassigned lines have no effect on the valuation and settings (displaying cannot fail with settings in range); the rest of the dialogue runs alike (C85).
* **C93 Printed numbers keep their order** - Rounding half away from zero is monotone and separates numbers a unit apart (cases on the signs); with C72/C73 and the error analysis of C89.
* **C94 One line on one stream** - mainInput models the streams and the status; cases on the outcome (C68: no runtime errors), C72/C73 for what is said; by induction on the grammar no complaint contains a line feed (names and words contain none).
* **C95 The command line means what it says** - Model/Cli.lean has the declarations of Args and clap's rules; induction over the words shows that the loop accepts exactly the written sequences whose options are accepted one after the other, and these are the ones that mean something; meaning is unique and invariant under permutation.
* **C96 Powers take back roots to the last printed digit** - The remainder of a power at its tangent bounds the distance of the power of the last iterate from the radicand (by induction on the degree); the rounding of the display then yields the number itself. Added to the specification of powers, so that C73 has it for all lines.
* **C97 Roots take few iterations** - The search ends next to the real root (by the invariant of its bounds); from above, the distance from the root shrinks by the d-th part in each step, and for square roots it is squared; halving of the span by induction; evaluation by induction on the tree.
* **C98 Sessions can run side by side** - Induction on the schedule; what a line does to the database is recording it, followed by operations on variables that carry its id (SdRel); a crash leaves a prefix of them. The value of a variable survives while the input that last used it is in the history (Fresh).
* **C99 Every saved variable is mentioned in a saved input** - An invariant of the abstract store: the input that last used a stored variable spells it out; kept by every operation a recorded line can perform (which variables those are is read off the lexical specification), by crashes in between, and by evictions. The bound on the number of variables follows because names are unique and each dollar sign begins one word.
* **C100 Without powers and roots, numbers stay as short as the line** - A multiplicative weight on tokens (a number weighs the larger of its numerator and denominator, an operator two) bounds, by mutual induction over the grammar, the weight of the tree, and that bounds the height of the value by induction over the value relation (sums at most double the product of heights, remainders do not exceed it). A symbol weighs at most the radix and a numeral at most the radix to its length, so the tokens weigh at most R^L. The length of the printed text follows from the display lemmas.
* **C101 The user is never stuck** - Spec/Control defines the key sequence `retype`; Buffer.edits of it is computed by induction and C70_editing/C70_usable carry it to the editor; C80_usable and the Enter lemma give the answer.
* **C102 Interleaved database operations keep every saved variable tied to an input that mentions it** - The relation between the connection before and after a piece of a session gets the exact interleaving of own operations and scheduled ones; recording is its first step, and the number it returns is the one all later operations carry; orderly sequences keep the store's invariant.
* **C103 What is answered depends only on the lines that are entered, not on how they got into the editor** - calculate is shown to read the input history only through its current line, and to return related sessions for related ones; an induction over the events keeps the editor's session related to the one that was only given the entered lines.
* **C104 Asked again, answered again** - An invariant of the session between entries: each variable the line mentions has the same value, from the session or the database, where a stored one that the line uses is tied to the newest input and so survives the recording of the next.
* **C105 Only the words of a line matter, and names are only names** - A logical relation between the two runs of the parser (all reading functions, all reduction passes, errors included) and of evaluation; places are related by the edges of corresponding words, which spans and gaps preserve because the edges of words are in order.
* **C106 The calculator on one page** - Forward simulation: a relation between machine states and program states (with the database represented by the store of C44), shown to be kept by recording, touching, evaluating (with the exact set of variables looked up, by mutual induction on expressions), assigning and each command; then induction over the dialogue, and C103 for the keyboard.
* **C107 The description of the calculator leaves nothing open** - By cases on how the line is read (the lexical and syntactic characterisations are equivalences, so the cases exclude each other); uniqueness of the value from the laws of the evaluator, of the text from C108, of the refusal by induction on the expression, of the objection from C76; then induction over conversations.
* **C108 The text of a result is determined to the last character** - Existence from the lemmas behind C30-C36; uniqueness of digit sequences without leading zeros and with a fixed number of digits, or without trailing zeros, behind the point; the grouping of the code equals a one-pass description of the commas.
* **C109 Several calculators that share the saved data, with crashes, on one page** - Forward simulation between the company of C98 and the office: the step of C106 for whole lines, and for crashes an analysis of the log of commits: those before the last transaction only note uses (or only remove variables) and are sublists of the touches (removals), whose effect on the store is computed; /histcap and assignments each make their change in a single transaction; evaluation commits only what it found.
* **C110 Powers and roots have a size that can be told beforehand** - The numerator and denominator of one step of Newton's method as polynomials in those of the radicand and the iterate; induction on the iterations, of which C97 bounds the number; induction on the evaluation; induction on grammar and tokens for the bound in terms of the line.
* **C111 From the command line to the screen** - Composition of C95 (command line), C83/C84 for the program as a whole (Props/Program: the operations of `mainInteractive` follow a `Course`), C103 and C106 (what is entered and answered); the link between what is exchanged on the screen and what the session answers is `watched_log` (induction over the events).
* **C112 The alternate screen leaves the normal screen alone** - The terminal with its two screens (Spec/Console) is run on the operations of `mainInteractive`: by C81_throughout what writes runs on the alternate screen, induction over the operations; C112_session puts C84_program on the alternate screen.
* **C113 A window that changes its size** - The induction of C83 and C84 over the events (`inline_event`, `alternate_event`), begun at the redraw after the change of size on an arbitrary screen.
* **C114 What has been answered is never overwritten** - Invariant over the operations: after the cursor has been put on the row of the prompt, no operation but the last moves it upwards (`ops_kept`), and the row of the prompt never goes up (`leftAbove_event`); induction over the events.
* **C115 Nothing that happens takes an answer off the normal screen** - On the normal screen no operation but the redraw of the row of the cursor goes to an earlier place: no operation the program performs is a move to another row of the window (`downward_main`, by cases over the redraws, the outputs and the events), and operations without such moves never write above the row of the cursor (`ops_kept`); with C83 for what is there.
* **C116 The screen depends only on what was answered and what is being edited** - From the complete description of the screen by C83 and C84 (every row above, in and below the transcript); that the normal screen scrolls only as far as necessary is an invariant of every operation (`ops_filled`).
