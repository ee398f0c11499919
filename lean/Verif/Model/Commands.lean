import Verif.Model.SyntaxTree
import Verif.Model.InputHistory

/-! # Model of src/commands.rs -/

namespace Bcalc

/-- The data `interactive_calc` (main.rs 158-160) keeps during a session and that commands work on
(commands.rs 32-43 `DataForCommands`).  In one-shot mode (main.rs 101-109) the last three are
`none`. -/
structure Session where
  args : Args
  db : Option SavedData
  inputs : Option InputHistory
  vars : Option VariableStore
  deriving DecidableEq, Repr

/-- Code that works on a session. -/
abbrev Sess (α : Type) := St Session α

/-- commands.rs 18-30 `COMMAND_CONSTRUCTORS`: the commands. -/
inductive Cmd where
  | help | reloadVar | purgeVar | histcap | fractional | radix | convertToRadix | upper | commas
  | precision
  deriving DecidableEq, Repr

/-- commands.rs 18-30 `COMMAND_CONSTRUCTORS`: their order. -/
def commandConstructors : List Cmd :=
  [.help, .reloadVar, .purgeVar, .histcap, .fractional, .radix, .convertToRadix, .upper, .commas,
   .precision]

/-- commands.rs 146-148, 220-222, 304-306, 377-379, 469-471, 532-534, 609-611, 695-697, 757-759,
820-822: `name`. -/
def Cmd.name : Cmd → Str
  | .help => "help".toList
  | .reloadVar => "reloadvar".toList
  | .purgeVar => "purgevar".toList
  | .histcap => "histcap".toList
  | .fractional => "fractional".toList
  | .radix => "radix".toList
  | .convertToRadix => "converttoradix".toList
  | .upper => "upper".toList
  | .commas => "commas".toList
  | .precision => "precision".toList

/-- commands.rs 150-152, 224-226, 308-310, 381-383, 473-475, 536-538, 613-615, 699-701, 761-763,
824-826: `aliases`. -/
def Cmd.aliases : Cmd → List Str
  | .help => ["h".toList]
  | .fractional => ["f".toList]
  | .radix => ["r".toList]
  | .commas => ["comma".toList]
  | .precision => ["p".toList]
  | _ => []

/-- commands.rs 64-67 `CommandExecutor`: the two hash maps as association lists. -/
structure CommandExecutor where
  commandMap : List (Str × Cmd)
  aliasMap : List (Str × Str)
  deriving DecidableEq, Repr

/-- commands.rs 75-86: registering the aliases of one command. -/
def registerAliases (commandMap : List (Str × Cmd)) (name : Str) :
    List Str → List (Str × Str) → Outcome Failure (List (Str × Str))
  | [], aliasMap => .ok aliasMap
  | a :: as, aliasMap =>
    match assocGet a commandMap with
    | some _ => .panic .explicit
    | none =>
      match assocGet a aliasMap with
      | some _ => .panic .explicit
      | none => registerAliases commandMap name as (assocInsert a name aliasMap)

/-- commands.rs 72-93: the loop of `CommandExecutor::new`, with its three panics. -/
def registerCommands : List Cmd → CommandExecutor → Outcome Failure CommandExecutor
  | [], ce => .ok ce
  | c :: cs, ce =>
    registerAliases ce.commandMap c.name c.aliases ce.aliasMap >>= fun aliasMap =>
    match assocGet c.name aliasMap with
    | some _ => .panic .explicit
    | none =>
      match assocGet c.name ce.commandMap with
      | some _ => .panic .explicit
      | none =>
        registerCommands cs
          { commandMap := assocInsert c.name c ce.commandMap, aliasMap := aliasMap }

/-- commands.rs 69-99 `CommandExecutor::new`. -/
def CommandExecutor.new : Outcome Failure CommandExecutor :=
  registerCommands commandConstructors { commandMap := [], aliasMap := [] }

/-- commands.rs 158-166: the fixed help text of `HelpCommand::long_help`. -/
def helpHelpText : Str :=
  ("Usage: /help\n" ++
   "       /help command_name\n" ++
   "Alias: /h\n\n" ++
   "With no arguments, lists all the available commands. If a command is given as an " ++
   "argument, provides more detailed help with the specified command.").toList

/-- commands.rs 238-244: the fixed help text of `ReloadVarCommand::long_help`. -/
def reloadVarHelpText : Str :=
  ("Usage: /reloadvar variable_name_1 [variable_name_2 [...]]\n\n" ++
   "Reloads the specified variable(s) from the variable history in the on-disk " ++
   "database. Fails with no effect if there is no such variable in the database.").toList

/-- commands.rs 322-328: the fixed help text of `PurgeVarCommand::long_help`. -/
def purgeVarHelpText : Str :=
  ("Usage: /purgevar variable_name_1 [variable_name_2 [...]]\n\n" ++
   "Removes the variable(s) from both the variable store and the variable history in the " ++
   "on-disk database, if available.").toList

/-- commands.rs 395-410: the fixed help text of `HistoryCapacityCommand::long_help`. -/
def histcapHelpText : Str :=
  ("Usage: /histcap [size]\n\n" ++
   "If a size is provided, the maximum on-disk history size is updated. If one is not " ++
   "provided, the current size is printed.\n" ++
   "bcalc provides an in-memory input history as well as an on-disk one. The in-memory " ++
   "history is currently not limited but will, of course, be lost when the instance of " ++
   "bcalc exits. The on-disk history is not cleared when bcalc exits. It would be a " ++
   "problem for it to grow out of control, so it is limited to a certain number of " ++
   "inputs. After reaching the limit, old entries will be removed.\n" ++
   "The variable history is also tied to the input history. Values will be removed from " ++
   "the variable history after the last input that accessed that value is removed from " ++
   "the input history.\n" ++
   "Provided size will always be assumed to use radix (base) 10.").toList

/-- commands.rs 481-492: the fixed help text of `FractionalCommand::long_help`. -/
def fractionalHelpText : Str :=
  ("Usage: /fractional [enabled]\n" ++
   "Alias: /f\n\n" ++
   "If the enabled value is \"true\", non-integer numbers will be output as fractions. " ++
   "If the value is \"false\", non-integer numbers will be output as decimals.\n" ++
   "If no value is provided, the current setting value is displayed.\n" ++
   "If a value is given, the setting value is updated.\n" ++
   "The value given should be a boolean, which can be represented as \"true\", " ++
   "\"false\", \"t\", or \"f\".").toList

/-- commands.rs 544-553: the fixed help text of `RadixCommand::long_help`. -/
def radixHelpText : Str :=
  ("Usage: /radix [value]\n" ++
   "Alias: /r\n\n" ++
   "Value represents the radix used to parse and output numbers.\n" ++
   "If no value is provided, the current setting value is displayed.\n" ++
   "If a value is given, the setting value is updated.\n" ++
   "The value given should be an integer between 2 and 16 (inclusive).").toList

/-- commands.rs 621-629: the fixed help text of `ConvertToRadixCommand::long_help`. -/
def convertToRadixHelpText : Str :=
  ("Usage: /converttoradix [value]\n\n" ++
   "Value overrides the radix used to output numbers.\n" ++
   "If no value is provided, the current setting value is displayed.\n" ++
   "If a value is given, the setting value is updated.\n" ++
   "The value given can be \"none\" or an integer between 2 and 16 (inclusive).").toList

/-- commands.rs 707-717: the fixed help text of `UpperCommand::long_help`. -/
def upperHelpText : Str :=
  ("Usage: /upper [enabled]\n\n" ++
   "If the enabled value is \"true\", digits above 9 will be output in uppercase. If " ++
   "\"false\", they will be output in lowercase.\n" ++
   "If no value is provided, the current setting value is displayed.\n" ++
   "If a value is given, the setting value is updated.\n" ++
   "The value given should be a boolean, which can be represented as \"true\", " ++
   "\"false\", \"t\", or \"f\".").toList

/-- commands.rs 769-780: the fixed help text of `CommaCommand::long_help`. -/
def commasHelpText : Str :=
  ("Usage: /commas [enabled]\n" ++
   "Alias: /comma\n\n" ++
   "If the enabled value is \"true\", commas will be used as thousands separators when " ++
   "outputting numbers.\n" ++
   "If no value is provided, the current setting value is displayed.\n" ++
   "If a value is given, the setting value is updated.\n" ++
   "The value given should be a boolean, which can be represented as \"true\", " ++
   "\"false\", \"t\", or \"f\".").toList

/-- commands.rs 832-847: the fixed help text of `PrecisionCommand::long_help`. -/
def precisionHelpText : Str :=
  ("Usage: /precision [value [extra]]\n" ++
   "Alias: /p\n\n" ++
   "The value represents the maximum number of digits that are displayed after the " ++
   "decimal point when outputting numbers.\n" ++
   "If no value is provided, the current setting value is displayed.\n" ++
   "If a value is given, the setting value is updated.\n" ++
   "The value given should be representable as an 8-bit unsigned integer.\n" ++
   "If extra is given, it should also be representable as an 8-bit unsigned integer.\n" ++
   "This will represent the additional precision that is stored internally but not displayed.\n" ++
   "This is only really relevant for operations that cannot be done with infinite precision.\n" ++
   "For example: sqrt(2)\n" ++
   "value + extra must also be representable as an 8-bit unsigned integer.").toList

/-- The "(unavailable) " prefix of a short help text. -/
def unavailablePrefix (unavailable : Bool) (text : String) : Str :=
  (if unavailable then "(unavailable) ".toList else []) ++ text.toList

/-- commands.rs 154-156, 228-236, 312-320, 385-393, 477-479, 540-542, 617-619, 703-705, 765-767,
828-830: `short_help`. -/
def Cmd.shortHelp (c : Cmd) (s : Session) : Str :=
  match c with
  | .help => "Gives help with commands".toList
  | .reloadVar =>
    unavailablePrefix (s.db.isNone || s.vars.isNone) "Reloads variable(s) from the disk"
  | .purgeVar => unavailablePrefix s.vars.isNone "Unsets variable(s)"
  | .histcap => unavailablePrefix s.db.isNone "Get/Set the on-disk history capacity"
  | .fractional => "Retrieves or sets fractional display setting".toList
  | .radix => "Retrieves or sets the current radix".toList
  | .convertToRadix => "Retrieves or sets the current output radix".toList
  | .upper => "Retrieves or sets upper display setting".toList
  | .commas => "Retrieves or sets comma display setting".toList
  | .precision => "Retrieves or sets the current precision".toList

/-- commands.rs 158-167, 238-258, 322-337, 395-419, 481-493, 544-554, 621-630, 707-718, 769-781,
832-848: `long_help`. -/
def Cmd.longHelp (c : Cmd) (s : Session) : Str :=
  match c with
  | .help => helpHelpText
  | .reloadVar =>
    reloadVarHelpText ++
      (if s.db.isNone || s.vars.isNone then
        "\n\nThis command is currently unavailable because ".toList ++
        (if s.db.isNone && s.vars.isNone then
          "both the on-disk database and the variable store are".toList
        else if s.db.isNone then "the on-disk database is".toList
        else if s.vars.isNone then "the variable store is".toList
        else []) ++ " unavailable.".toList
      else [])
  | .purgeVar =>
    purgeVarHelpText ++
      (if s.vars.isNone then
        ("\n\nThis command is currently unavailable because the variable store is " ++
         "unavailable.").toList
      else [])
  | .histcap =>
    histcapHelpText ++
      (if s.db.isNone then
        ("\n\nThis command is currently unavailable because the on-disk database is " ++
         "unavailable.").toList
      else [])
  | .fractional => fractionalHelpText
  | .radix => radixHelpText
  | .convertToRadix => convertToRadixHelpText
  | .upper => upperHelpText
  | .commas => commasHelpText
  | .precision => precisionHelpText

/-- An error with a place (`InputError(MaybePositioned::new_positioned(..))`). -/
def inputError (message : String) (p : Position) : Failure := .input message.toList (some p)

/-- commands.rs 126-129, 201-204: the error for an unknown name. -/
def noSuchCommand (alias_ : Positioned Str) : Failure :=
  .input ("No such command: '".toList ++ alias_.value ++ "'".toList) (some alias_.position)

/-- Result of a command: the message and the variables it touched. -/
abbrev CmdResult := Str × List Str

/-- A command's message that touches no variable. -/
def msg (s : Str) : CmdResult := (s, [])

/-- `"Done".to_string()` -/
def doneMsg : Str := "Done".toList

/-- `str` comparison by characters, for `sort` (commands.rs 180). -/
def strLe : Str → Str → Bool
  | [], _ => true
  | _ :: _, [] => false
  | a :: as, b :: bs => if a.toNat < b.toNat then true else if b.toNat < a.toNat then false
    else strLe as bs

/-- Insertion into a sorted list of names. -/
def insertName (x : Str) : List Str → List Str
  | [] => [x]
  | y :: ys => if strLe x y then x :: y :: ys else y :: insertName x ys

/-- `commands.sort()` (commands.rs 180): the keys of a hash map are distinct, so the result does
not depend on the order they come in. -/
def sortNames (l : List Str) : List Str := l.foldr insertName []

/-- `format!("{:width$}", s)`: left-aligned (commands.rs 188). -/
def padRight (width : Nat) (s : Str) : Str := s ++ List.replicate (width - s.length) ' '

/-- commands.rs 169-209 `HelpCommand::execute`.  `data.command_map[&command]` cannot fail: the key
comes from that map. -/
def executeHelp (ce : CommandExecutor) (arguments : Positioned Str) (s : Session) :
    Outcome Failure CmdResult :=
  let aliasName := arguments.trim
  if aliasName.value = [] then
    let commands := sortNames (ce.commandMap.map (·.1))
    let width := commands.foldl (fun acc c => max acc c.length) 0
    .ok (msg ("Available commands:".toList ++ (commands.map fun c =>
      "\n  ".toList ++ padRight width c ++ [' '] ++
        (match assocGet c ce.commandMap with
         | some cmd => cmd.shortHelp s
         | none => [])).flatten))
  else
    let commandName := (assocGet aliasName.value ce.aliasMap).getD aliasName.value
    match assocGet commandName ce.commandMap with
    | some cmd => .ok (msg (cmd.longHelp s))
    | none => .err (noSuchCommand aliasName)

/-- commands.rs 281-291: the text reported for one variable of `/reloadvar`. -/
def reloadMessage (name : Str) : Option Variable → Str
  | some v => "Set ".toList ++ v.name ++ " to ".toList ++ ratDisplay v.value
  | none => name ++ " unchanged".toList

/-- commands.rs 277-290: the loop of `ReloadVarCommand::execute`. -/
def reloadLoop : List Str → VariableStore → SavedData → (output : Str) → (touched : List Str) →
    Outcome Failure CmdResult × VariableStore × SavedData
  | [], vars, db, output, touched => (.ok (output, touched), vars, db)
  | name :: rest, vars, db, output, touched =>
    let output := if output = [] then output else output ++ ['\n']
    match vars.reload name db with
    | (.ok r, vars', db') =>
      reloadLoop rest vars' db' (output ++ reloadMessage name r) (touched ++ [name])
    | (.err e, vars', db') => (.err (.runtime e), vars', db')
    | (.panic k, vars', db') => (.panic k, vars', db')
    | (.diverge, vars', db') => (.diverge, vars', db')

/-- commands.rs 260-293 `ReloadVarCommand::execute`. -/
def executeReloadVar (m : Machine) (arguments : Positioned Str) : Sess CmdResult := fun s =>
  match tokenizeVariableList arguments.value with
  | .err e => (.err (Failure.ofString e), s)
  | .panic k => (.panic k, s)
  | .diverge => (.diverge, s)
  | .ok tokens =>
    match s.db with
    | none => (.err (.input noDatabaseMsg none), s)
    | some db =>
      match s.vars with
      | none => (.err (.input noVariableStoreMsg none), s)
      | some vars =>
        match reloadLoop (m.hashOrder (tokens.map (·.value))) vars db [] [] with
        | (r, vars', db') => (r, { s with vars := some vars', db := some db' })

/-- commands.rs 355-360: the loop of `PurgeVarCommand::execute`. -/
def purgeLoop : List Str → VariableStore → Option SavedData →
    Outcome Failure CmdResult × VariableStore × Option SavedData
  | [], vars, db => (.ok (msg doneMsg), vars, db)
  | name :: rest, vars, db =>
    match vars.purge name db with
    | (.ok (), vars', db') => purgeLoop rest vars' db'
    | (.err e, vars', db') => (.err (.runtime e), vars', db')
    | (.panic k, vars', db') => (.panic k, vars', db')
    | (.diverge, vars', db') => (.diverge, vars', db')

/-- commands.rs 339-365 `PurgeVarCommand::execute`. -/
def executePurgeVar (m : Machine) (arguments : Positioned Str) : Sess CmdResult := fun s =>
  match tokenizeVariableList arguments.value with
  | .err e => (.err (Failure.ofString e), s)
  | .panic k => (.panic k, s)
  | .diverge => (.diverge, s)
  | .ok tokens =>
    match s.vars with
    | none => (.err (.input noVariableStoreMsg none), s)
    | some vars =>
      match purgeLoop (m.hashOrder (tokens.map (·.value))) vars s.db with
      | (r, vars', db') => (r, { s with vars := some vars', db := db' })

/-- commands.rs 435-442, 581-588, 662-669, 894-901: the error for too many arguments. -/
def tooManyArguments (first last : Positioned Int) : Failure :=
  inputError "Too many arguments" (Position.fromSpan first.position last.position)

/-- commands.rs 428-442: the argument of `/histcap`. -/
def histcapArgument : List (Positioned Int) → Outcome Failure (Option Int)
  | [] => .ok none
  | [integer] =>
    match validateMaxHistorySize integer.value with
    | .error e => .err (.input e (some integer.position))
    | .ok () => .ok (some integer.value)
  | first :: second :: rest => .err (tooManyArguments first ((second :: rest).getLast (by simp)))

/-- Lift a positioned string error into a failure (`?` on `tokenize_int_list`). -/
def intListArgs (s : Str) : Outcome Failure (List (Positioned Int)) :=
  (tokenizeIntList s 10).mapErr Failure.ofString

/-- commands.rs 421-457 `HistoryCapacityCommand::execute`. -/
def executeHistcap (arguments : Positioned Str) : Sess CmdResult := fun s =>
  match (intListArgs arguments.value >>= histcapArgument) with
  | .err e => (.err e, s)
  | .panic k => (.panic k, s)
  | .diverge => (.diverge, s)
  | .ok input =>
    match s.db with
    | none => (.err (.input noDatabaseMsg none), s)
    | some db =>
      match input with
      | some size =>
        match db.setMaxHistorySize size with
        | (.ok (), db') => (.ok (msg doneMsg), { s with db := some db' })
        | (.err e, db') => (.err (.runtime (.db e)), { s with db := some db' })
        | (.panic k, db') => (.panic k, { s with db := some db' })
        | (.diverge, db') => (.diverge, { s with db := some db' })
      | none =>
        match db.getMaxHistorySize with
        | (.ok capacity, db') => (.ok (msg (intDisplay capacity)), { s with db := some db' })
        | (.err e, db') => (.err (.runtime (.db e)), { s with db := some db' })
        | (.panic k, db') => (.panic k, { s with db := some db' })
        | (.diverge, db') => (.diverge, { s with db := some db' })

/-- `to_lowercase` on ASCII text (a command line is ASCII). -/
def asciiLower (s : Str) : Str :=
  s.map fun c => if 65 ≤ c.toNat ∧ c.toNat ≤ 90 then Char.ofNat (c.toNat + 32) else c

/-- `Display for bool` -/
def boolDisplay (b : Bool) : Str := if b then "true".toList else "false".toList

/-- commands.rs 501-517, 726-742, 789-805: reading an optional boolean argument. -/
def boolArgument (arguments : Positioned Str) : Outcome Failure (Option Bool) :=
  let argString := trimBoth (asciiLower arguments.value)
  if argString = [] then .ok none
  else if argString = "f".toList ∨ argString = "false".toList then .ok (some false)
  else if argString = "t".toList ∨ argString = "true".toList then .ok (some true)
  else .err (inputError "Invalid argument" arguments.position)

/-- A command that reads or sets a boolean setting (commands.rs 495-521, 720-746, 783-809). -/
def executeBool (get : Args → Bool) (set : Args → Bool → Args) (arguments : Positioned Str) :
    Sess CmdResult := fun s =>
  match boolArgument arguments with
  | .ok none => (.ok (msg (boolDisplay (get s.args))), s)
  | .ok (some b) => (.ok (msg doneMsg), { s with args := set s.args b })
  | .err e => (.err e, s)
  | .panic k => (.panic k, s)
  | .diverge => (.diverge, s)

/-- commands.rs 495-521 `FractionalCommand::execute`. -/
def executeFractional : Positioned Str → Sess CmdResult :=
  executeBool (·.fractional) fun a b => { a with fractional := b }

/-- commands.rs 720-746 `UpperCommand::execute`. -/
def executeUpper : Positioned Str → Sess CmdResult :=
  executeBool (·.upper) fun a b => { a with upper := b }

/-- commands.rs 783-809 `CommaCommand::execute`. -/
def executeCommas : Positioned Str → Sess CmdResult :=
  executeBool (·.commas) fun a b => { a with commas := b }

/-- commands.rs 563-588, 645-669: the argument of `/radix` and `/converttoradix`.  The
`try_into::<u8>().unwrap()` is applied to a value in 2..16. -/
def radixArgument : List (Positioned Int) → Outcome Failure (Option Nat)
  | [] => .ok none
  | [integer] =>
    if integer.value < 2 then .err (inputError "Radix cannot be less than 2" integer.position)
    else if integer.value > 16 then
      .err (inputError "Radix cannot be greater than 16" integer.position)
    else .ok (some integer.value.toNat)
  | first :: second :: rest => .err (tooManyArguments first ((second :: rest).getLast (by simp)))

/-- commands.rs 556-598 `RadixCommand::execute`. -/
def executeRadix (arguments : Positioned Str) : Sess CmdResult := fun s =>
  match (intListArgs arguments.value >>= radixArgument) with
  | .ok (some value) => (.ok (msg doneMsg), { s with args := { s.args with radix := value } })
  | .ok none => (.ok (msg (intDisplay s.args.radix)), s)
  | .err e => (.err e, s)
  | .panic k => (.panic k, s)
  | .diverge => (.diverge, s)

/-- commands.rs 632-684 `ConvertToRadixCommand::execute`. -/
def executeConvertToRadix (arguments : Positioned Str) : Sess CmdResult := fun s =>
  if trimBoth (asciiLower arguments.value) = "none".toList then
    (.ok (msg doneMsg), { s with args := { s.args with convertToRadix := none } })
  else
    match (intListArgs arguments.value >>= radixArgument) with
    | .ok (some value) =>
      (.ok (msg doneMsg), { s with args := { s.args with convertToRadix := some value } })
    | .ok none =>
      match s.args.convertToRadix with
      | some radix => (.ok (msg (intDisplay radix)), s)
      | none => (.ok (msg "None".toList), s)
    | .err e => (.err e, s)
    | .panic k => (.panic k, s)
    | .diverge => (.diverge, s)

/-- `i64::try_into::<u8>` -/
def toU8 (i : Int) : Option Nat := if 0 ≤ i ∧ i < 256 then some i.toNat else none

/-- commands.rs 866-894: precision and extra precision from one or two integers. -/
def precisionValues (currentExtra : Nat) (precisionRaw : Positioned Int)
    (maybeExtra : Option (Positioned Int)) : Outcome Failure (Option (Nat × Nat)) :=
  match toU8 precisionRaw.value with
  | none => .err (inputError "Precision must be representable as an 8-bit unsigned integer"
      precisionRaw.position)
  | some precision =>
    match (match maybeExtra with
      | none => .ok currentExtra
      | some extraRaw =>
        match toU8 extraRaw.value with
        | none => .err (inputError "Extra must be representable as an 8-bit unsigned integer"
            extraRaw.position)
        | some extra => .ok extra : Outcome Failure Nat) with
    | .err e => .err e
    | .panic k => .panic k
    | .diverge => .diverge
    | .ok extra =>
      if precision + extra < 256 then .ok (some (precision, extra))
      else .err (inputError
        "Sum of precision and extra must be representable as an 8-bit unsigned integer"
        (match maybeExtra with
         | none => precisionRaw.position
         | some extraRaw => Position.fromSpan precisionRaw.position extraRaw.position))

/-- commands.rs 856-903: the arguments of `/precision`. -/
def precisionArgument (currentExtra : Nat) : List (Positioned Int) →
    Outcome Failure (Option (Nat × Nat))
  | [] => .ok none
  | [p] => precisionValues currentExtra p none
  | [p, e] => precisionValues currentExtra p (some e)
  | first :: second :: third :: rest =>
    .err (tooManyArguments first ((second :: third :: rest).getLast (by simp)))

/-- commands.rs 850-918 `PrecisionCommand::execute`. -/
def executePrecision (arguments : Positioned Str) : Sess CmdResult := fun s =>
  match (intListArgs arguments.value >>= precisionArgument s.args.extraPrecision) with
  | .ok (some (precision, extra)) =>
    (.ok (msg doneMsg),
      { s with args := { s.args with precision := precision, extraPrecision := extra } })
  | .ok none =>
    (.ok (msg ("Precision = ".toList ++ intDisplay s.args.precision ++
      "\nExtra Precision = ".toList ++ intDisplay s.args.extraPrecision)), s)
  | .err e => (.err e, s)
  | .panic k => (.panic k, s)
  | .diverge => (.diverge, s)

/-- commands.rs 45-61: the `execute` method of each command. -/
def Cmd.execute (m : Machine) (ce : CommandExecutor) (c : Cmd) (arguments : Positioned Str) :
    Sess CmdResult :=
  match c with
  | .help => fun s => (executeHelp ce arguments s, s)
  | .reloadVar => executeReloadVar m arguments
  | .purgeVar => executePurgeVar m arguments
  | .histcap => executeHistcap arguments
  | .fractional => executeFractional arguments
  | .radix => executeRadix arguments
  | .convertToRadix => executeConvertToRadix arguments
  | .upper => executeUpper arguments
  | .commas => executeCommas arguments
  | .precision => executePrecision arguments

/-- commands.rs 111-114: the command name an entered name stands for. -/
def CommandExecutor.resolve (ce : CommandExecutor) (name : Str) : Option Cmd :=
  assocGet ((assocGet name ce.aliasMap).getD name) ce.commandMap

/-- commands.rs 101-136 `execute_command`. -/
def CommandExecutor.executeCommand (m : Machine) (ce : CommandExecutor)
    (aliasName arguments : Positioned Str) : Sess CmdResult := fun s =>
  match ce.resolve aliasName.value with
  | some cmd => cmd.execute m ce arguments s
  | none => (.err (noSuchCommand aliasName), s)

end Bcalc
