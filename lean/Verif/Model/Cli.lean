import Verif.Model.Main

/-!
# Model of the command line (src/main.rs 44-97 and the parser clap 4.0.29 derives from it)

The declarations (names, ranges, defaults) are main.rs; the rules by which words of the command line become options are
clap's (`Parser::get_matches_with`, `parse_long_arg`, `parse_short_arg`, `parse_opt_value`, `react`, clap_lex 0.3.0),
whose source is not in /repo: this part follows its documented behaviour and is in the trusted base.
-/

namespace Bcalc

/-- main.rs 46-94: the fields of `Args`, and clap's own `--help` and `--version` (main.rs 45). -/
inductive CliOpt where
  | radix | input | alternateScreen | noDb | convertToRadix | precision | extraPrecision | fractional | commas | upper
  | help | version
  deriving DecidableEq, Repr

/-- main.rs 46-94: the declarations in order. -/
def cliOpts : List CliOpt :=
  [.radix, .input, .alternateScreen, .noDb, .convertToRadix, .precision, .extraPrecision, .fractional, .commas,
   .upper, .help, .version]

/-- main.rs 48-93: `#[arg(long)]` makes the long name from the field's name. -/
def CliOpt.long : CliOpt → Str
  | .radix => "radix".toList
  | .input => "input".toList
  | .alternateScreen => "alternate-screen".toList
  | .noDb => "no-db".toList
  | .convertToRadix => "convert-to-radix".toList
  | .precision => "precision".toList
  | .extraPrecision => "extra-precision".toList
  | .fractional => "fractional".toList
  | .commas => "commas".toList
  | .upper => "upper".toList
  | .help => "help".toList
  | .version => "version".toList

/-- main.rs 48-93: `#[arg(short)]` makes the short name from the first letter of the field's name. -/
def CliOpt.short : CliOpt → Option Char
  | .radix => some 'r'
  | .input => some 'i'
  | .alternateScreen => some 'a'
  | .noDb => none
  | .convertToRadix => none
  | .precision => some 'p'
  | .extraPrecision => none
  | .fractional => some 'f'
  | .commas => some 'c'
  | .upper => some 'u'
  | .help => some 'h'
  | .version => some 'V'

/-- main.rs 46-94: fields of type `u8`, `Option<u8>` and `Option<String>` take a value, those of type `bool` do not. -/
def CliOpt.takesValue : CliOpt → Bool
  | .radix | .input | .convertToRadix | .precision | .extraPrecision => true
  | _ => false

/-- How reading the command line ends early: with the help or version text, or with a usage error. -/
inductive CliStop where
  | info
  | usage
  deriving DecidableEq, Repr

/-- What clap has matched so far (`ArgMatcher`). -/
structure CliState where
  args : Args
  input : Option Str
  seen : List CliOpt
  deriving DecidableEq, Repr

/-- One digit of `i64::from_str`. -/
def decimalStep (acc : Option Nat) (c : Char) : Option Nat :=
  match acc with
  | some n => if 48 ≤ c.toNat ∧ c.toNat ≤ 57 then some (n * 10 + (c.toNat - 48)) else none
  | none => none

/-- The digits of `i64::from_str`: only '0' to '9', at least one. -/
def decimalDigits (s : Str) : Option Nat :=
  if s = [] then none
  else s.foldl decimalStep (some 0)

/-- `i64::from_str`: an optional sign and decimal digits.  Simplification: no overflow; a number beyond `i64` is
outside every range checked afterwards, and refused there. -/
def decimalInt : Str → Option Int
  | '+' :: s => (decimalDigits s).map fun (n : Nat) => (n : Int)
  | '-' :: s => (decimalDigits s).map fun (n : Nat) => -(n : Int)
  | s => (decimalDigits s).map fun (n : Nat) => (n : Int)

/-- clap's `value_parser!(u8).range(lo..=hi)` (main.rs 49, 69; 73 and 77 with the range of `u8`). -/
def cliNumber (lo hi : Int) (s : Str) : Except CliStop Nat :=
  match decimalInt s with
  | some i => if lo ≤ i ∧ i ≤ hi then .ok i.toNat else .error .usage
  | none => .error .usage

/-- main.rs 48-78: the value of an option, stored in its field. -/
def cliStore (o : CliOpt) (v : Str) (st : CliState) : Except CliStop CliState :=
  match o with
  | .radix => (cliNumber 2 16 v).map fun n => { st with args := { st.args with radix := n } }
  | .input => .ok { st with input := some v }
  | .convertToRadix => (cliNumber 1 16 v).map fun n => { st with args := { st.args with convertToRadix := some n } }
  | .precision => (cliNumber 0 255 v).map fun n => { st with args := { st.args with precision := n } }
  | .extraPrecision => (cliNumber 0 255 v).map fun n => { st with args := { st.args with extraPrecision := n } }
  | _ => .error .usage

/-- main.rs 56-94: a flag sets its field. -/
def cliFlag (o : CliOpt) (st : CliState) : Except CliStop CliState :=
  match o with
  | .alternateScreen => .ok { st with args := { st.args with alternateScreen := true } }
  | .noDb => .ok { st with args := { st.args with noDb := true } }
  | .fractional => .ok { st with args := { st.args with fractional := true } }
  | .commas => .ok { st with args := { st.args with commas := true } }
  | .upper => .ok { st with args := { st.args with upper := true } }
  | .help => .error .info
  | .version => .error .info
  | _ => .error .usage

/-- clap `react`: an option must not be given twice; then its action. -/
def cliReact (o : CliOpt) (v : Option Str) (st : CliState) : Except CliStop CliState :=
  if o ∈ st.seen then .error .usage
  else
    (match v with
     | some v => cliStore o v st
     | none => cliFlag o st).map fun (st : CliState) => { st with seen := o :: st.seen }

/-- clap_lex `split_once("=")`. -/
def splitEq : Str → Str × Option Str
  | [] => ([], none)
  | '=' :: v => ([], some v)
  | c :: cs => let (name, v) := splitEq cs; (c :: name, v)

/-- clap `parse_long_arg`: what follows the two hyphens.  Besides the new state, the option that still waits for its
value. -/
def cliLong (word : Str) (st : CliState) : Except CliStop (CliState × Option CliOpt) :=
  let (name, v) := splitEq word
  match cliOpts.find? fun o => o.long = name with
  | none => .error .usage
  | some o =>
    if o.takesValue then
      match v with
      | some v => (cliReact o (some v) st).map fun st => (st, none)
      | none => .ok (st, some o)
    else
      match v with
      | some _ => .error .usage
      | none => (cliReact o none st).map fun st => (st, none)

/-- clap `parse_short_arg`: the letters that follow one hyphen. -/
def cliShorts : Str → CliState → Except CliStop (CliState × Option CliOpt)
  | [], st => .ok (st, none)
  | c :: cs, st =>
    match cliOpts.find? fun o => o.short = some c with
    | none => .error .usage
    | some o =>
      if o.takesValue then
        match cs with
        | [] => .ok (st, some o)
        | '=' :: v => (cliReact o (some v) st).map fun st => (st, none)
        | v => (cliReact o (some v) st).map fun st => (st, none)
      else
        match cliReact o none st with
        | .ok st => cliShorts cs st
        | .error e => .error e

/-- clap `get_matches_with`: the words of the command line one by one; `pending` is an option that waits for its
value (`ParseState::Opt`).  There are no positional arguments and no subcommands. -/
def cliLoop (pending : Option CliOpt) (words : List Str) (st : CliState) : Except CliStop CliState :=
  match words with
  | [] =>
    match pending with
    | none => .ok st
    | some _ => .error .usage
  | word :: rest =>
    match word with
    | '-' :: '-' :: [] =>
      if pending = none ∧ rest = [] then .ok st else .error .usage
    | '-' :: '-' :: long =>
      match pending with
      | some _ => .error .usage
      | none =>
        match cliLong long st with
        | .ok (st, pending) => cliLoop pending rest st
        | .error e => .error e
    | '-' :: c :: letters =>
      match pending with
      | some _ => .error .usage
      | none =>
        match cliShorts (c :: letters) st with
        | .ok (st, pending) => cliLoop pending rest st
        | .error e => .error e
    | word =>
      match pending with
      | none => .error .usage
      | some o =>
        match cliReact o (some word) st with
        | .ok st => cliLoop none rest st
        | .error e => .error e

/-- What the program does with its command line (`argv` without the program's name). -/
inductive Start where
  /-- main.rs 102-118: evaluate one line -/
  | oneShot (args : Args) (line : Str)
  /-- main.rs 119-137: a session -/
  | interactive (args : Args)
  /-- clap prints the help or the version and exits -/
  | info
  /-- clap prints a usage error and exits -/
  | usage
  deriving DecidableEq, Repr

/-- main.rs 97-119: `Args::parse()` and the choice between the two modes. -/
def startProgram (argv : List Str) : Start :=
  match cliLoop none argv { args := Args.default, input := none, seen := [] } with
  | .ok st =>
    match st.input with
    | some line => .oneShot st.args line
    | none => .interactive st.args
  | .error .info => .info
  | .error .usage => .usage

/-- The exit status of a run that ends in `Args::parse()`: clap's `Error::exit`. -/
def Start.exitStatus : Start → Option Nat
  | .info => some 0
  | .usage => some 2
  | _ => none

end Bcalc
