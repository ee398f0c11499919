import Verif.Model.Cli
import Verif.Spec.Lexical

/-!
# Specification of the command line

A command line is a sequence of options, each written in one of a few ways; it means the values given, and the
defaults for everything else.
-/

namespace Bcalc.Spec

/-- What is after the two hyphens. -/
def longName : CliOpt → String
  | .radix => "radix"
  | .input => "input"
  | .alternateScreen => "alternate-screen"
  | .noDb => "no-db"
  | .convertToRadix => "convert-to-radix"
  | .precision => "precision"
  | .extraPrecision => "extra-precision"
  | .fractional => "fractional"
  | .commas => "commas"
  | .upper => "upper"
  | .help => "help"
  | .version => "version"

/-- One-letter names. -/
inductive Letter : Char → CliOpt → Prop
  | radix : Letter 'r' .radix
  | input : Letter 'i' .input
  | alternateScreen : Letter 'a' .alternateScreen
  | precision : Letter 'p' .precision
  | fractional : Letter 'f' .fractional
  | commas : Letter 'c' .commas
  | upper : Letter 'u' .upper
  | help : Letter 'h' .help
  | version : Letter 'V' .version

/-- Options that come with a value. -/
def Valued (o : CliOpt) : Prop :=
  o = .radix ∨ o = .input ∨ o = .convertToRadix ∨ o = .precision ∨ o = .extraPrecision

/-- An option as given: flags have no text. -/
abbrev GivenOption := CliOpt × Option Str

/-- A word that can be the value of the option before it: it does not look like an option. -/
def PlainWord (v : Str) : Prop := v = ['-'] ∨ ∀ rest, v ≠ '-' :: rest

/-- Letters after one hyphen: flags, the last of them may be an option with its value behind it (`-fp3`, `-fp=3`) or
in the next word (`-fp 3`). -/
inductive Group : Str → List GivenOption → List Str → Prop
  | flag {c o} : Letter c o → ¬ Valued o → Group [c] [(o, none)] []
  | more {c o cs ss vs} : Letter c o → ¬ Valued o → Group cs ss vs → Group (c :: cs) ((o, none) :: ss) vs
  | attached {c o v} : Letter c o → Valued o → v ≠ [] → (∀ rest, v ≠ '=' :: rest) → Group (c :: v) [(o, some v)] []
  | equals {c o v} : Letter c o → Valued o → Group (c :: '=' :: v) [(o, some v)] []
  | next {c o v} : Letter c o → Valued o → PlainWord v → Group [c] [(o, some v)] [v]

/-- `argv` is a way to write the options `ss`, in this order. -/
inductive Written : List Str → List GivenOption → Prop
  | nil : Written [] []
  | stop : Written ["--".toList] []
  | flag {o rest ss} : ¬ Valued o → Written rest ss →
      Written (("--" ++ longName o).toList :: rest) ((o, none) :: ss)
  | equals {o v rest ss} : Valued o → Written rest ss →
      Written ((("--" ++ longName o ++ "=").toList ++ v) :: rest) ((o, some v) :: ss)
  | next {o v rest ss} : Valued o → PlainWord v → Written rest ss →
      Written (("--" ++ longName o).toList :: v :: rest) ((o, some v) :: ss)
  | group {letters gs vs rest ss} : Group letters gs vs → Written rest ss →
      Written (('-' :: letters) :: (vs ++ rest)) (gs ++ ss)

/-- The text is a decimal integer, possibly signed. -/
inductive DecimalText : Str → Int → Prop
  | plain {s ds} : Digits 10 s ds → ds ≠ [] → DecimalText s (value 10 ds)
  | plus {s ds} : Digits 10 s ds → ds ≠ [] → DecimalText ('+' :: s) (value 10 ds)
  | minus {s ds} : Digits 10 s ds → ds ≠ [] → DecimalText ('-' :: s) (-(value 10 ds : Int))

/-- The text is a number between `lo` and `hi`. -/
def InRange (lo hi : Int) (t : Str) (n : Nat) : Prop := DecimalText t n ∧ lo ≤ n ∧ (n : Int) ≤ hi

/-- The number an option has: the one given, or the default. -/
def NumberIs (ss : List GivenOption) (o : CliOpt) (lo hi : Int) (default n : Nat) : Prop :=
  (∃ t, (o, some t) ∈ ss ∧ InRange lo hi t n) ∨ ((∀ t, (o, t) ∉ ss) ∧ n = default)

/-- What the options mean.  Every option is given once at most. -/
structure Means (ss : List GivenOption) (args : Args) (line : Option Str) : Prop where
  once : (ss.map (·.1)).Nodup
  noInfo : ∀ t, (CliOpt.help, t) ∉ ss ∧ (CliOpt.version, t) ∉ ss
  radix : NumberIs ss .radix 2 16 10 args.radix
  precision : NumberIs ss .precision 0 255 5 args.precision
  extraPrecision : NumberIs ss .extraPrecision 0 255 10 args.extraPrecision
  convertToRadix : (∃ t n, (CliOpt.convertToRadix, some t) ∈ ss ∧ InRange 1 16 t n ∧ args.convertToRadix = some n) ∨
    ((∀ t, (CliOpt.convertToRadix, t) ∉ ss) ∧ args.convertToRadix = none)
  input : (∃ t, (CliOpt.input, some t) ∈ ss ∧ line = some t) ∨ ((∀ t, (CliOpt.input, t) ∉ ss) ∧ line = none)
  alternateScreen : args.alternateScreen = true ↔ (CliOpt.alternateScreen, none) ∈ ss
  noDb : args.noDb = true ↔ (CliOpt.noDb, none) ∈ ss
  fractional : args.fractional = true ↔ (CliOpt.fractional, none) ∈ ss
  commas : args.commas = true ↔ (CliOpt.commas, none) ∈ ss
  upper : args.upper = true ↔ (CliOpt.upper, none) ∈ ss

end Bcalc.Spec
