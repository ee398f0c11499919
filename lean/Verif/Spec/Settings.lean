import Verif.Spec.Session
import Verif.Spec.Commands
import Verif.Spec.Lexical

/-!
# Settings and the commands that show and change them
-/

namespace Bcalc.Spec

/-- The settings are in range: radix 2 to 16, output radix unset or 2 to 16, and the two precisions
together at most 255. -/
structure ValidSettings (a : Args) : Prop where
  radix : 2 ≤ a.radix ∧ a.radix ≤ 16
  output : ∀ r, a.convertToRadix = some r → 2 ≤ r ∧ r ≤ 16
  precision : a.precision + a.extraPrecision ≤ 255

/-- `Entered m ce s s'`: the session gets from `s` to `s'` by any number of inputs; between the inputs
anything may happen to the database, the history and the variables. -/
inductive Entered (m : Machine) (ce : CommandExecutor) : Session → Session → Prop
  | now {s} : Entered m ce s s
  | input {s s' line} : Entered m ce s s' → Entered m ce s (calculate m ce line s').2
  | meanwhile {s s' s''} : Entered m ce s s' → s''.args = s'.args → Entered m ce s s''

/-- Space that surrounds words: blanks and the vertical tab. -/
def Space (c : Char) : Prop := Blank c ∨ c = '\x0b'

/-- The line is a command under this name, with this argument text: space, a slash, the name, and then
nothing or a blank and the argument text. -/
def NamedCommand (line name arguments : Str) : Prop :=
  Ascii line ∧ ∃ pre tail, line = pre ++ '/' :: name ++ tail ∧ (∀ c ∈ pre, Space c) ∧
    (∀ c ∈ name, ¬ Blank c) ∧ ((tail = [] ∧ arguments = []) ∨ ∃ b, Blank b ∧ tail = b :: arguments)

/-- The line is the command, under one of its documented names, with this argument text. -/
def IsCommand (line : Str) (cmd : Cmd) (arguments : Str) : Prop :=
  ∃ name, (name, cmd) ∈ commandNames ∧ NamedCommand line name.toList arguments

/-- The argument text is a list of integers, in decimal. -/
def Integers (arguments : Str) (ns : List Int) : Prop :=
  Ascii arguments ∧ ¬ CommandLine arguments ∧
    ∃ ts ps, Lexes 10 0 arguments ts ∧ SignedInts ts ps ∧ ps.map (·.value) = ns

/-- The argument text is the word, in upper or lower case, with space around it. -/
def IsWord (arguments : Str) (word : String) : Prop :=
  ∃ pre w post, arguments = pre ++ w ++ post ∧ w.map Char.toLower = word.toList ∧
    (∀ c ∈ pre, Space c) ∧ ∀ c ∈ post, Space c

/-- The argument text says yes or no. -/
def Says (arguments : Str) : Bool → Prop
  | true => IsWord arguments "true" ∨ IsWord arguments "t"
  | false => IsWord arguments "false" ∨ IsWord arguments "f"

/-- The commands for the settings. -/
def Setting : Cmd → Prop
  | .fractional | .radix | .convertToRadix | .upper | .commas | .precision => True
  | _ => False

/-- There is no argument: nothing but blanks (for the switches also vertical tabs). -/
def NoArgument (arguments : Str) : Cmd → Prop
  | .fractional | .upper | .commas => ∀ c ∈ arguments, Space c
  | _ => ∀ c ∈ arguments, Blank c

/-- `Requests arguments a cmd a'`: when the settings are `a`, the setting command with this argument text
asks for the settings `a'`. -/
inductive Requests (arguments : Str) (a : Args) : Cmd → Args → Prop
  | radix {n : Nat} : Integers arguments [(n : Int)] → 2 ≤ n → n ≤ 16 →
      Requests arguments a .radix { a with radix := n }
  | output {n : Nat} : Integers arguments [(n : Int)] → 2 ≤ n → n ≤ 16 →
      Requests arguments a .convertToRadix { a with convertToRadix := some n }
  | noOutput : IsWord arguments "none" →
      Requests arguments a .convertToRadix { a with convertToRadix := none }
  | precision {n : Nat} : Integers arguments [(n : Int)] → n + a.extraPrecision ≤ 255 →
      Requests arguments a .precision { a with precision := n }
  | precisions {n k : Nat} : Integers arguments [(n : Int), (k : Int)] → n + k ≤ 255 →
      Requests arguments a .precision { a with precision := n, extraPrecision := k }
  | fractional {b} : Says arguments b → Requests arguments a .fractional { a with fractional := b }
  | upper {b} : Says arguments b → Requests arguments a .upper { a with upper := b }
  | commas {b} : Says arguments b → Requests arguments a .commas { a with commas := b }

/-- A number in decimal. -/
def decimal (n : Nat) : Str := Nat.toDigits 10 n

/-- How a switch is shown. -/
def switchText (b : Bool) : Str := if b then "true".toList else "false".toList

/-- How a setting command shows its setting. -/
def settingText (a : Args) : Cmd → Str
  | .radix => decimal a.radix
  | .convertToRadix => match a.convertToRadix with
    | none => "None".toList
    | some r => decimal r
  | .precision =>
    "Precision = ".toList ++ decimal a.precision ++ "\nExtra Precision = ".toList ++ decimal a.extraPrecision
  | .fractional => switchText a.fractional
  | .upper => switchText a.upper
  | .commas => switchText a.commas
  | _ => []

/-- From `a` to `a'` no setting changes but the one of the command. -/
def OnlySetting : Cmd → Args → Args → Prop
  | .radix, a, a' => a' = { a with radix := a'.radix }
  | .convertToRadix, a, a' => a' = { a with convertToRadix := a'.convertToRadix }
  | .precision, a, a' => a' = { a with precision := a'.precision, extraPrecision := a'.extraPrecision }
  | .fractional, a, a' => a' = { a with fractional := a'.fractional }
  | .upper, a, a' => a' = { a with upper := a'.upper }
  | .commas, a, a' => a' = { a with commas := a'.commas }
  | _, a, a' => a' = a
/-- `Untouched m ce cmd s s'`: from `s` to `s'` by any number of inputs, none of which is this setting
command; between the inputs anything may happen to the database, the history and the variables. -/
inductive Untouched (m : Machine) (ce : CommandExecutor) (cmd : Cmd) : Session → Session → Prop
  | now {s} : Untouched m ce cmd s s
  | input {s s' line} : Untouched m ce cmd s s' → (∀ arguments, ¬ IsCommand line cmd arguments) →
      Untouched m ce cmd s (calculate m ce line s').2
  | meanwhile {s s' s''} : Untouched m ce cmd s s' → s''.args = s'.args → Untouched m ce cmd s s''

/-- An outcome without the place of an error (which the program does not show). -/
def placeless : Outcome Failure Str → Outcome Failure Str
  | .err (.input t _) => .err (.input t none)
  | r => r

end Bcalc.Spec
