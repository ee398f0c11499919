import Verif.Spec.Settings

/-!
# What `/help` shows
-/

namespace Bcalc.Spec

/-- The full name of a command, under which `/help` lists it. -/
def fullName : Cmd → String
  | .help => "help"
  | .reloadVar => "reloadvar"
  | .purgeVar => "purgevar"
  | .histcap => "histcap"
  | .fractional => "fractional"
  | .radix => "radix"
  | .convertToRadix => "converttoradix"
  | .upper => "upper"
  | .commas => "commas"
  | .precision => "precision"

/-- What the command works with is missing: the database, the place for variables, or either. -/
def Lacking (s : Session) : Cmd → Prop
  | .histcap => s.db = none
  | .purgeVar => s.vars = none
  | .reloadVar => s.db = none ∨ s.vars = none
  | _ => False

/-- The text is a heading followed by the entries (a name and a description), each on a line of its own, with
the descriptions in one column. -/
def Listing (text : Str) (entries : List (Str × Str)) : Prop :=
  ∃ column, (∀ e ∈ entries, e.1.length < column) ∧ (∀ e ∈ entries, '\n' ∉ e.1 ∧ '\n' ∉ e.2) ∧
    text = "Available commands:".toList ++
      (entries.map fun e => "\n  ".toList ++ e.1 ++ List.replicate (column - e.1.length) ' ' ++ e.2).flatten

/-- The description says that the command is not available. -/
def MarkedUnavailable (description : Str) : Prop := "(unavailable) ".toList <+: description

/-- The help text says that the command is not available. -/
def SaysUnavailable (text : Str) : Prop := "This command is currently unavailable".toList <:+: text

end Bcalc.Spec
