import Verif.Spec.Answer
import Verif.Spec.Settings

/-!
# Sessions that give the same answers, names for values, and identities of arithmetic
-/

namespace Bcalc.Spec

/-- An interactive session between two inputs: it has a place for variables; if it has a database, nobody else
uses it and nothing outside goes wrong. -/
structure Undisturbed (s : Session) : Prop where
  vars : s.vars.isSome
  reachable : ∀ sd, s.db = some sd → Reachable sd.db
  quiet : Quiet s

/-- Every variable that the session's database stores has a value in the session already. -/
def KnowsAll (s : Session) : Prop := ∀ sd x q, s.db = some sd → Stored sd.db x q → sessionValue s x ≠ none

/-- The lines and what was answered to each, one after the other.  Between two lines the input history may do
what it likes, as long as the line that is entered is the one that it shows. -/
inductive Dialogue (m : Machine) (ce : CommandExecutor) : Session → List (Str × Outcome Failure Str) → Session → Prop
  | done {s} : Dialogue m ce s [] s
  | line {s h line r s1 talk s'} : (h.currentLine : Outcome RuntimeErr Str) = .ok line →
      calculate m ce line { s with inputs := some h } = (r, s1) → Dialogue m ce s1 talk s' →
      Dialogue m ce s ((line, r) :: talk) s'

/-- The commands whose answers speak of the database: `/help`, `/reloadvar` and `/histcap`, and their aliases. -/
def AboutDatabase (line : Str) : Prop :=
  ∃ cmd arguments, IsCommand line cmd arguments ∧ (cmd = .help ∨ cmd = .reloadVar ∨ cmd = .histcap)

/-- An outcome, but for the place of an error. -/
def unplaced {α : Type} (o : Outcome Failure α) : Outcome Failure α :=
  o.mapErr fun f => match f with
    | .input t _ => .input t none
    | .runtime e => .runtime e

/-- The text is the name of a variable: a word that begins with a dollar. -/
def VariableName (x : Str) : Prop := (∃ rest, x = '$' :: rest) ∧ ∀ c ∈ x, WordChar c

/-- Between the two texts the name would be assigned to: only blanks before it, and behind it an equals sign. -/
def AssignedBetween (pre post : Str) : Prop :=
  (∀ c ∈ pre, Blank c) ∧ ∃ b rest, post = b ++ '=' :: rest ∧ ∀ c ∈ b, Blank c

/-- The line is an expression, or an assignment of one. -/
def WellFormed (radix : Nat) (line : Str) : Prop := ∃ ts target n, Lexes radix 0 line ts ∧ Input ts target n

end Bcalc.Spec
