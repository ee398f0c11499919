import Verif.Spec.Settings
import Verif.Spec.Crash
import Verif.Spec.Grammar
import Verif.Spec.Session
import Verif.Model.Calc
import Verif.Model.Editor

/-!
# What can crash the program
-/

namespace Bcalc.Spec

/-- The program comes to a result or an error: it neither crashes nor goes on for ever. -/
def Ends {ε α : Type} (r : Outcome ε α) : Prop := (∃ a, r = .ok a) ∨ ∃ e, r = .err e

/-- The line is submitted in this session: the settings are valid, the database (if there is one) is one the program
made, and the history (if there is one) shows the line.  Database operations may fail and other sessions may
change the database at any time. -/
structure Submitted (s : Session) (line : Str) : Prop where
  settings : ValidSettings s.args
  reachable : ∀ sd, s.db = some sd → Reachable sd.db
  inputs : ∀ h, s.inputs = some h → (h.currentLine : Outcome RuntimeErr Str) = .ok line

/-- The operations that can crash: modulus, power, square root. -/
def Risky (t : Token) : Prop := t = .binary .modulus ∨ t = .binary .exponent ∨ t = .unary .squareRoot

/-- The line, submitted in this session, gets as far as evaluation: it is the expression `n` (perhaps assigned to a
variable), recording it and marking its variables as used has not failed, and `env` is the state after that. -/
def Evaluating (m : Machine) (line : Str) (s : Session) (n : Node) (env : Env) : Prop :=
  ∃ ts target id s1 s2, Ascii line ∧ ¬ CommandLine line ∧ Lexes s.args.radix 0 line ts ∧ Input ts target n ∧
    recordInput s = (.ok id, s1) ∧
    (if s1.vars.isSome then touchAll id (m.hashOrder (variableNames ts)) s1 else (.ok (), s1)) = (.ok (), s2) ∧
    env = ⟨s2.vars, s2.db⟩

/-- There is one of them in the line. -/
def RiskyLine (radix : Nat) (line : Str) : Prop :=
  ¬ CommandLine line ∧ ∃ ts target n, Lexes radix 0 line ts ∧ Input ts target n ∧ ∃ t ∈ ts, Risky t.value

/-- The state of a session that was started with valid settings, without a database or with one the program made, and
in which any events have happened since. -/
inductive Underway (m : Machine) (ce : CommandExecutor) : Editor → Prop
  | start {args db t d e} : ValidSettings args → (∀ sd, db = some sd → Reachable sd.db) →
      Editor.start m args db t = .ok (d, e) → Underway m ce e
  | event {e e' ev t out} : Underway m ce e → step m ce e ev t = .ok (out, e') → out.quit = false → Underway m ce e'

end Bcalc.Spec
