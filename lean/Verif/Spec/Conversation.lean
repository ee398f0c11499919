import Verif.Spec.Typing

/-!
# What the calculator answers depends on, and the lines that are entered at the keyboard
-/

namespace Bcalc.Spec

/-- The two sessions have the same settings and the same values of variables, and their databases contain the
same, and the same is going to happen in them (operations of other processes, failures).  They may differ in
the history of the lines of the session, in the lines recalled from the database, and in the lines being
edited. -/
structure Interchangeable (s s' : Session) : Prop where
  args : s.args = s'.args
  vars : s.vars = s'.vars
  saved : s.db.map (·.db) = s'.db.map (·.db)
  future : s.db.map (·.env) = s'.db.map (·.env)

/-- The session is about to be given the line. -/
def Offers (s : Session) (line : Str) : Prop :=
  ∃ h, s.inputs = some h ∧ (h.currentLine : Outcome RuntimeErr Str) = .ok line

/-- The lines that were shown when Enter was pressed, in the order in which they were entered. -/
def enteredLines (m : Machine) (ce : CommandExecutor) : Editor → List (Event × TermInfo) → List Str
  | _, [] => []
  | e, (ev, t) :: rest =>
    match step m ce e ev t with
    | .ok (out, e') =>
      (match ev, (e.inputs.currentLine : Outcome RuntimeErr Str) with
       | .key .enter _, .ok line => [line]
       | _, _ => []) ++ if out.quit then [] else enteredLines m ce e' rest
    | _ => []

/-- No other process uses the database of the editor (if it has one), and it does not fail. -/
def OnItsOwn (e : Editor) : Prop := ∀ sd, e.db = some sd → sd.env = []

end Bcalc.Spec
