import Verif.Model.Editor
import Verif.Spec.Session

/-!
# When two runs of the program count as the same
-/

namespace Bcalc.Spec

/-- The same lines, perhaps in another order. -/
def SameLines (a b : Str) : Prop :=
  ∃ ls ls' : List Str, ls.Perm ls' ∧ (∀ l ∈ ls, '\n' ∉ l) ∧
    a = List.intercalate ['\n'] ls ∧ b = List.intercalate ['\n'] ls'

/-- The same settings, history, values of variables, saved data and place in the scrollback. -/
structure SameSession (s s' : Session) : Prop where
  args : s.args = s'.args
  inputs : s.inputs = s'.inputs
  store : s.vars.isSome = s'.vars.isSome
  values : ∀ x, sessionValue s x = sessionValue s' x
  saved : s.db.map (·.db) = s'.db.map (·.db)
  position : s.db.map (·.position) = s'.db.map (·.position)

/-- What one event makes visible agrees, except that the lines of a result may come in another order. -/
structure SameStep (a b : StepOut) : Prop where
  drawings : a.drawings = b.drawings
  quit : a.quit = b.quit
  output : a.output = b.output ∨
    ∃ t t', a.output = some (.result t) ∧ b.output = some (.result t') ∧ SameLines t t'

/-- Editors with the same session, prompt, cursor and view. -/
structure SameEditor (e e' : Editor) : Prop where
  session : SameSession e.session e'.session
  cursorPos : e.cursorPos = e'.cursorPos
  scrollOffset : e.scrollOffset = e'.scrollOffset
  startRow : e.startRow = e'.startRow
  startCol : e.startCol = e'.startCol
  cols : e.cols = e'.cols
  inputComplete : e.inputComplete = e'.inputComplete

/-- The machines are built alike and have the same time; only the orders in which they iterate sets may
differ. -/
def SameBuild (m m' : Machine) : Prop := m.overflowChecks = m'.overflowChecks ∧ m.fuel = m'.fuel

end Bcalc.Spec
