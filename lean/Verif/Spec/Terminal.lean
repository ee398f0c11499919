import Verif.Model.Terminal

/-!
# The terminal, as a user sees it
-/

namespace Bcalc.Spec

/-- The modes of the terminal that outlive the program: raw mode (keys are not echoed, Ctrl+C does nothing), and
which screen is shown. -/
structure Modes where
  raw : Bool
  alternate : Bool
  deriving DecidableEq, Repr

/-- The modes of a terminal before the program starts. -/
def Modes.normal : Modes := ⟨false, false⟩

/-- What an operation does to the modes. -/
def Modes.after (s : Modes) : TermOp → Modes
  | .enableRaw => { s with raw := true }
  | .disableRaw => { s with raw := false }
  | .enterAlternate => { s with alternate := true }
  | .leaveAlternate => { s with alternate := false }
  | _ => s

/-- The modes after several operations. -/
def modesAfter (ops : List TermOp) : Modes := ops.foldl Modes.after Modes.normal

/-- The operations that set the modes.  All others write, ask or read. -/
def SetsMode : TermOp → Prop
  | .enableRaw | .disableRaw | .enterAlternate | .leaveAlternate => True
  | _ => False

/-- How a session stands, going by the results of its events. -/
def endingOf : Outcome RuntimeErr (List StepOut × Editor) → Ending
  | .ok (outs, _) => if ∃ out ∈ outs, out.quit = true then .done else .waiting
  | .err _ => .failed
  | .panic _ => .crashed
  | .diverge => .hung

end Bcalc.Spec
