import Verif.Spec.Program

/-!
# A window that changes its size

What the terminal does with the text on the screen when the window changes its size is up to the terminal: some break the
rows anew, some cut them off.  So nothing is said about it.
-/

namespace Bcalc.Spec

/-- In the state `e`, in which the program awaits an event, the window gets another size; `s` is what the terminal has
made of the screen.  The program draws again, and then, as in `Watched`, these events come.  Then the program is in the
state `e'`, and the inputs and outputs `log` have been exchanged. -/
def ResizedWatched (m : Machine) (ce : CommandExecutor) (errorText : RuntimeErr → Str) (e : Editor) (s : Screen)
    (t : TermInfo) (events : List (Event × TermInfo)) (e' : Editor) (log : List (Str × Str)) : Prop :=
  ∃ as a e1 line, stepTrace m ce errorText e (.resize s.width) t = (as, a, .ok (false, e1)) ∧ Shows e1 line ∧ '\n' ∉ line ∧
    Watched m ce errorText e1 (s.run (as.map (·.op))) events e' log

end Bcalc.Spec
