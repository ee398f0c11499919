import Verif.Spec.Screen

/-!
# A terminal with its two screens

The normal screen, with its scrollback, and the alternate one, which comes up blank, has the cursor where it was in the
window, and is gone when it is left.
-/

namespace Bcalc.Spec

/-- A terminal: the normal screen and, while it is shown, the alternate screen. -/
structure Console where
  normal : Screen
  alternate : Option Screen

/-- The alternate screen when it comes up. -/
def Screen.fresh (s : Screen) : Screen := { s with cell := fun _ _ => ' ', top := 0, row := s.row - s.top }

/-- What an operation does to the terminal: one screen is shown, and only that one is written on. -/
def Console.after (c : Console) (op : TermOp) : Console :=
  match op with
  | .enterAlternate => ⟨c.normal, some c.normal.fresh⟩
  | .leaveAlternate => ⟨c.normal, none⟩
  | op =>
    match c.alternate with
    | some a => ⟨c.normal, some (a.after op)⟩
    | none => ⟨c.normal.after op, none⟩

/-- What several operations do to the terminal. -/
def Console.run (c : Console) (ops : List TermOp) : Console := ops.foldl Console.after c

/-- The screen that is shown. -/
def Console.shown (c : Console) : Screen := c.alternate.getD c.normal

end Bcalc.Spec
