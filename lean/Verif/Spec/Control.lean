import Verif.Spec.Typing

/-!
# Getting from one line to another
-/

namespace Bcalc.Spec

/-- The keys that replace a line of `n` characters by the text, wherever the cursor is: End, Backspace `n` times,
then the characters of the text. -/
def retype (n : Nat) (text : Str) : List Event :=
  .key .end .none :: (List.replicate n (.key .backspace .none) ++ text.map fun c => .key (.char c) .none)

/-- The terminal is at least five columns wide, also for the next line, and a text of `n` characters does not run
out of row numbers on this line or, at the place `t` reports, on the next. -/
structure Wide (e : Editor) (t : TermInfo) (n : Nat) : Prop where
  now : 5 ≤ e.cols ∧ e.cols < 65536
  next : 5 ≤ t.cols ∧ t.cols < 65536
  rows : n + e.startRow < 65536 ∧ t.startRow < 65536

end Bcalc.Spec
