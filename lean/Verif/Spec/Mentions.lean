import Verif.Spec.Together
import Verif.Spec.Lexical

/-! # Which variables a line mentions -/

namespace Bcalc.Spec

/-- The variable, which begins with a dollar sign, stands as a word of its own in the line. -/
structure SpellsOut (line x : Str) : Prop where
  dollar : ∃ rest, x = '$' :: rest
  word : ∀ c ∈ x, WordChar c
  stands : ∃ pre rest, line = pre ++ x ++ rest ∧ (∀ p c, pre = p ++ [c] → ¬ WordChar c) ∧ Boundary rest

/-- Nobody is there yet, and the database is new. -/
def Company.beginning : Company := ⟨newDb, fun _ => none⟩

end Bcalc.Spec
