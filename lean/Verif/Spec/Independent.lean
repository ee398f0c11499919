import Verif.Spec.Laws

/-!
# Lines that do not influence each other
-/

namespace Bcalc.Spec

/-- The variable occurs in the line. -/
def OccursIn (radix : Nat) (line x : Str) : Prop := ∃ ts p, Lexes radix 0 line ts ∧ (⟨.variable x, p⟩ : PTok) ∈ ts

/-- Two lines that are no commands, neither of which assigns to a variable that occurs in the other. -/
structure Independent (radix : Nat) (line line' : Str) : Prop where
  plain : ¬ CommandLine line
  plain' : ¬ CommandLine line'
  apart : ∀ x, Assigns radix line x → ¬ OccursIn radix line' x
  apart' : ∀ x, Assigns radix line' x → ¬ OccursIn radix line x

/-- The line and what was answered to it: an error, or the result of an expression that is assigned to nothing. -/
def Traceless (radix : Nat) (line : Str) (answer : Outcome Failure Str) : Prop :=
  (∃ e, answer = .err e) ∨ (¬ CommandLine line ∧ ∀ x, ¬ Assigns radix line x)

end Bcalc.Spec
