import Verif.Spec.Lexical

/-!
# What a displayed number has to look like
-/

namespace Bcalc.Spec

/-- The value is a multiple of `radix ^ -precision`. -/
def Representable (v : Rat) (radix precision : Nat) : Prop :=
  ∃ k : Int, v = (k : Rat) / (radix : Rat) ^ precision

/-- `u` is the multiple of `radix ^ -precision` nearest to the non-negative number `x`, the larger
one if there are two. -/
def RoundsTo (radix precision : Nat) (x u : Rat) : Prop :=
  (∃ k : Nat, u = (k : Rat) / (radix : Rat) ^ precision) ∧
  u - x ≤ 1 / 2 * (1 / (radix : Rat) ^ precision) ∧
  x - u < 1 / 2 * (1 / (radix : Rat) ^ precision)

/-- The sign put before a number. -/
def sign (v : Rat) : Str := if v < 0 then ['-'] else []

/-- A text without its commas. -/
def noCommas (s : Str) : Str := s.filter (· ≠ ',')

/-- The radix results are displayed in: the one set for output if any, else the input radix. -/
def outputRadix (args : Args) : Nat :=
  match args.convertToRadix with
  | some r => r
  | none => args.radix

/-- A lower-case letter. -/
def IsLower (c : Char) : Prop := 'a'.toNat ≤ c.toNat ∧ c.toNat ≤ 'z'.toNat

/-- An upper-case letter. -/
def IsUpper (c : Char) : Prop := 'A'.toNat ≤ c.toNat ∧ c.toNat ≤ 'Z'.toNat

/-- `c` is `c'` itself or, if that is a lower-case letter, its upper-case form. -/
def UpperOf (c c' : Char) : Prop :=
  (¬ IsLower c' ∧ c = c') ∨ (IsLower c' ∧ c.toNat + 32 = c'.toNat)

end Bcalc.Spec
