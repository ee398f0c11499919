import Verif.Spec.Speed
import Verif.Spec.Size

/-! # How large numbers get, powers and roots included -/

namespace Bcalc.Spec

/-- How large the numerator and the denominator of a number to the power of `e` can get, if those of the number are at
most `B`: whole powers multiply the digits by the exponent; a root of degree `d` multiplies them by `d` in each
iteration. -/
def powerSize (args : Args) (e : Rat) (B : Nat) : Nat :=
  if e.den = 1 then B ^ e.num.natAbs
  else (e.den * B ^ e.num.natAbs) ^ (2 * e.den ^ iterations args e)

mutual

/-- How large the numerator and the denominator of the value of an expression can get, if those of the variables are
at most `B`, and the expressions used as exponents have these values. -/
def sizeWithin (args : Args) (B : Nat) (exponents : Node → Rat) : Node → Nat
  | .number v _ => max v.num.natAbs v.den
  | .variable _ _ => B
  | .paren _ _ n => sizeWithin args B exponents n
  | .unary .squareRoot _ n => powerSize args (1 / 2) (sizeWithin args B exponents n)
  | .unary _ _ n => sizeWithin args B exponents n
  | .binary .exponent _ n n' => powerSize args (exponents n') (sizeWithin args B exponents n)
  | .binary .multiply _ n n' => sizeWithin args B exponents n * sizeWithin args B exponents n'
  | .binary .divide _ n n' => sizeWithin args B exponents n * sizeWithin args B exponents n'
  | .binary _ _ n n' => 2 * sizeWithin args B exponents n * sizeWithin args B exponents n'
  | .function _ _ ns _ => sizeWithinAll args B exponents ns

/-- The largest of them. -/
def sizeWithinAll (args : Args) (B : Nat) (exponents : Node → Rat) : List Node → Nat
  | [] => 1
  | n :: ns => max (sizeWithin args B exponents n) (sizeWithinAll args B exponents ns)

end

/-- `^` does not occur. -/
def NoExponents (ts : List PTok) : Prop := ∀ t ∈ ts, t.value ≠ .binary .exponent

/-- How many times `sqrt` is written. -/
def roots (ts : List PTok) : Nat := ts.countP fun t => match t.value with
  | .unary .squareRoot => true
  | _ => false

end Bcalc.Spec
