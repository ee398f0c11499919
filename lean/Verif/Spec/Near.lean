import Verif.Spec.Answer

/-!
# How far a printed number may be from the real number that is meant
-/

namespace Bcalc.Spec

mutual

/-- `Near ε ρ n x δ`: mathematics assigns to the expression `n` the real number `x`, and computing with roots
that are off by at most `ε` gives a number off by at most `δ`.  Numbers and variables are exact; errors add
up in sums and differences; in products and quotients they do so relative to the other operand; a root of an
exact number is off by `ε` (by nothing, if it is an integer), provided that `d * d * (d - 1) * ε ≤ 2` for its
degree `d`; under a square root the error of the operand is divided by the root. -/
inductive Near (ε : ℝ) (ρ : Valuation) : Node → ℝ → ℝ → Prop
  | number {v p} : Near ε ρ (.number v p) (v : ℝ) 0
  | variable {x p v} : ρ x = some v → Near ε ρ (.variable x p) (v : ℝ) 0
  | paren {p q n x δ} : Near ε ρ n x δ → Near ε ρ (.paren p q n) x δ
  | more {n x δ δ'} : Near ε ρ n x δ → δ ≤ δ' → Near ε ρ n x δ'
  | negate {p n x δ} : Near ε ρ n x δ → Near ε ρ (.unary .negate p n) (-x) δ
  | abs {p n x δ} : Near ε ρ n x δ → Near ε ρ (.unary .absoluteValue p n) |x| δ
  | sqrt {p n x ξ δ} : Near ε ρ n x δ → 0 < ξ → ξ * ξ = x →
      Near ε ρ (.unary .squareRoot p n) ξ (ε + δ / ξ)
  | square {p n} {k : Nat} : Near ε ρ n ((k : ℝ) * k) 0 → Near ε ρ (.unary .squareRoot p n) k 0
  | add {p n n' x y δ δ'} : Near ε ρ n x δ → Near ε ρ n' y δ' →
      Near ε ρ (.binary .add p n n') (x + y) (δ + δ')
  | subtract {p n n' x y δ δ'} : Near ε ρ n x δ → Near ε ρ n' y δ' →
      Near ε ρ (.binary .subtract p n n') (x - y) (δ + δ')
  | multiply {p n n' x y δ δ'} : Near ε ρ n x δ → Near ε ρ n' y δ' →
      Near ε ρ (.binary .multiply p n n') (x * y) (|x| * δ' + |y| * δ + δ * δ')
  | divide {p n n' x y δ δ'} : Near ε ρ n x δ → Near ε ρ n' y δ' → δ' < |y| →
      Near ε ρ (.binary .divide p n n') (x / y) ((|x| * δ' + |y| * δ) / (|y| * (|y| - δ')))
  | modulus {p n n'} {a b v : Rat} : Near ε ρ n a 0 → Near ε ρ n' b 0 → Remainder a b v →
      Near ε ρ (.binary .modulus p n n') v 0
  | power {p n n'} {a : Rat} {k : Int} : Near ε ρ n a 0 → Near ε ρ n' (k : ℝ) 0 → a ≠ 0 ∨ 0 ≤ k →
      Near ε ρ (.binary .exponent p n n') ((a : ℝ) ^ k) 0
  | root {p n n'} {a e : Rat} {ξ : ℝ} : Near ε ρ n a 0 → Near ε ρ n' e 0 → a ≠ 0 ∨ 0 ≤ e →
      RealRoot e.den (a ^ e.num) ξ → (e.den : ℝ) * e.den * ((e.den : ℝ) - 1) * ε ≤ 2 → Near ε ρ (.binary .exponent p n n') ξ ε
  | exact_root {p n n'} {a e : Rat} {k : Int} : Near ε ρ n a 0 → Near ε ρ n' e 0 → a ≠ 0 ∨ 0 ≤ e →
      RealRoot e.den (a ^ e.num) k → Near ε ρ (.binary .exponent p n n') k 0
  | max {p ns q xs x δ} : NearAll ε ρ ns xs δ → x ∈ xs → (∀ w ∈ xs, w ≤ x) →
      Near ε ρ (.function .max p ns q) x δ
  | min {p ns q xs x δ} : NearAll ε ρ ns xs δ → x ∈ xs → (∀ w ∈ xs, x ≤ w) →
      Near ε ρ (.function .min p ns q) x δ

/-- The same for all arguments, with a common bound. -/
inductive NearAll (ε : ℝ) (ρ : Valuation) : List Node → List ℝ → ℝ → Prop
  | nil {δ} : NearAll ε ρ [] [] δ
  | cons {n ns x xs δ} : Near ε ρ n x δ → NearAll ε ρ ns xs δ → NearAll ε ρ (n :: ns) (x :: xs) δ

end

/-- The text, apart from commas, is a numeral of the radix for `q`, with a minus sign if that is negative. -/
def Prints (radix : Nat) (text : Str) (q : Rat) : Prop :=
  ∃ w u, Numeral radix w u ∧ ((noCommas text = w ∧ q = u) ∨ (noCommas text = '-' :: w ∧ q = -u))

/-- The text is a fraction (or an integer) in decimal notation of value `q`, with a minus sign if that is
negative. -/
def PrintsFraction (text : Str) (q : Rat) : Prop :=
  ∃ (a b : Nat) (t : Str), b ≠ 0 ∧ ((text = t ∧ q = (a : Rat) / b) ∨ (text = '-' :: t ∧ q = -((a : Rat) / b))) ∧
    ((b = 1 ∧ Numeral 10 t a) ∨ ∃ w w', t = w ++ '/' :: w' ∧ Numeral 10 w a ∧ Numeral 10 w' b)

/-- One unit in the last place that is printed. -/
noncomputable def lastPlace (args : Args) : ℝ := 1 / (outputRadix args : ℝ) ^ args.precision

/-- `InOrder args text text' gap`: the first text prints a number that is at most the one the second prints;
less, if `gap` is a unit in the last place or, printed as fractions, positive. -/
def InOrder (args : Args) (text text' : Str) (gap : ℝ) : Prop :=
  (args.fractional = false → ∃ q q' : Rat, Prints (outputRadix args) text q ∧ Prints (outputRadix args) text' q' ∧
    q ≤ q' ∧ (lastPlace args ≤ gap → q < q')) ∧
  (args.fractional = true → ∃ q q' : Rat, PrintsFraction text q ∧ PrintsFraction text' q' ∧
    q ≤ q' ∧ (0 < gap → q < q'))

end Bcalc.Spec
