import Verif.Model.SyntaxTree
import Mathlib.Data.Real.Basic

/-!
# What expressions mean

Values are rational numbers; a valuation gives the values of the variables.
-/

namespace Bcalc.Spec

/-- Values of variables. -/
abbrev Valuation := Str → Option Rat

mutual

/-- The rational number mathematics assigns to an expression built from numbers, variables,
`+ - * /`, negation, `abs`, `max` and `min`; none if a variable has no value, a divisor is zero, an
argument list is empty, or another operation occurs. -/
def denote (ρ : Valuation) : Node → Option Rat
  | .number v _ => some v
  | .variable x _ => ρ x
  | .paren _ _ n => denote ρ n
  | .unary o _ n =>
    match o, denote ρ n with
    | .negate, some a => some (-a)
    | .absoluteValue, some a => some |a|
    | _, _ => none
  | .binary o _ n n' =>
    match o, denote ρ n, denote ρ n' with
    | .add, some a, some b => some (a + b)
    | .subtract, some a, some b => some (a - b)
    | .multiply, some a, some b => some (a * b)
    | .divide, some a, some b => if b = 0 then none else some (a / b)
    | _, _, _ => none
  | .function f _ ns _ =>
    match f, denoteAll ρ ns with
    | .max, some vs => vs.max?
    | .min, some vs => vs.min?
    | _, none => none

/-- The values of all arguments. -/
def denoteAll (ρ : Valuation) : List Node → Option (List Rat)
  | [] => some []
  | n :: ns =>
    match denote ρ n, denoteAll ρ ns with
    | some v, some vs => some (v :: vs)
    | _, _ => none

end

/-- Expressions built from numbers, variables, `+ - * /`, negation, `abs`, `max` and `min`. -/
inductive Arithmetic : Node → Prop
  | number {v p} : Arithmetic (.number v p)
  | variable {x p} : Arithmetic (.variable x p)
  | paren {p q n} : Arithmetic n → Arithmetic (.paren p q n)
  | unary {o p n} : o ≠ .squareRoot → Arithmetic n → Arithmetic (.unary o p n)
  | binary {o p n n'} : o ≠ .modulus → o ≠ .exponent → Arithmetic n → Arithmetic n' →
      Arithmetic (.binary o p n n')
  | function {f p ns q} : (∀ n ∈ ns, Arithmetic n) → Arithmetic (.function f p ns q)

/-- `v` is the remainder of `a` by `b`, truncated toward zero: it differs from `a` by an integer
multiple of `b`, is smaller than `b` in magnitude and does not have the opposite sign of `a`. -/
def Remainder (a b v : Rat) : Prop :=
  (∃ z : Int, a = b * z + v) ∧ |v| < |b| ∧ 0 ≤ a * v

/-- `ρ` is the real root of degree `d` of `r` that is meant: the non-negative one if `r` is not
negative. -/
def RealRoot (d : Nat) (r : Rat) (ρ : ℝ) : Prop := ρ ^ d = (r : ℝ) ∧ (0 ≤ r → 0 ≤ ρ)

/-- How near the number is to the real root of degree `d`: never nearer to zero; off by at most
`(d - 1) * ε`; and off by at most `ε`, unless `(d - 1) * (d * ε) ^ 2 / 2` is more. -/
structure Approximates (d : Nat) (ε : Rat) (ρ : ℝ) (v : Rat) : Prop where
  away : |ρ| ≤ |(v : ℝ)|
  linear : |(v : ℝ) - ρ| ≤ ((d : ℝ) - 1) * (ε : ℝ)
  quadratic : |(v : ℝ) - ρ| ≤ (ε : ℝ) ∨ 2 * |(v : ℝ) - ρ| ≤ ((d : ℝ) - 1) * ((d : ℝ) * (ε : ℝ)) ^ 2

/-- `v` is the value of the power `b ^ e` up to the tolerance `ε`.  With `e = n/d` in lowest terms:
the power is defined, real, exact if `e` is an integer or if the root is an integer, and otherwise
near the real root of degree `d` of `b ^ n`; and its power of degree `d` is near `b ^ n` itself. -/
structure PowerValue (ε b e v : Rat) : Prop where
  defined : b ≠ 0 ∨ 0 ≤ e
  real : b ^ e.num < 0 → Odd e.den
  integer : e.den = 1 → v = b ^ e.num
  exact_root : ∀ k : Int, (k : Rat) ^ e.den = b ^ e.num → (0 ≤ b ^ e.num → 0 ≤ k) → v = k
  accurate : ∀ ρ : ℝ, RealRoot e.den (b ^ e.num) ρ → Approximates e.den ε ρ v
  sign_neg : b ^ e.num < 0 → v < 0
  sign_pos : 0 < b ^ e.num → 0 < v
  residual : |v ^ e.den - b ^ e.num| ≤ (e.den : Rat) * ((e.den : Rat) - 1) / 2 * (|v| + ε) ^ (e.den - 2) * ε ^ 2

mutual

/-- `v` is the value of an expression under a valuation, powers being accurate up to `ε`. -/
inductive Value (ε : Rat) (ρ : Valuation) : Node → Rat → Prop
  | number {v p} : Value ε ρ (.number v p) v
  | variable {x p v} : ρ x = some v → Value ε ρ (.variable x p) v
  | paren {p q n v} : Value ε ρ n v → Value ε ρ (.paren p q n) v
  | negate {p n a} : Value ε ρ n a → Value ε ρ (.unary .negate p n) (-a)
  | abs {p n a} : Value ε ρ n a → Value ε ρ (.unary .absoluteValue p n) |a|
  | sqrt {p n a v} : Value ε ρ n a → PowerValue ε a (1 / 2) v →
      Value ε ρ (.unary .squareRoot p n) v
  | add {p n n' a b} : Value ε ρ n a → Value ε ρ n' b → Value ε ρ (.binary .add p n n') (a + b)
  | subtract {p n n' a b} : Value ε ρ n a → Value ε ρ n' b →
      Value ε ρ (.binary .subtract p n n') (a - b)
  | multiply {p n n' a b} : Value ε ρ n a → Value ε ρ n' b →
      Value ε ρ (.binary .multiply p n n') (a * b)
  | divide {p n n' a b} : Value ε ρ n a → Value ε ρ n' b → b ≠ 0 →
      Value ε ρ (.binary .divide p n n') (a / b)
  | modulus {p n n' a b v} : Value ε ρ n a → Value ε ρ n' b → b ≠ 0 → Remainder a b v →
      Value ε ρ (.binary .modulus p n n') v
  | power {p n n' a b v} : Value ε ρ n a → Value ε ρ n' b → PowerValue ε a b v →
      Value ε ρ (.binary .exponent p n n') v
  | max {p ns q vs v} : Values ε ρ ns vs → v ∈ vs → (∀ w ∈ vs, w ≤ v) →
      Value ε ρ (.function .max p ns q) v
  | min {p ns q vs v} : Values ε ρ ns vs → v ∈ vs → (∀ w ∈ vs, v ≤ w) →
      Value ε ρ (.function .min p ns q) v

/-- The values of all arguments. -/
inductive Values (ε : Rat) (ρ : Valuation) : List Node → List Rat → Prop
  | nil : Values ε ρ [] []
  | cons {n ns v vs} : Value ε ρ n v → Values ε ρ ns vs → Values ε ρ (n :: ns) (v :: vs)

end

/-- The variables' values in a session. -/
def sessionValues (env : Env) : Valuation := fun x =>
  match env.vars with
  | none => none
  | some vs => vs.lookup x

/-- `Reaches m args n env s env'`: evaluating `n` from `env` comes to evaluate its part `s`, from
`env'`: everything to the left of `s` has been evaluated without failure. -/
inductive Reaches (m : Machine) (args : Args) : Node → Env → Node → Env → Prop
  | here {n env} : Reaches m args n env n env
  | paren {p q n env s env'} : Reaches m args n env s env' →
      Reaches m args (.paren p q n) env s env'
  | unary {o p n env s env'} : Reaches m args n env s env' →
      Reaches m args (.unary o p n) env s env'
  | left {o p a b env s env'} : Reaches m args a env s env' →
      Reaches m args (.binary o p a b) env s env'
  | right {o p a b v env env1 s env'} : a.execute m args env = (.ok v, env1) →
      Reaches m args b env1 s env' → Reaches m args (.binary o p a b) env s env'
  | argument {f p q ns n ns' vs env env1 s env'} : executeList m args ns env = (.ok vs, env1) →
      Reaches m args n env1 s env' → Reaches m args (.function f p (ns ++ n :: ns') q) env s env'

end Bcalc.Spec
