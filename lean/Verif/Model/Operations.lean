import Verif.Model.Token

/-! # Model of src/operations.rs (and of `MathExecutionError` from src/error.rs) -/

namespace Bcalc

/-- error.rs 168-174 -/
inductive MathError where
  | unknownVariable (name : Str)
  | divisionByZero
  | functionNeedsArguments (f : FnName)
  | imaginaryResult
  deriving DecidableEq, Repr

/-- error.rs 176-189 `Display for MathExecutionError` -/
def MathError.display : MathError → Str
  | .unknownVariable name => "Unknown variable: ".toList ++ name
  | .divisionByZero => "Cannot divide by 0".toList
  | .functionNeedsArguments f => f.display ++ " has no arguments but requires them".toList
  | .imaginaryResult =>
    "Unable to take the root of a negative number except unless the degree is an odd integer".toList

/-- `format!("{:0>width$}", s)` (operations.rs 38-42) -/
def padZeros (width : Nat) (s : Str) : Str := List.replicate (width - s.length) '0' ++ s

/-- `trim_end_matches('0')` (operations.rs 47) -/
def trimEndZeros (s : Str) : Str := (s.reverse.dropWhile (· == '0')).reverse

/-- `make_ascii_uppercase` (operations.rs 44, 54) -/
def asciiUpper (s : Str) : Str :=
  s.map fun c => if 97 ≤ c.toNat ∧ c.toNat ≤ 122 then Char.ofNat (c.toNat - 32) else c

/-- `rchunks(3).rev()` (operations.rs 60-61) on the reversed string: groups of three counted from
the end, in left-to-right order. -/
def groupsOfReversed : Str → List Str
  | c3 :: c2 :: c1 :: rest => groupsOfReversed rest ++ [[c1, c2, c3]]
  | [c2, c1] => [[c1, c2]]
  | [c1] => [[c1]]
  | [] => []

/-- operations.rs 56-67: thousands separators. -/
def withCommas (s : Str) : Str := List.intercalate [','] (groupsOfReversed s.reverse)

/-- operations.rs 14-74 `make_decimal_string`.  `rounded`, `radix_power` are non-negative, so
`BigInt`'s truncating `/` and `%` are `Int.tdiv`, `Int.tmod`.  (For radix 0, which the program
never uses, `to_str_radix` panics just as here.) -/
def makeDecimalString {ε : Type} (value : Rat) (radix precision : Nat) (commas upper : Bool) :
    Outcome ε Str :=
  let signStr : Str := if value < 0 then ['-'] else []
  let radixPower : Int := (radix : Int) ^ precision
  let multiplied : Rat := |value * (radixPower : Rat)|
  let precise : Bool := multiplied.den == 1
  let rounded : Int := ratRound multiplied
  let intValue : Int := Int.tdiv rounded radixPower
  let fractional : Outcome ε Str :=
    if precision = 0 then .ok []
    else
      intToStrRadix (Int.tmod rounded radixPower) radix >>= fun s =>
      let s := padZeros precision s
      let s := if upper then asciiUpper s else s
      .ok (if precise then trimEndZeros s else s)
  fractional >>= fun fractionalString =>
  intToStrRadix intValue radix >>= fun intString =>
  let intString := if upper then asciiUpper intString else intString
  let intString := if commas then withCommas intString else intString
  if fractionalString = [] then .ok (signStr ++ intString)
  else .ok (signStr ++ intString ++ ['.'] ++ fractionalString)

/-- operations.rs 124-126 `f_magnitude`: `|x^degree - radicand|` at an integer. -/
def fMagnitude (radicand : Rat) (degree : Nat) (x : Int) : Rat :=
  |(x : Rat) ^ degree - radicand|

/-- operations.rs 153-166: the body of the loop of the binary search: the next bounds. -/
def bisectStep (radicand : Rat) (degree : Nat) (lower upper : Int) : Int × Int :=
  let lowerGuess := Int.tdiv (upper - lower) 2 + lower
  let upperGuess := lowerGuess + 1
  if fMagnitude radicand degree lowerGuess < fMagnitude radicand degree upperGuess then
    (lower, lowerGuess)
  else
    (upperGuess, upper)

/-- operations.rs 151-169: the binary search for a starting point; returns `upper_bound` when the
span is no longer positive. -/
def bisect (radicand : Rat) (degree : Nat) (lower upper : Int) : Int :=
  if h : upper - lower > 0 then
    bisect radicand degree (bisectStep radicand degree lower upper).1 (bisectStep radicand degree lower upper).2
  else upper
termination_by (upper - lower).toNat
decreasing_by
  have h2 : Int.tdiv (upper - lower) 2 = (upper - lower) / 2 :=
    Int.tdiv_eq_ediv_of_nonneg (by omega)
  unfold bisectStep
  simp only [h2]
  split <;> simp only <;> omega

/-- operations.rs 127-130 `next_x`: `(r + (d-1) x^d) / (d x^(d-1))`; a zero divisor panics. -/
def nextX (radicand : Rat) (degree : Nat) (x : Rat) : Outcome MathError Rat :=
  ratDiv (radicand + ((degree - 1 : Nat) : Rat) * x ^ degree)
    ((degree : Rat) * x ^ (degree - 1))

/-- operations.rs 181-188: Newton's loop, at most `fuel` iterations. -/
def newton (radicand : Rat) (degree : Nat) (maxError : Rat) : Nat → Rat → Outcome MathError Rat
  | 0, _ => .diverge
  | fuel + 1, x =>
    nextX radicand degree x >>= fun x' =>
    if |x' - x| ≤ maxError then .ok x' else newton radicand degree maxError fuel x'

/-- operations.rs 76-191 `exponentiate`. -/
def exponentiate (m : Machine) (base exponent : Rat) (precision radix : Nat) :
    Outcome MathError Rat :=
  (if exponent < 0 then ratInv base else .ok base) >>= fun base =>
  let expNum := exponent.num.natAbs
  let degree := exponent.den
  let radicand := base ^ expNum
  u8Add m precision 1 >>= fun precision =>
  ratioNew 1 ((radix : Int) ^ precision) >>= fun maxError =>
  if degree = 1 then .ok radicand
  else if radicand < 0 ∧ degree % 2 = 0 then .err .imaginaryResult
  else
    let lower : Int := if radicand < 0 then ratTrunc radicand else 0
    let upper : Int := if radicand < 0 then 0 else ratTrunc radicand
    let guess := bisect radicand degree lower upper
    if fMagnitude radicand degree guess = 0 then .ok (guess : Rat)
    else newton radicand degree maxError m.fuel (guess : Rat)

end Bcalc
