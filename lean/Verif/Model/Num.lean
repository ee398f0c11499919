import Verif.Model.Basic

/-!
# Model of the parts of num-bigint 0.4.6 and num-rational 0.4.2 the crate calls

The crates' sources are not in /repo; these definitions follow their documented behaviour and are
part of the trusted base.  `BigInt` is `Int`, `BigUint` is `Nat`, `BigRational` is `Rat`.
-/

namespace Bcalc

/-- num-bigint `BigUint::from_str_radix`: value of a digit byte (255 for a non-digit).
Called from token.rs 302, saved_data.rs 448, 458. -/
def digitVal (c : Char) : Nat :=
  if 48 ≤ c.toNat ∧ c.toNat ≤ 57 then c.toNat - 48
  else if 97 ≤ c.toNat ∧ c.toNat ≤ 122 then c.toNat - 97 + 10
  else if 65 ≤ c.toNat ∧ c.toNat ≤ 90 then c.toNat - 65 + 10
  else 255

/-- num-bigint `BigUint::from_str_radix`: the digit loop (underscores after the first digit are
skipped by the library as well). -/
def parseDigits (radix : Nat) : Str → Nat → Option Nat
  | [], acc => some acc
  | c :: cs, acc =>
    if c = '_' then parseDigits radix cs acc
    else if digitVal c < radix then parseDigits radix cs (acc * radix + digitVal c)
    else none

/-- num-bigint `BigUint::from_str_radix`: one leading `+` (not two) is stripped. -/
def stripPlus : Str → Str
  | '+' :: '+' :: tail => '+' :: '+' :: tail
  | '+' :: tail => tail
  | s => s

/-- num-bigint `BigUint::from_str_radix` after its radix assertion: one optional leading `+`
(not two), non-empty, first character not an underscore, then digits. -/
def parseBigUint (radix : Nat) (s : Str) : Option Nat :=
  let s := stripPlus s
  match s with
  | [] => none
  | '_' :: _ => none
  | _ => parseDigits radix s 0

/-- num-bigint `BigInt::parse_bytes`/`from_str_radix`: optional `-` (not followed by `+`), then
`BigUint::from_str_radix`.  The radix assertion of the library is explicit. -/
def parseBigInt {ε : Type} (s : Str) (radix : Nat) : Outcome ε (Option Int) :=
  if 2 ≤ radix ∧ radix ≤ 36 then
    match s with
    | '-' :: tail =>
      match tail with
      | '+' :: _ => .ok ((parseBigUint radix s).map fun (n : Nat) => -(n : Int))
      | _ => .ok ((parseBigUint radix tail).map fun (n : Nat) => -(n : Int))
    | _ => .ok ((parseBigUint radix s).map fun (n : Nat) => (n : Int))
  else .panic .radixAssertion

/-- The lower-case digit character of a digit value below 36 (num-bigint `to_str_radix`). -/
def digitChar (d : Nat) : Char :=
  if d < 10 then Char.ofNat (48 + d) else Char.ofNat (97 + (d - 10))

/-- num-bigint `BigUint::to_str_radix` for a radix in range: most significant digit first, "0" for
zero. -/
def natToStr (radix n : Nat) : Str :=
  if n = 0 then ['0'] else (Nat.digits radix n).reverse.map digitChar

/-- num-bigint `BigInt::to_str_radix` (operations.rs 40, 52; saved_data.rs 403-404), with the
library's radix assertion. -/
def intToStrRadix {ε : Type} (n : Int) (radix : Nat) : Outcome ε Str :=
  if 2 ≤ radix ∧ radix ≤ 36 then
    .ok ((if n < 0 then ['-'] else []) ++ natToStr radix n.natAbs)
  else .panic .radixAssertion

/-- `Display` of a `BigInt` or of a primitive integer: decimal. -/
def intDisplay (n : Int) : Str := (if n < 0 then ['-'] else []) ++ natToStr 10 n.natAbs

/-- num-rational `Display for Ratio` (main.rs 574, token.rs 91, commands.rs 284): the numerator
alone when the denominator is one, else `numer/denom`. -/
def ratDisplay (q : Rat) : Str :=
  if q.den = 1 then intDisplay q.num else intDisplay q.num ++ '/' :: intDisplay q.den

/-- num-rational `Ratio::new` (token.rs 319, saved_data.rs 468): reduces; panics on a zero
denominator. -/
def ratioNew {ε : Type} (n d : Int) : Outcome ε Rat :=
  if d = 0 then .panic .divisionByZero else .ok (Rat.divInt n d)

/-- num-rational `Ratio::to_integer` / `trunc` (operations.rs 32, 146, 148): rounds toward
zero. -/
def ratTrunc (q : Rat) : Int := Int.tdiv q.num q.den

/-- num-rational `Ratio::round` (operations.rs 32): the fractional part is compared with one half
on numerator and denominator. -/
def ratRound (q : Rat) : Int :=
  let fractional : Rat := q - (ratTrunc q : Rat)
  let fractional := if fractional < 0 then 0 - fractional else fractional
  let halfOrLarger : Bool :=
    if (fractional.den : Int) % 2 = 0 then decide (fractional.num ≥ Int.tdiv fractional.den 2)
    else decide (fractional.num ≥ Int.tdiv fractional.den 2 + 1)
  if halfOrLarger then
    if q ≥ 0 then ratTrunc q + 1 else ratTrunc q - 1
  else ratTrunc q

/-- num-rational `Div for Ratio` (syntax_tree.rs 158, operations.rs 128-129): panics on a zero
divisor. -/
def ratDiv {ε : Type} (a b : Rat) : Outcome ε Rat :=
  if b = 0 then .panic .divisionByZero else .ok (a / b)

/-- num-rational `Rem for Ratio` (syntax_tree.rs 160): numerators over the common denominator,
remainder truncated toward zero; panics (in num-bigint) when the right side is zero. -/
def ratRem {ε : Type} (a b : Rat) : Outcome ε Rat :=
  if b.num = 0 then .panic .divisionByZero
  else if a.den = b.den then .ok (Rat.divInt (Int.tmod a.num b.num) b.den)
  else
    let lcm := Nat.lcm a.den b.den
    let lhs := a.num * ((lcm / a.den : Nat) : Int)
    let rhs := b.num * ((lcm / b.den : Nat) : Int)
    .ok (Rat.divInt (Int.tmod lhs rhs) lcm)

/-- num-rational `Inv for Ratio` (operations.rs 84): panics on zero. -/
def ratInv {ε : Type} (a : Rat) : Outcome ε Rat :=
  if a = 0 then .panic .divisionByZero else .ok a⁻¹

end Bcalc
