import Verif.Spec.Answer

/-! # How long numbers get -/

namespace Bcalc.Spec

/-- Numerator and denominator, in lowest terms, are at most `B` in magnitude. -/
def AtMost (B : Nat) (v : Rat) : Prop := v.num.natAbs ≤ B ∧ v.den ≤ B

/-- Neither `^` nor `sqrt` occurs. -/
def NoPowers (ts : List PTok) : Prop := ∀ t ∈ ts, t.value ≠ .binary .exponent ∧ t.value ≠ .unary .squareRoot

/-- How many times variables are written. -/
def uses (ts : List PTok) : Nat := ts.countP fun t => match t.value with
  | .variable _ => true
  | _ => false

/-- `Part s n`: `s` is the expression `n` or occurs in it. -/
inductive Part : Node → Node → Prop
  | here {n} : Part n n
  | paren {s p q n} : Part s n → Part s (.paren p q n)
  | unary {s o p n} : Part s n → Part s (.unary o p n)
  | left {s o p n n'} : Part s n → Part s (.binary o p n n')
  | right {s o p n n'} : Part s n' → Part s (.binary o p n n')
  | argument {s f p ns q n} : n ∈ ns → Part s n → Part s (.function f p ns q)

mutual

/-- How many nodes the tree of an expression has. -/
def nodes : Node → Nat
  | .number _ _ => 1
  | .variable _ _ => 1
  | .paren _ _ n => nodes n + 1
  | .unary _ _ n => nodes n + 1
  | .binary _ _ n n' => nodes n + nodes n' + 1
  | .function _ _ ns _ => nodesAll ns + 1

def nodesAll : List Node → Nat
  | [] => 0
  | n :: ns => nodes n + nodesAll ns

end

end Bcalc.Spec
