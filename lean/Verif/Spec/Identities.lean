import Verif.Spec.Laws

/-!
# Identities of arithmetic
-/

namespace Bcalc.Spec

/-- A form of an expression: numbered holes, numerals with the numbers they are meant to denote, operations on forms,
and powers with numerals for exponents. -/
inductive Form
  | hole (i : Nat)
  | number (w : Str) (q : Rat)
  | neg (f : Form)
  | abs (f : Form)
  | add (f g : Form)
  | sub (f g : Form)
  | mul (f g : Form)
  | div (f g : Form)
  | mod (f g : Form)
  | power (f : Form) (w : Str) (k : Nat)
  | max (f g : Form)
  | min (f g : Form)

/-- The text of a form, with texts in the holes.  Everything is in parentheses. -/
def Form.text (a : Nat → Str) : Form → Str
  | .hole i => '(' :: (a i ++ [')'])
  | .number w _ => '(' :: (w ++ [')'])
  | .neg f => '(' :: '-' :: (f.text a ++ [')'])
  | .abs f => '(' :: ("abs".toList ++ (f.text a ++ [')']))
  | .add f g => '(' :: (f.text a ++ '+' :: (g.text a ++ [')']))
  | .sub f g => '(' :: (f.text a ++ '-' :: (g.text a ++ [')']))
  | .mul f g => '(' :: (f.text a ++ '*' :: (g.text a ++ [')']))
  | .div f g => '(' :: (f.text a ++ '/' :: (g.text a ++ [')']))
  | .mod f g => '(' :: (f.text a ++ '%' :: (g.text a ++ [')']))
  | .power f w _ => '(' :: (f.text a ++ '^' :: (w ++ [')']))
  | .max f g => '(' :: ("max".toList ++ '(' :: (f.text a ++ ',' :: (g.text a ++ ")".toList)) ++ [')'])
  | .min f g => '(' :: ("min".toList ++ '(' :: (f.text a ++ ',' :: (g.text a ++ ")".toList)) ++ [')'])

/-- The integer next to a number in the direction of zero. -/
def towardZero (q : Rat) : Int := if 0 ≤ q then ⌊q⌋ else ⌈q⌉

/-- The number that a form denotes, if the holes denote these numbers (or nothing). -/
def Form.eval (v : Nat → Option Rat) : Form → Option Rat
  | .hole i => v i
  | .number _ q => some q
  | .neg f => (f.eval v).map fun x => -x
  | .abs f => (f.eval v).map fun x => |x|
  | .add f g => (f.eval v).bind fun x => (g.eval v).map fun y => x + y
  | .sub f g => (f.eval v).bind fun x => (g.eval v).map fun y => x - y
  | .mul f g => (f.eval v).bind fun x => (g.eval v).map fun y => x * y
  | .div f g => (f.eval v).bind fun x => (g.eval v).bind fun y => if y = 0 then none else some (x / y)
  | .mod f g => (f.eval v).bind fun x => (g.eval v).bind fun y => if y = 0 then none else some (x - y * towardZero (x / y))
  | .power f _ k => (f.eval v).map fun x => x ^ k
  | .max f g => (f.eval v).bind fun x => (g.eval v).map fun y => Max.max x y
  | .min f g => (f.eval v).bind fun x => (g.eval v).map fun y => Min.min x y

/-- The numerals of a form are numerals of the radix for their numbers, and where there are powers, the digits asked for
can be counted in a byte (or the machine does not check that). -/
def Form.Proper (m : Machine) (args : Args) : Form → Prop
  | .hole _ => True
  | .number w q => Numeral args.radix w q
  | .power f w k => f.Proper m args ∧ Numeral args.radix w k ∧
      (m.overflowChecks = true → args.precision + args.extraPrecision ≤ 254)
  | .neg f | .abs f => f.Proper m args
  | .add f g | .sub f g | .mul f g | .div f g | .mod f g | .max f g | .min f g => f.Proper m args ∧ g.Proper m args

/-- The text is an expression. -/
def ExpressionText (radix : Nat) (a : Str) : Prop := Ascii a ∧ ∃ ts n, Lexes radix 0 a ts ∧ Expr 4 ts n

end Bcalc.Spec
