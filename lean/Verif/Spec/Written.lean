import Verif.Spec.Display
import Verif.Spec.Refusal

/-!
# How a number is written, to the last character
-/

namespace Bcalc.Spec

/-- The character for a digit. -/
def digitOf (upper : Bool) (d : Nat) : Char :=
  (if upper then "0123456789ABCDEF" else "0123456789abcdef").toList.getD d '?'

/-- A comma before every group of three characters, counted from the right, but not at the beginning. -/
def grouped : Str → Str
  | [] => []
  | c :: cs => if cs ≠ [] ∧ cs.length % 3 = 0 then c :: ',' :: grouped cs else c :: grouped cs

/-- `WrittenAs args v text`: under the settings the number is written so.  In fractional mode, as a fraction in decimal.
Otherwise: a minus sign if it is negative; the digits `I` of the integer part, without leading zeros; then, if there are
any, a point and the digits `F` behind it.  The digits denote the nearest number with the configured number of digits
behind the point; if that is the number itself, there are no zeros at the end of `F`, and otherwise `F` has exactly the
configured number of digits. -/
def WrittenAs (args : Args) (v : Rat) (text : Str) : Prop :=
  if args.fractional then text = fraction v
  else ∃ I F : List Nat,
    (∀ d ∈ I ++ F, d < outputRadix args) ∧
    I ≠ [] ∧ (I = [0] ∨ I.head? ≠ some 0) ∧
    RoundsTo (outputRadix args) args.precision |v|
      ((value (outputRadix args) (I ++ F) : Rat) / (outputRadix args : Rat) ^ F.length) ∧
    (Representable v (outputRadix args) args.precision → F.getLast? ≠ some 0) ∧
    (¬ Representable v (outputRadix args) args.precision → F.length = args.precision) ∧
    text = sign v ++ (if args.commas then grouped (I.map (digitOf args.upper)) else I.map (digitOf args.upper)) ++
      (if F = [] then [] else '.' :: F.map (digitOf args.upper))

end Bcalc.Spec
