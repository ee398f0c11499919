import Verif.Spec.Grammar

/-!
# What can be wrong with a sequence of words

`Defect ts text p`: there is something wrong with the words `ts`, at the place `p`, and `text` says what.  All
conditions are about the words next to the place, and about matching parentheses.
-/

namespace Bcalc.Spec

/-- An operand may begin with this word. -/
def beginsOperand : Token → Bool
  | .number _ => true
  | .variable _ => true
  | .openParen => true
  | .unary _ => true
  | .function _ => true
  | _ => false

/-- An operand may end with this word. -/
def endsOperand : Token → Bool
  | .number _ => true
  | .variable _ => true
  | .closeParen => true
  | _ => false

/-- No operand ends before the place. -/
def NoOperandBefore (pre : List PTok) : Prop := ∀ t, pre.getLast? = some t → endsOperand t.value = false

/-- No operand begins after the place, not even after minus signs. -/
def NoOperandAfter (post : List PTok) : Prop :=
  ∀ qs t rest, post = minuses qs ++ t :: rest → beginsOperand t.value = false

/-- The words before the place end with the name of a function. -/
def AfterFunction (pre : List PTok) : Prop := ∃ us f p, pre = us ++ [⟨.function f, p⟩]

/-- The place is not directly inside the parentheses of a function: no parenthesis is open there, or the
innermost open one does not follow the name of a function. -/
def OutsideArguments (pre : List PTok) : Prop :=
  Balanced pre ∨ ∃ us q vs, pre = us ++ ⟨.openParen, q⟩ :: vs ∧ Balanced vs ∧ ¬ AfterFunction us

/-- The names of the operators in messages. -/
def operatorText : BinOp → Str
  | .add => "Addition Operator (+)".toList
  | .subtract => "Subtraction Operator (-)".toList
  | .multiply => "Multiplication Operator (*)".toList
  | .divide => "Division Operator (/)".toList
  | .modulus => "Modulus Operator (%)".toList
  | .exponent => "Exponentiation Operator (^)".toList

/-- The names of the prefix operators in messages. -/
def prefixText : UnOp → Str
  | .squareRoot => "Square Root Operator (sqrt)".toList
  | .negate => "Negation Operator (-)".toList
  | .absoluteValue => "Absolute Value Operator (abs)".toList

/-- The names of the functions in messages. -/
def functionText : FnName → Str
  | .max => "Max Function".toList
  | .min => "Min Function".toList

/-- What is wrong, and where. -/
inductive Defect (ts : List PTok) : Str → Position → Prop
  /-- nothing, or nothing to be assigned -/
  | nothing : ts = [] ∨ (∃ x p q, ts = [⟨.variable x, p⟩, ⟨.assign, q⟩]) → Defect ts "No input".toList ⟨0, 0⟩
  /-- `=` anywhere but after a variable at the beginning -/
  | assign {pre p post} : ts = pre ++ ⟨.assign, p⟩ :: post → (¬ ∃ x q, pre = [⟨.variable x, q⟩]) →
      Defect ts "Unexpected token encountered: Assignment Operator (=)".toList p
  /-- a comma that separates no arguments -/
  | comma {pre p post} : ts = pre ++ ⟨.comma, p⟩ :: post → OutsideArguments pre →
      Defect ts "Unexpected token encountered: Comma".toList p
  /-- a binary operator where an operand is needed -/
  | operator {pre o p post} : ts = pre ++ ⟨.binary o, p⟩ :: post → o ≠ .subtract → NoOperandBefore pre →
      Defect ts ("Unexpected token encountered: ".toList ++ operatorText o) p
  /-- a parenthesis that is never closed -/
  | opened {pre p post} : ts = pre ++ ⟨.openParen, p⟩ :: post → Balanced post →
      Defect ts "Mismatched open parenthesis".toList p
  /-- a parenthesis that was never opened -/
  | closed {pre p post} : ts = pre ++ ⟨.closeParen, p⟩ :: post → Balanced pre →
      Defect ts "Mismatched close parenthesis".toList p
  /-- nothing in parentheses, from the open to the close one -/
  | empty {pre q r post p} : ts = pre ++ ⟨.openParen, q⟩ :: ⟨.closeParen, r⟩ :: post → ¬ AfterFunction pre →
      p.start = q.start → p.start + p.width = r.start + r.width → Defect ts "Empty parentheses".toList p
  /-- a binary operator without an operand before it (unless it is a sign) or without one after it -/
  | binary {pre o p post} : ts = pre ++ ⟨.binary o, p⟩ :: post →
      (o ≠ .subtract ∧ NoOperandBefore pre) ∨ NoOperandAfter post →
      Defect ts (operatorText o ++ " is missing a required operand".toList) p
  /-- a prefix operator, or a sign, without an operand after it -/
  | «prefix» {pre t o p post} : ts = pre ++ ⟨t, p⟩ :: post →
      t = .unary o ∨ (t = .binary .subtract ∧ o = .negate) → NoOperandAfter post →
      Defect ts (prefixText o ++ " is missing a required operand".toList) p
  /-- a comma right after the parenthesis of a function -/
  | commaFirst {pre q p post} : ts = pre ++ ⟨.openParen, q⟩ :: ⟨.comma, p⟩ :: post → AfterFunction pre →
      Defect ts "Comma must follow an operand".toList p
  /-- a comma without an operand after it -/
  | commaLast {pre p post} : ts = pre ++ ⟨.comma, p⟩ :: post → NoOperandAfter post →
      Defect ts "Comma must be followed by an operand".toList p
  /-- a function without argument and parentheses -/
  | function {pre f p post} : ts = pre ++ ⟨.function f, p⟩ :: post → NoOperandAfter post →
      Defect ts ("Functions without parentheses are assumed to have a single argument, but none was found for ".toList
        ++ functionText f) p
  /-- two operands without an operator; the place is the gap between them -/
  | gap {pre x y post p} : ts = pre ++ x :: y :: post → endsOperand x.value = true → beginsOperand y.value = true →
      p.start = x.position.start + x.position.width → p.start + p.width = y.position.start →
      Defect ts "Missing an operator between two consecutive operands".toList p

end Bcalc.Spec
