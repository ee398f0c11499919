import Verif.Props.Arithmetic

/-!
The 66 unit tests of /repo, on the model.  They are the only executions of the program that /repo records, so
they are checked here as a test of the model against the code.  No property rests on them.
-/

namespace Bcalc.Tests

open Bcalc

/-- operations.rs 196-230 `evaluate_to_string`. -/
def evaluateToString (input : String) (parseRadix resultRadix precision : Nat) (commas upper : Bool) :
    Option String :=
  let args : Args := { Args.default with
    radix := parseRadix, convertToRadix := some resultRadix, precision := precision, extraPrecision := 0,
    fractional := false, commas := commas, upper := upper }
  match tokenize input.toList parseRadix with
  | .ok (.tokens ts) =>
    match SyntaxTree.new ts with
    | .ok st =>
      match (st.execute (exMachine true) args none ⟨none, none⟩).1 with
      | .ok v =>
        match (makeDecimalString v resultRadix precision commas upper : Outcome Failure Str) with
        | .ok s => some (String.ofList s)
        | _ => none
      | _ => none
    | _ => none
  | _ => none

/-- operations.rs decimal_value -/
example : evaluateToString "1234567890" 10 10 5 false false = some "1234567890" := by decide +kernel
/-- operations.rs negative_decimal_value -/
example : evaluateToString "-1234567890" 10 10 5 false false = some "-1234567890" := by decide +kernel
/-- operations.rs hex_value -/
example : evaluateToString "-1234567890ABCDEF" 16 16 5 false false = some "-1234567890abcdef" := by decide +kernel
/-- operations.rs hex_value_upper -/
example : evaluateToString "-1234567890ABCDEF.12A" 16 16 5 false true = some "-1234567890ABCDEF.12A" := by decide +kernel
/-- operations.rs precise_small_decimal -/
example : evaluateToString "0.01" 10 10 5 false false = some "0.01" := by decide +kernel
/-- operations.rs rounded_small_decimal -/
example : evaluateToString "0.010001" 10 10 5 false false = some "0.01000" := by decide +kernel
/-- operations.rs unrounded_small_decimal -/
example : evaluateToString "0.010001" 10 10 6 false false = some "0.010001" := by decide +kernel
/-- operations.rs precise_large_decimal -/
example : evaluateToString "-12345.01" 10 10 5 false false = some "-12345.01" := by decide +kernel
/-- operations.rs rounded_large_decimal -/
example : evaluateToString "-12345.010001" 10 10 5 false false = some "-12345.01000" := by decide +kernel
/-- operations.rs unrounded_large_decimal -/
example : evaluateToString "-12345.010001" 10 10 6 false false = some "-12345.010001" := by decide +kernel
/-- operations.rs zero -/
example : evaluateToString "0" 10 10 5 false false = some "0" := by decide +kernel
/-- operations.rs commas_1 -/
example : evaluateToString "123456789" 10 10 5 true false = some "123,456,789" := by decide +kernel
/-- operations.rs commas_2 -/
example : evaluateToString "1234567890" 10 10 5 true false = some "1,234,567,890" := by decide +kernel
/-- operations.rs commas_3 -/
example : evaluateToString "12345678901" 10 10 5 true false = some "12,345,678,901" := by decide +kernel
/-- operations.rs round_down -/
example : evaluateToString "0.0000049" 10 10 5 false false = some "0.00000" := by decide +kernel
/-- operations.rs round_up -/
example : evaluateToString "0.000005" 10 10 5 false false = some "0.00001" := by decide +kernel
/-- operations.rs no_precision_zero -/
example : evaluateToString "0.1" 10 10 0 false false = some "0" := by decide +kernel
/-- operations.rs no_precision_positive -/
example : evaluateToString "1.1" 10 10 0 false false = some "1" := by decide +kernel
/-- operations.rs no_precision_negative -/
example : evaluateToString "-1.1" 10 10 0 false false = some "-1" := by decide +kernel
/-- operations.rs root_integer_result_1 -/
example : evaluateToString "100^(1/2)" 10 10 10 false false = some "10" := by decide +kernel
/-- operations.rs root_integer_result_2 -/
example : evaluateToString "59049^(1/10)" 10 10 10 false false = some "3" := by decide +kernel
/-- operations.rs exponentiate_integer_result_1 -/
example : evaluateToString "9^10" 10 10 10 false false = some "3486784401" := by decide +kernel
/-- operations.rs exponentiate_integer_result_2 -/
example : evaluateToString "-3^9" 10 10 10 false false = some "-19683" := by decide +kernel
/-- operations.rs exponentiate_integer_result_3 -/
example : evaluateToString "-3^10" 10 10 10 false false = some "59049" := by decide +kernel
/-- operations.rs exponentiate_fractional_result_1 -/
example : evaluateToString "2^(1/2)" 10 10 10 false false = some "1.4142135624" := by decide +kernel
/-- operations.rs exponentiate_fractional_result_2 -/
example : evaluateToString "-2^(1/3)" 10 10 10 false false = some "-1.2599210499" := by decide +kernel
/-- operations.rs exponentiate_fractional_result_3 -/
example : evaluateToString "-100^(7/3)" 10 10 10 false false = some "-46415.8883361278" := by decide +kernel
/-- operations.rs exponentiate_fractional_result_4 -/
example : evaluateToString "-10^(7/9)" 10 10 10 false false = some "-5.9948425032" := by decide +kernel
/-- operations.rs exponentiate_by_zero -/
example : evaluateToString "-100^0" 10 10 10 false false = some "1" := by decide +kernel
/-- operations.rs exponentiate_zero -/
example : evaluateToString "0^2" 10 10 10 false false = some "0" := by decide +kernel
/-- operations.rs exponentiate_zero_by_zero -/
example : evaluateToString "0^0" 10 10 10 false false = some "1" := by decide +kernel
/-- operations.rs exponentiate_by_negative -/
example : evaluateToString "10^-2" 10 10 10 false false = some "0.01" := by decide +kernel
/-- operations.rs exponentiate_one -/
example : evaluateToString "1^(999/998)" 10 10 10 false false = some "1" := by decide +kernel

/-- syntax_tree.rs 826-833 `str_to_syntax_tree`. -/
def strToSyntaxTree (input : String) : Option (Outcome (Positioned SyntaxError) SyntaxTree) :=
  match tokenize input.toList 10 with
  | .ok (.tokens ts) => some (SyntaxTree.new ts)
  | _ => none

mutual
/-- Whether two trees are the same. -/
def sameNode : Node → Node → Bool
  | .number v p, .number v' p' => v == v' && p == p'
  | .variable x p, .variable x' p' => x == x' && p == p'
  | .unary o p n, .unary o' p' n' => o == o' && p == p' && sameNode n n'
  | .binary o p a b, .binary o' p' a' b' => o == o' && p == p' && sameNode a a' && sameNode b b'
  | .function f p ns q, .function f' p' ns' q' => f == f' && p == p' && q == q' && sameNodes ns ns'
  | .paren p q n, .paren p' q' n' => p == p' && q == q' && sameNode n n'
  | _, _ => false
def sameNodes : List Node → List Node → Bool
  | [], [] => true
  | n :: ns, n' :: ns' => sameNode n n' && sameNodes ns ns'
  | _, _ => false
end

/-- The input is read as this tree. -/
def reads (input : String) (target : Option (Positioned Str)) (root : Node) : Bool :=
  match strToSyntaxTree input with
  | some (.ok t) => t.resultVar == target && sameNode t.root root
  | _ => false

/-- syntax_tree.rs lone_value -/
example : reads "123" none
    (.number 123 ⟨0, 3⟩) := by decide +kernel
/-- syntax_tree.rs lone_value_with_padding -/
example : reads "  123  " none
    (.number 123 ⟨2, 3⟩) := by decide +kernel
/-- syntax_tree.rs lone_var -/
example : reads "$var" none
    (.variable "$var".toList ⟨0, 4⟩) := by decide +kernel
/-- syntax_tree.rs addition -/
example : reads "1+2" none
    (.binary .add ⟨1, 1⟩ (.number 1 ⟨0, 1⟩) (.number 2 ⟨2, 1⟩)) := by decide +kernel
/-- syntax_tree.rs double_addition -/
example : reads "1+2+3" none
    (.binary .add ⟨3, 1⟩ (.binary .add ⟨1, 1⟩ (.number 1 ⟨0, 1⟩) (.number 2 ⟨2, 1⟩)) (.number 3 ⟨4, 1⟩)) := by decide +kernel
/-- syntax_tree.rs mixed_operator_chain -/
example : reads "1+2+3-4*5/6+7^8%9" none
    (.binary .add ⟨11, 1⟩ (.binary .subtract ⟨5, 1⟩ (.binary .add ⟨3, 1⟩ (.binary .add ⟨1, 1⟩ (.number 1 ⟨0, 1⟩) (.number 2 ⟨2, 1⟩)) (.number 3 ⟨4, 1⟩)) (.binary .divide ⟨9, 1⟩ (.binary .multiply ⟨7, 1⟩ (.number 4 ⟨6, 1⟩) (.number 5 ⟨8, 1⟩)) (.number 6 ⟨10, 1⟩))) (.binary .modulus ⟨15, 1⟩ (.binary .exponent ⟨13, 1⟩ (.number 7 ⟨12, 1⟩) (.number 8 ⟨14, 1⟩)) (.number 9 ⟨16, 1⟩))) := by decide +kernel
/-- syntax_tree.rs order_of_operations -/
example : reads "1*2+3*4^(5+6)" none
    (.binary .add ⟨3, 1⟩ (.binary .multiply ⟨1, 1⟩ (.number 1 ⟨0, 1⟩) (.number 2 ⟨2, 1⟩)) (.binary .multiply ⟨5, 1⟩ (.number 3 ⟨4, 1⟩) (.binary .exponent ⟨7, 1⟩ (.number 4 ⟨6, 1⟩) (.paren ⟨8, 1⟩ ⟨12, 1⟩ (.binary .add ⟨10, 1⟩ (.number 5 ⟨9, 1⟩) (.number 6 ⟨11, 1⟩)))))) := by decide +kernel
/-- syntax_tree.rs negative_number -/
example : reads "-1" none
    (.unary .negate ⟨0, 1⟩ (.number 1 ⟨1, 1⟩)) := by decide +kernel
/-- syntax_tree.rs multiply_negated_number -/
example : reads "---1" none
    (.unary .negate ⟨0, 1⟩ (.unary .negate ⟨1, 1⟩ (.unary .negate ⟨2, 1⟩ (.number 1 ⟨3, 1⟩)))) := by decide +kernel
/-- syntax_tree.rs subtraction -/
example : reads "1-2" none
    (.binary .subtract ⟨1, 1⟩ (.number 1 ⟨0, 1⟩) (.number 2 ⟨2, 1⟩)) := by decide +kernel
/-- syntax_tree.rs subtraction_of_multiply_negated_number -/
example : reads "1---2" none
    (.binary .subtract ⟨1, 1⟩ (.number 1 ⟨0, 1⟩) (.unary .negate ⟨2, 1⟩ (.unary .negate ⟨3, 1⟩ (.number 2 ⟨4, 1⟩)))) := by decide +kernel
/-- syntax_tree.rs function_no_parens -/
example : reads "1+max 2" none
    (.binary .add ⟨1, 1⟩ (.number 1 ⟨0, 1⟩) (.function .max ⟨2, 3⟩ [(.number 2 ⟨6, 1⟩)] ⟨6, 1⟩)) := by decide +kernel
/-- syntax_tree.rs function_empty_parens -/
example : reads "max()" none
    (.function .max ⟨0, 3⟩ [] ⟨3, 2⟩) := by decide +kernel
/-- syntax_tree.rs function_expression_args -/
example : reads "max(1, -2, 3+4, max(5))" none
    (.function .max ⟨0, 3⟩ [(.number 1 ⟨4, 1⟩), (.unary .negate ⟨7, 1⟩ (.number 2 ⟨8, 1⟩)), (.binary .add ⟨12, 1⟩ (.number 3 ⟨11, 1⟩) (.number 4 ⟨13, 1⟩)), (.function .max ⟨16, 3⟩ [(.number 5 ⟨20, 1⟩)] ⟨19, 3⟩)] ⟨3, 20⟩) := by decide +kernel
/-- syntax_tree.rs assignment -/
example : reads "$var=123" (some ⟨"$var".toList, ⟨0, 4⟩⟩) (.number 123 ⟨5, 3⟩) := by decide +kernel
/-- syntax_tree.rs consecutive_ints -/
example : (match strToSyntaxTree "1 2" with | some (.err e) => some e | _ => none) =
    some ⟨.missingOperator, ⟨1, 1⟩⟩ := by decide +kernel
/-- The places of whole expressions that these tests ask for. -/
example : [
    (strToSyntaxTree "1+2+3-4*5/6+7^8%9"), (strToSyntaxTree "1*2+3*4^(5+6)"), (strToSyntaxTree "---1"),
    (strToSyntaxTree "1---2"), (strToSyntaxTree "1+max 2")].map
      (fun r => match r with | some (.ok t) => some t.root.position | _ => none) =
    [some ⟨0, 17⟩, some ⟨0, 13⟩, some ⟨0, 4⟩, some ⟨0, 5⟩, some ⟨0, 7⟩] := by decide +kernel

/-- token.rs 462-469 `get_tokens`. -/
def getTokens (input : String) (radix : Nat) : Option (List PTok) :=
  match tokenize input.toList radix with
  | .ok (.tokens ts) => some ts
  | _ => none

/-- token.rs all_tokens_no_spaces -/
example : getTokens "$var=1,.1()+-*/%^sqrt,abs,max,min" 10 = some [
    ⟨(.variable "$var".toList), ⟨0, 4⟩⟩, ⟨.assign, ⟨4, 1⟩⟩, ⟨.number 1, ⟨5, 1⟩⟩, ⟨.comma, ⟨6, 1⟩⟩, ⟨.number (1 / 10), ⟨7, 2⟩⟩, ⟨.openParen, ⟨9, 1⟩⟩, ⟨.closeParen, ⟨10, 1⟩⟩, ⟨.binary .add, ⟨11, 1⟩⟩, ⟨.binary .subtract, ⟨12, 1⟩⟩, ⟨.binary .multiply, ⟨13, 1⟩⟩, ⟨.binary .divide, ⟨14, 1⟩⟩, ⟨.binary .modulus, ⟨15, 1⟩⟩, ⟨.binary .exponent, ⟨16, 1⟩⟩, ⟨.unary .squareRoot, ⟨17, 4⟩⟩, ⟨.comma, ⟨21, 1⟩⟩, ⟨.unary .absoluteValue, ⟨22, 3⟩⟩, ⟨.comma, ⟨25, 1⟩⟩, ⟨.function .max, ⟨26, 3⟩⟩, ⟨.comma, ⟨29, 1⟩⟩, ⟨.function .min, ⟨30, 3⟩⟩] := by decide +kernel
/-- token.rs all_tokens_with_spaces -/
example : getTokens " $var = , 1 1.1 ( ) + - * / % ^ sqrt abs max min " 10 = some [
    ⟨(.variable "$var".toList), ⟨1, 4⟩⟩, ⟨.assign, ⟨6, 1⟩⟩, ⟨.comma, ⟨8, 1⟩⟩, ⟨.number 1, ⟨10, 1⟩⟩, ⟨.number (11 / 10), ⟨12, 3⟩⟩, ⟨.openParen, ⟨16, 1⟩⟩, ⟨.closeParen, ⟨18, 1⟩⟩, ⟨.binary .add, ⟨20, 1⟩⟩, ⟨.binary .subtract, ⟨22, 1⟩⟩, ⟨.binary .multiply, ⟨24, 1⟩⟩, ⟨.binary .divide, ⟨26, 1⟩⟩, ⟨.binary .modulus, ⟨28, 1⟩⟩, ⟨.binary .exponent, ⟨30, 1⟩⟩, ⟨.unary .squareRoot, ⟨32, 4⟩⟩, ⟨.unary .absoluteValue, ⟨37, 3⟩⟩, ⟨.function .max, ⟨41, 3⟩⟩, ⟨.function .min, ⟨45, 3⟩⟩] := by decide +kernel
/-- token.rs multiple_decimal_points -/
example : tokenize "1.1.1".toList 10 = .err ⟨.invalidNumber "1.1.1".toList, ⟨0, 5⟩⟩ := by decide +kernel
/-- token.rs hexadecimal_upper -/
example : getTokens "0123456789ABCDEF" 16 = some [⟨.number 81985529216486895, ⟨0, 16⟩⟩] := by decide +kernel
/-- token.rs hexadecimal_lower -/
example : getTokens "0123456789abcdef" 16 = some [⟨.number 81985529216486895, ⟨0, 16⟩⟩] := by decide +kernel
/-- token.rs out_of_radix_range -/
example : tokenize "9".toList 8 = .err ⟨.invalidNumber "9".toList, ⟨0, 1⟩⟩ := by decide +kernel
/-- token.rs bare_command -/
example : tokenize "/command".toList 10 = .ok (.command ⟨"command".toList, ⟨0, 8⟩⟩ ⟨[], ⟨8, 0⟩⟩) := by decide +kernel
/-- token.rs command_with_arg -/
example : tokenize "/command arg1 arg2".toList 10 =
    .ok (.command ⟨"command".toList, ⟨0, 8⟩⟩ ⟨"arg1 arg2".toList, ⟨9, 9⟩⟩) := by decide +kernel
/-- token.rs command_whitespace_arg -/
example : tokenize "  /command     ".toList 10 =
    .ok (.command ⟨"command".toList, ⟨2, 8⟩⟩ ⟨"    ".toList, ⟨11, 4⟩⟩) := by decide +kernel
/-- token.rs empty_var_list -/
example : tokenizeVariableList [] = .ok [] := by decide +kernel
/-- token.rs singleton_var_list -/
example : tokenizeVariableList "$var".toList = .ok [⟨"$var".toList, ⟨0, 4⟩⟩] := by decide +kernel
/-- token.rs multiple_var_list -/
example : tokenizeVariableList "$var1 $var2 $var3".toList =
    .ok [⟨"$var1".toList, ⟨0, 5⟩⟩, ⟨"$var2".toList, ⟨6, 5⟩⟩, ⟨"$var3".toList, ⟨12, 5⟩⟩] := by decide +kernel
/-- token.rs empty_int_list -/
example : tokenizeIntList [] 10 = .ok [] := by decide +kernel
/-- token.rs singleton_int_list -/
example : tokenizeIntList "123".toList 10 = .ok [⟨123, ⟨0, 3⟩⟩] := by decide +kernel
/-- token.rs singleton_negative_int_list -/
example : tokenizeIntList "-123".toList 10 = .ok [⟨-123, ⟨0, 4⟩⟩] := by decide +kernel
/-- token.rs multiple_int_list -/
example : tokenizeIntList "123 456 789".toList 10 = .ok [⟨123, ⟨0, 3⟩⟩, ⟨456, ⟨4, 3⟩⟩, ⟨789, ⟨8, 3⟩⟩] := by
  decide +kernel
/-- token.rs multiple_negative_int_list -/
example : tokenizeIntList "-123 456 -789".toList 10 =
    .ok [⟨-123, ⟨0, 4⟩⟩, ⟨456, ⟨5, 3⟩⟩, ⟨-789, ⟨9, 4⟩⟩] := by decide +kernel

end Bcalc.Tests
