import Verif.Spec.Session
import Verif.Spec.Grammar
import Verif.Spec.Denote
import Verif.Spec.Display
import Verif.Spec.Defect

/-!
# The right answer to a line, from the typed text to the printed text
-/

namespace Bcalc.Spec

/-- The text displays the number: as a fraction in lowest terms, if that is asked for, and else as a numeral
of the output radix (with a sign, and perhaps commas) for the nearest number with the configured number of
digits behind the point. -/
def Displays (args : Args) (v : Rat) (text : Str) : Prop :=
  if args.fractional then
    ∃ a b : Nat, Nat.Coprime a b ∧ |v| = (a : Rat) / b ∧
      ((b = 1 ∧ ∃ w, text = sign v ++ w ∧ Numeral 10 w a) ∨
       (1 < b ∧ ∃ w w', text = sign v ++ w ++ '/' :: w' ∧ Numeral 10 w a ∧ Numeral 10 w' b))
  else
    ∃ w u, noCommas text = sign v ++ w ∧ Numeral (outputRadix args) w u ∧
      RoundsTo (outputRadix args) args.precision |v| u

/-- The tolerance asked for: one unit behind the last digit kept. -/
def askedTolerance (args : Args) : Rat := 1 / (args.radix : Rat) ^ (args.precision + args.extraPrecision + 1)

/-- `Answer args ρ line text`: the text is a right answer to the line, if the variables have the values `ρ`.
Nothing for a blank line; otherwise the line is a sequence of lexemes that derives, by the grammar, from an
expression (or from an assignment of one), and the text displays the value of the expression. -/
inductive Answer (args : Args) (ρ : Valuation) (line : Str) : Str → Prop
  | blank : (∀ c ∈ line, Blank c) → Answer args ρ line []
  | value {ts target n v text} : Lexes args.radix 0 line ts → Input ts target n →
      Value (askedTolerance args) ρ n v → Displays args v text → Answer args ρ line text

/-- The value that a use of the variable may find: the one it has in the session; otherwise one that it has in
the database, after any operations of others and after recording inputs and noting the use of variables. -/
def Finds (s : Session) (x : Str) (q : Rat) : Prop :=
  sessionValue s x = some q ∨
    (sessionValue s x = none ∧ ∃ sd d, s.db = some sd ∧ Stored d x q ∧
      Evolves (fun op => Scheduled sd op ∨ (∃ line, op = .add line) ∨ ∃ y i, op = .touch y i) sd.db d)

/-- What is said of a variable without a value; without a place for variables (one-shot mode) no variable has
one. -/
def unknownText (store : Bool) (x : Str) : Str :=
  if store then "Unknown variable: ".toList ++ x else "Variable store unavailable".toList

/-- What is said of the root of a negative number. -/
def imaginaryText : Str :=
  "Unable to take the root of a negative number except unless the degree is an odd integer".toList

/-- What is said of `max()` and `min()`. -/
def noArgumentsText : FnName → Str
  | .max => "Max Function has no arguments but requires them".toList
  | .min => "Min Function has no arguments but requires them".toList

mutual

/-- `Exact ρ n v`: the expression has exactly the value `v`, and no root that is no integer is taken on the way. -/
inductive Exact (ρ : Valuation) : Node → Rat → Prop
  | number {v p} : Exact ρ (.number v p) v
  | variable {x p v} : ρ x = some v → Exact ρ (.variable x p) v
  | paren {p q n v} : Exact ρ n v → Exact ρ (.paren p q n) v
  | negate {p n a} : Exact ρ n a → Exact ρ (.unary .negate p n) (-a)
  | abs {p n a} : Exact ρ n a → Exact ρ (.unary .absoluteValue p n) |a|
  | sqrt {p n a} {k : Nat} : Exact ρ n a → (k : Rat) * k = a → Exact ρ (.unary .squareRoot p n) k
  | add {p n n' a b} : Exact ρ n a → Exact ρ n' b → Exact ρ (.binary .add p n n') (a + b)
  | subtract {p n n' a b} : Exact ρ n a → Exact ρ n' b → Exact ρ (.binary .subtract p n n') (a - b)
  | multiply {p n n' a b} : Exact ρ n a → Exact ρ n' b → Exact ρ (.binary .multiply p n n') (a * b)
  | divide {p n n' a b} : Exact ρ n a → Exact ρ n' b → b ≠ 0 → Exact ρ (.binary .divide p n n') (a / b)
  | modulus {p n n' a b v} : Exact ρ n a → Exact ρ n' b → b ≠ 0 → Remainder a b v →
      Exact ρ (.binary .modulus p n n') v
  | power {p n n' a} {k : Int} : Exact ρ n a → Exact ρ n' k → a ≠ 0 ∨ 0 ≤ k →
      Exact ρ (.binary .exponent p n n') (a ^ k)
  | root {p n n' a b} {k : Int} : Exact ρ n a → Exact ρ n' b → a ≠ 0 ∨ 0 ≤ b →
      (k : Rat) ^ b.den = a ^ b.num → (Even b.den → 0 ≤ k) → Exact ρ (.binary .exponent p n n') k
  | max {p ns q vs v} : ExactAll ρ ns vs → v ∈ vs → (∀ w ∈ vs, w ≤ v) → Exact ρ (.function .max p ns q) v
  | min {p ns q vs v} : ExactAll ρ ns vs → v ∈ vs → (∀ w ∈ vs, v ≤ w) → Exact ρ (.function .min p ns q) v

/-- The exact values of all arguments. -/
inductive ExactAll (ρ : Valuation) : List Node → List Rat → Prop
  | nil : ExactAll ρ [] []
  | cons {n ns v vs} : Exact ρ n v → ExactAll ρ ns vs → ExactAll ρ (n :: ns) (v :: vs)

end

/-- `Refused store ρ V n text p`: reading from the left, the first part of the expression that has no value is
at `p`, and `text` says why: a variable without a value, a division by zero, an even root of a negative
number, or `max` or `min` of nothing.  `V` says what the values of expressions are. -/
inductive Refused (store : Bool) (ρ : Valuation) (V : Node → Rat → Prop) : Node → Str → Position → Prop
  | variable {x p} : ρ x = none → Refused store ρ V (.variable x p) (unknownText store x) p
  | paren {p q n t r} : Refused store ρ V n t r → Refused store ρ V (.paren p q n) t r
  | operand {o p n t r} : Refused store ρ V n t r → Refused store ρ V (.unary o p n) t r
  | left {o p n n' t r} : Refused store ρ V n t r → Refused store ρ V (.binary o p n n') t r
  | right {o p n n' a t r} : V n a → Refused store ρ V n' t r → Refused store ρ V (.binary o p n n') t r
  | divide {p n n' a} : V n a → V n' 0 →
      Refused store ρ V (.binary .divide p n n') "Cannot divide by 0".toList p
  | power {p n n' a b} : V n a → V n' b → a < 0 → Even b.den →
      Refused store ρ V (.binary .exponent p n n') imaginaryText p
  | sqrt {p n a} : V n a → a < 0 → Refused store ρ V (.unary .squareRoot p n) imaginaryText p
  | argument {f p ns n ns' q vs t r} : List.Forall₂ V ns vs → Refused store ρ V n t r →
      Refused store ρ V (.function f p (ns ++ n :: ns') q) t r
  | noArguments {f p q} : Refused store ρ V (.function f p [] q) (noArgumentsText f) p

/-- `Complaint store args ρ line text p`: the line is not acceptable, at the place `p` of the line: a character
that is not ASCII, a word that means nothing, words that form no expression or assignment, or an expression
without a value; or an assignment in one-shot mode. -/
inductive Complaint (store : Bool) (args : Args) (ρ : Valuation) (line : Str) : Str → Position → Prop
  | character {pre c rest} : line = pre ++ c :: rest → Ascii pre → 128 ≤ c.toNat →
      Complaint store args ρ line "Non-ASCII data in input".toList ⟨pre.length, 1⟩
  | word {w start} : Ascii line → FirstBadWord args.radix line w start →
      Complaint store args ρ line ("Unable to parse number: '".toList ++ w ++ "'".toList) ⟨start, w.length⟩
  | syntax {ts text p} : Lexes args.radix 0 line ts → Defect ts text p → Complaint store args ρ line text p
  | value {ts target n text p} : Lexes args.radix 0 line ts → Input ts target n →
      Refused store ρ (Value (askedTolerance args) ρ) n text p → Complaint store args ρ line text p
  | assignment {ts x n v} : store = false → Lexes args.radix 0 line ts → Input ts (some x) n →
      Value (askedTolerance args) ρ n v →
      Complaint store args ρ line "Variable store unavailable".toList x.position

/-- The values a line finds when nobody else uses the database: those of the session, and otherwise those that
are stored once the line has been recorded. -/
def Sees (s : Session) (line x : Str) (q : Rat) : Prop :=
  sessionValue s x = some q ∨ (sessionValue s x = none ∧ s.vars.isSome ∧
    ∃ sd, s.db = some sd ∧ Stored ((DbOp.add line).apply sd.db) x q)

/-- The valuation gives exactly the values that the line finds. -/
def SeenBy (s : Session) (line : Str) (ρ : Valuation) : Prop := ∀ x q, ρ x = some q ↔ Sees s line x q

/-- An interactive session about to process the line: it has a place for variables and an input history in which
the line is shown; if it has a database, nobody else uses it and nothing outside goes wrong. -/
structure Ready (s : Session) (line : Str) : Prop where
  vars : s.vars.isSome
  inputs : ∃ h, s.inputs = some h ∧ (h.currentLine : Outcome RuntimeErr Str) = .ok line
  reachable : ∀ sd, s.db = some sd → Reachable sd.db
  quiet : Quiet s

end Bcalc.Spec
