import Verif.Model.Token

/-!
# Specification of the lexical structure of an input line

Independent of how the tokenizer works: an input line is a sequence of blanks, one-character
symbols and maximal words; every word must be a variable, a keyword or a numeral of the radix.
-/

namespace Bcalc.Spec

/-- Blanks separate words. -/
def Blank (c : Char) : Prop := c = ' ' ∨ c = '\t' ∨ c = '\n' ∨ c = '\x0c' ∨ c = '\r'

/-- One-character symbols and the tokens they stand for. -/
inductive Symbol : Char → Token → Prop
  | plus : Symbol '+' (.binary .add)
  | minus : Symbol '-' (.binary .subtract)
  | times : Symbol '*' (.binary .multiply)
  | slash : Symbol '/' (.binary .divide)
  | percent : Symbol '%' (.binary .modulus)
  | caret : Symbol '^' (.binary .exponent)
  | openP : Symbol '(' .openParen
  | closeP : Symbol ')' .closeParen
  | equals : Symbol '=' .assign
  | comma : Symbol ',' .comma

/-- Any other character is part of a word. -/
def WordChar (c : Char) : Prop := ¬ Blank c ∧ ∀ t, ¬ Symbol c t

/-- `c` is the digit of value `d`: '0'..'9', then 'a'..'z' or 'A'..'Z'. -/
def DigitChar (c : Char) (d : Nat) : Prop :=
  (d < 10 ∧ c.toNat = '0'.toNat + d) ∨
  (10 ≤ d ∧ d < 36 ∧ (c.toNat = 'a'.toNat + (d - 10) ∨ c.toNat = 'A'.toNat + (d - 10)))

/-- The characters of `s` are the digits `ds` of the radix. -/
def Digits (radix : Nat) (s : Str) (ds : List Nat) : Prop :=
  List.Forall₂ (fun c d => DigitChar c d ∧ d < radix) s ds

/-- Value of a digit sequence, most significant first. -/
def value (radix : Nat) (ds : List Nat) : Nat := ds.foldl (fun acc d => acc * radix + d) 0

/-- A text without its underscores. -/
def noUnderscores (w : Str) : Str := w.filter (· ≠ '_')

/-- `w` is a numeral of the radix denoting `v`: digits with at most one point, underscores
anywhere. -/
inductive Numeral (radix : Nat) : Str → Rat → Prop
  | whole {w ds} : Digits radix (noUnderscores w) ds → ds ≠ [] →
      Numeral radix w (value radix ds)
  | point {w intPart fracPart ds} : noUnderscores w = intPart ++ '.' :: fracPart →
      Digits radix (intPart ++ fracPart) ds → ds ≠ [] →
      Numeral radix w ((value radix ds : Rat) / (radix : Rat) ^ fracPart.length)

/-- The tokens words stand for. -/
inductive Word (radix : Nat) : Str → Token → Prop
  | variable {w rest} : w = '$' :: rest → Word radix w (.variable w)
  | sqrt : Word radix ['s', 'q', 'r', 't'] (.unary .squareRoot)
  | abs : Word radix ['a', 'b', 's'] (.unary .absoluteValue)
  | max : Word radix ['m', 'a', 'x'] (.function .max)
  | min : Word radix ['m', 'i', 'n'] (.function .min)
  | number {w v} : Numeral radix w v → Word radix w (.number v)

/-- A lexeme is a symbol or a word. -/
def Lexeme (radix : Nat) (text : Str) (t : Token) : Prop :=
  (∃ c, text = [c] ∧ Symbol c t) ∨ ((∀ c ∈ text, WordChar c) ∧ text ≠ [] ∧ Word radix text t)

/-- A word does not continue into `rest`. -/
def Boundary (rest : Str) : Prop := ∀ c cs, rest = c :: cs → ¬ WordChar c

/-- `Lexes radix pos text ts`: the text, which begins at index `pos` of the line, consists of
blanks and of the lexemes of the tokens `ts` in order, words being maximal; each token carries the
place of its lexeme. -/
inductive Lexes (radix : Nat) : Nat → Str → List PTok → Prop
  | done {pos} : Lexes radix pos [] []
  | blank {pos c rest ts} : Blank c → Lexes radix (pos + 1) rest ts → Lexes radix pos (c :: rest) ts
  | symbol {pos c t rest ts} : Symbol c t → Lexes radix (pos + 1) rest ts →
      Lexes radix pos (c :: rest) (⟨t, ⟨pos, 1⟩⟩ :: ts)
  | word {pos w t rest ts} : w ≠ [] → (∀ c ∈ w, WordChar c) → Boundary rest → Word radix w t →
      Lexes radix (pos + w.length) rest ts →
      Lexes radix pos (w ++ rest) (⟨t, ⟨pos, w.length⟩⟩ :: ts)

/-- `w` is the first word of the line, reading from the left, that stands for no token; it begins
at index `pre.length`. -/
def FirstBadWord (radix : Nat) (line w : Str) (start : Nat) : Prop :=
  ∃ pre rest ts, line = pre ++ w ++ rest ∧ start = pre.length ∧
    w ≠ [] ∧ (∀ c ∈ w, WordChar c) ∧ Boundary rest ∧
    (∀ p c, pre = p ++ [c] → ¬ WordChar c) ∧
    Lexes radix 0 pre ts ∧ (∀ t, ¬ Word radix w t)

/-- The text at a position of a line. -/
def textAt (line : Str) (p : Position) : Str := (line.drop p.start).take p.width

/-- A line is a command line when its first character that is not white space (blanks and the
vertical tab) is a slash. -/
def CommandLine (line : Str) : Prop :=
  ∃ pre rest, line = pre ++ '/' :: rest ∧ ∀ c ∈ pre, Blank c ∨ c = '\x0b'

/-- All characters of the line are ASCII. -/
def Ascii (line : Str) : Prop := ∀ c ∈ line, c.toNat < 128

/-- Two words have the same digits: equal after removing underscores, up to the case of letters. -/
def SameDigits (w w' : Str) : Prop :=
  List.Forall₂ (fun c c' => c = c' ∨
      (('a'.toNat ≤ c.toNat ∧ c.toNat ≤ 'z'.toNat) ∧ c.toNat = c'.toNat + 32) ∨
      (('A'.toNat ≤ c.toNat ∧ c.toNat ≤ 'Z'.toNat) ∧ c'.toNat = c.toNat + 32))
    (noUnderscores w) (noUnderscores w')

/-- Insertion of `n` characters at index `k` moves the tokens right of `k`. -/
def movedBy (k n : Nat) (t : PTok) : PTok :=
  if k ≤ t.position.start then ⟨t.value, ⟨t.position.start + n, t.position.width⟩⟩ else t

/-- The largest 64-bit signed integer. -/
def maxI64 : Nat := 2 ^ 63 - 1

/-- `SignedInts ts ns`: the tokens are integer literals of magnitude at most 2^63-1, each optionally
preceded by one minus sign, denoting the integers `ns`; the place of a negated one begins at its
sign. -/
inductive SignedInts : List PTok → List (Positioned Int) → Prop
  | nil : SignedInts [] []
  | plain {n : Nat} {p ts ns} : n ≤ maxI64 → SignedInts ts ns →
      SignedInts (⟨.number n, p⟩ :: ts) (⟨n, p⟩ :: ns)
  | negated {n : Nat} {q p ts ns} : n ≤ maxI64 → SignedInts ts ns →
      SignedInts (⟨.binary .subtract, q⟩ :: ⟨.number n, p⟩ :: ts)
        (⟨-n, ⟨q.start, p.start + p.width - q.start⟩⟩ :: ns)

end Bcalc.Spec
