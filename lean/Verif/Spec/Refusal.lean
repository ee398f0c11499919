import Verif.Spec.Settings

/-!
# What commands complain about
-/

namespace Bcalc.Spec

/-- A number as a fraction, in decimal. -/
def fraction (q : Rat) : Str :=
  (if q < 0 then ['-'] else []) ++ decimal q.num.natAbs ++ (if q.den = 1 then [] else '/' :: decimal q.den)

/-- What a token is called in messages. -/
def called : Token → Str
  | .variable x => "Variable '".toList ++ x ++ "'".toList
  | .assign => "Assignment Operator (=)".toList
  | .comma => "Comma".toList
  | .number q => "Number (".toList ++ fraction q ++ ")".toList
  | .openParen => "Open Parenthesis".toList
  | .closeParen => "Close Parenthesis".toList
  | .binary .add => "Addition Operator (+)".toList
  | .binary .subtract => "Subtraction Operator (-)".toList
  | .binary .multiply => "Multiplication Operator (*)".toList
  | .binary .divide => "Division Operator (/)".toList
  | .binary .modulus => "Modulus Operator (%)".toList
  | .binary .exponent => "Exponentiation Operator (^)".toList
  | .unary .squareRoot => "Square Root Operator (sqrt)".toList
  | .unary .negate => "Negation Operator (-)".toList
  | .unary .absoluteValue => "Absolute Value Operator (abs)".toList
  | .function .max => "Max Function".toList
  | .function .min => "Min Function".toList

/-- From the beginning of the first place to the end of the second. -/
def through (p q : Position) : Position := ⟨p.start, q.start + q.width - p.start⟩

/-- `AfterSign ts ts'`: the tokens `ts` are `ts'`, perhaps with one minus sign before them. -/
def AfterSign (ts ts' : List PTok) : Prop := ts = ts' ∨ ∃ q, ts = ⟨.binary .subtract, q⟩ :: ts'

/-- `BadInteger ts text p`: the tokens, read from the left as integers with optional minus signs, go wrong for
the first time at `p`, and `text` says how. -/
inductive BadInteger : List PTok → Str → Position → Prop
  | later {ts ts' t p} {n : Nat} {r} : AfterSign ts (⟨.number n, r⟩ :: ts') → n ≤ maxI64 → BadInteger ts' t p →
      BadInteger ts t p
  | fraction {ts ts' p} {q : Rat} : AfterSign ts (⟨.number q, p⟩ :: ts') → q.den ≠ 1 →
      BadInteger ts ("Expected an integer, found decimal: ".toList ++ fraction q) p
  | big {ts ts' p} {n : Nat} : AfterSign ts (⟨.number n, p⟩ :: ts') → maxI64 < n →
      BadInteger ts "Value must be representable as a 64-bit signed integer".toList p
  | other {ts ts' t p} : AfterSign ts (⟨t, p⟩ :: ts') → (∀ q, t ≠ .number q) → t ≠ .binary .subtract →
      BadInteger ts ("Expected integer, found ".toList ++ called t) p
  | signs {ts' q p} : BadInteger (⟨.binary .subtract, q⟩ :: ⟨.binary .subtract, p⟩ :: ts')
      "Two negative signs in a row".toList (through q p)
  | sign {q} : BadInteger [⟨.binary .subtract, q⟩] "Found negative sign without value".toList q

/-- `BadName ts text p`: the first of the tokens that is not a variable is at `p`, and `text` says so. -/
def BadName (ts : List PTok) (text : Str) (p : Position) : Prop :=
  ∃ ts1 t ts2, ts = ts1 ++ ⟨t, p⟩ :: ts2 ∧ (∀ t ∈ ts1, ∃ x, t.value = .variable x) ∧ (∀ x, t ≠ .variable x) ∧
    text = "Expected variable, found ".toList ++ called t

/-- The argument text begins, after space, with a slash and the name, at the place `p`. -/
def SlashedAt (arguments name : Str) (p : Position) : Prop :=
  ∃ pre tail, arguments = pre ++ '/' :: name ++ tail ∧ (∀ c ∈ pre, Space c) ∧ (∀ c ∈ name, ¬ Blank c) ∧
    (∀ c cs, tail = c :: cs → Blank c) ∧ p = ⟨pre.length, name.length + 1⟩

/-- `NoIntegers arguments text p`: the argument text is no list of integers, `text` says why, and `p` is the
offending place in the argument text.  (A word that means nothing is called a variable name here.) -/
inductive NoIntegers (arguments : Str) : Str → Position → Prop
  | slash {name p} : SlashedAt arguments name p →
      NoIntegers arguments ("Unable to parse number: '/".toList ++ name ++ "'".toList) p
  | word {w start} : ¬ CommandLine arguments → FirstBadWord 10 arguments w start →
      NoIntegers arguments ("Invalid variable name: '".toList ++ w ++ "'".toList) ⟨start, w.length⟩
  | token {ts t p} : ¬ CommandLine arguments → Lexes 10 0 arguments ts → BadInteger ts t p →
      NoIntegers arguments t p

/-- `NoNames arguments text p`: the argument text is no list of variables. -/
inductive NoNames (arguments : Str) : Str → Position → Prop
  | slash {name p} : SlashedAt arguments name p →
      NoNames arguments ("Invalid variable name: '/".toList ++ name ++ "'".toList) p
  | word {w start} : ¬ CommandLine arguments → FirstBadWord 10 arguments w start →
      NoNames arguments ("Invalid variable name: '".toList ++ w ++ "'".toList) ⟨start, w.length⟩
  | token {ts t p} : ¬ CommandLine arguments → Lexes 10 0 arguments ts → BadName ts t p →
      NoNames arguments t p

/-- The argument text is a list of integers, in decimal, with their places in it. -/
def IntegersAt (arguments : Str) (ps : List (Positioned Int)) : Prop :=
  ¬ CommandLine arguments ∧ ∃ ts, Lexes 10 0 arguments ts ∧ SignedInts ts ps

/-- The argument text is a list of variables. -/
def Names (arguments : Str) : Prop :=
  ¬ CommandLine arguments ∧ ∃ ts, Lexes 10 0 arguments ts ∧ ∀ t ∈ ts, ∃ x, t.value = .variable x

/-- The switches. -/
def Switch (cmd : Cmd) : Prop := cmd = .fractional ∨ cmd = .upper ∨ cmd = .commas

/-- The number of integers a command takes, if it takes integers. -/
def most : Cmd → Option Nat
  | .radix | .convertToRadix | .histcap => some 1
  | .precision => some 2
  | _ => none

/-- `topic`, which begins at index `start` of the argument text, is that text without the blanks around it. -/
def Topic (arguments topic : Str) (start : Nat) : Prop :=
  ∃ pre post, arguments = pre ++ topic ++ post ∧ (∀ c ∈ pre, Blank c) ∧ (∀ c ∈ post, Blank c) ∧
    topic ≠ [] ∧ (∀ c cs, topic = c :: cs → ¬ Blank c) ∧ (∀ c cs, topic = cs ++ [c] → ¬ Blank c) ∧
    start = pre.length

/-- `Objection s line arguments cmd text p`: the command, which is given in the line with this argument text,
is not acceptable in the session; `text` says why.  `p` is the offending place: a place of the line for `/help`
and for the switches, a place of the argument text for the commands that take integers or variables, and none
if something outside the line is missing. -/
inductive Objection (s : Session) (line arguments : Str) : Cmd → Str → Option Position → Prop
  | help {name start} : Topic arguments name start → (∀ n cmd, (n, cmd) ∈ commandNames → n.toList ≠ name) →
      Objection s line arguments .help ("No such command: '".toList ++ name ++ "'".toList)
        (some ⟨line.length - arguments.length + start, name.length⟩)
  | switch {cmd} : Switch cmd → (¬ ∀ c ∈ arguments, Space c) → (∀ b, ¬ Says arguments b) →
      Objection s line arguments cmd "Invalid argument".toList
        (some ⟨line.length - arguments.length, arguments.length⟩)
  | integers {cmd k t p} : most cmd = some k → (cmd = .convertToRadix → ¬ IsWord arguments "none") →
      NoIntegers arguments t p → Objection s line arguments cmd t (some p)
  | tooMany {cmd k p ps q} : most cmd = some k → IntegersAt arguments (p :: ps ++ [q]) → k < ps.length + 2 →
      Objection s line arguments cmd "Too many arguments".toList (some (through p.position q.position))
  | small {cmd n p} : cmd = .radix ∨ cmd = .convertToRadix → IntegersAt arguments [⟨n, p⟩] → n < 2 →
      Objection s line arguments cmd "Radix cannot be less than 2".toList (some p)
  | large {cmd n p} : cmd = .radix ∨ cmd = .convertToRadix → IntegersAt arguments [⟨n, p⟩] → 16 < n →
      Objection s line arguments cmd "Radix cannot be greater than 16".toList (some p)
  | precision {n p ps} : IntegersAt arguments (⟨n, p⟩ :: ps) → ps.length ≤ 1 → n < 0 ∨ 255 < n →
      Objection s line arguments .precision
        "Precision must be representable as an 8-bit unsigned integer".toList (some p)
  | extra {n p k q} : IntegersAt arguments [⟨n, p⟩, ⟨k, q⟩] → 0 ≤ n → n ≤ 255 → k < 0 ∨ 255 < k →
      Objection s line arguments .precision
        "Extra must be representable as an 8-bit unsigned integer".toList (some q)
  | sum {n p} : IntegersAt arguments [⟨n, p⟩] → 0 ≤ n → n ≤ 255 → 255 < n + s.args.extraPrecision →
      Objection s line arguments .precision
        "Sum of precision and extra must be representable as an 8-bit unsigned integer".toList (some p)
  | sums {n p k q} : IntegersAt arguments [⟨n, p⟩, ⟨k, q⟩] → 0 ≤ n → n ≤ 255 → 0 ≤ k → k ≤ 255 → 255 < n + k →
      Objection s line arguments .precision
        "Sum of precision and extra must be representable as an 8-bit unsigned integer".toList
        (some (through p q))
  | capacity {n p} : IntegersAt arguments [⟨n, p⟩] → n < 1 →
      Objection s line arguments .histcap "Maximum history size must be at least 1".toList (some p)
  | noCapacity {ps} : s.db = none → IntegersAt arguments ps → ps.length ≤ 1 → (∀ p ∈ ps, 1 ≤ p.value) →
      Objection s line arguments .histcap "Database unavailable".toList none
  | names {cmd t p} : cmd = .reloadVar ∨ cmd = .purgeVar → NoNames arguments t p →
      Objection s line arguments cmd t (some p)
  | noStore : s.vars = none → Names arguments →
      Objection s line arguments .purgeVar "Variable store unavailable".toList none
  | noDatabase : s.db = none → Names arguments →
      Objection s line arguments .reloadVar "Database unavailable".toList none
  | noReload : s.db.isSome → s.vars = none → Names arguments →
      Objection s line arguments .reloadVar "Variable store unavailable".toList none

end Bcalc.Spec
