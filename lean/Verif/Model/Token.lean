import Verif.Model.Position
import Verif.Model.Num

/-! # Model of src/token.rs (and of `ParseError` from src/error.rs) -/

namespace Bcalc

/-- token.rs 8-13 -/
inductive UnOp where
  | squareRoot | negate | absoluteValue
  deriving DecidableEq, Repr

/-- token.rs 25-33 -/
inductive BinOp where
  | add | subtract | multiply | divide | modulus | exponent
  deriving DecidableEq, Repr

/-- token.rs 57-61 -/
inductive FnName where
  | max | min
  deriving DecidableEq, Repr

/-- token.rs 72-83 -/
inductive Token where
  | variable (name : Str)
  | assign
  | comma
  | number (value : Rat)
  | openParen
  | closeParen
  | binary (op : BinOp)
  | unary (op : UnOp)
  | function (name : FnName)
  deriving DecidableEq, Repr

/-- A token with its place in the input (`Positioned<Token>`). -/
abbrev PTok := Positioned Token

/-- token.rs 37-42 `ORDERED_BINARY_OPERATORS` -/
def orderedBinaryOperators : List (List BinOp) :=
  [[.exponent], [.modulus], [.multiply, .divide], [.add, .subtract]]

/-- token.rs 15-23 `Display for UnaryOperatorToken` -/
def UnOp.display : UnOp → Str
  | .squareRoot => "Square Root Operator (sqrt)".toList
  | .negate => "Negation Operator (-)".toList
  | .absoluteValue => "Absolute Value Operator (abs)".toList

/-- token.rs 44-55 `Display for BinaryOperatorToken` -/
def BinOp.display : BinOp → Str
  | .add => "Addition Operator (+)".toList
  | .subtract => "Subtraction Operator (-)".toList
  | .multiply => "Multiplication Operator (*)".toList
  | .divide => "Division Operator (/)".toList
  | .modulus => "Modulus Operator (%)".toList
  | .exponent => "Exponentiation Operator (^)".toList

/-- token.rs 63-70 `Display for FunctionNameToken` -/
def FnName.display : FnName → Str
  | .max => "Max Function".toList
  | .min => "Min Function".toList

/-- token.rs 85-99 `Display for Token` -/
def Token.display : Token → Str
  | .variable s => "Variable '".toList ++ s ++ "'".toList
  | .assign => "Assignment Operator (=)".toList
  | .comma => "Comma".toList
  | .number n => "Number (".toList ++ ratDisplay n ++ ")".toList
  | .openParen => "Open Parenthesis".toList
  | .closeParen => "Close Parenthesis".toList
  | .binary t => t.display
  | .unary t => t.display
  | .function t => t.display

/-- error.rs 91-96 -/
inductive ParseError where
  | nonAscii
  | invalidNumber (s : Str)
  | invalidVariable (s : Str)
  deriving DecidableEq, Repr

/-- error.rs 98-106 `Display for ParseError` -/
def ParseError.display : ParseError → Str
  | .nonAscii => "Non-ASCII data in input".toList
  | .invalidNumber s => "Unable to parse number: '".toList ++ s ++ "'".toList
  | .invalidVariable s => "Invalid variable name: '".toList ++ s ++ "'".toList

/-- token.rs 125-131 -/
inductive ParsedInput where
  | tokens (ts : List PTok)
  | command (name args : Positioned Str)
  deriving DecidableEq, Repr

/-- token.rs 138-146: the keyword table built by `Tokenizer::new`. -/
def tokenMap : List (Str × Token) :=
  [("sqrt".toList, .unary .squareRoot), ("abs".toList, .unary .absoluteValue),
   ("max".toList, .function .max), ("min".toList, .function .min)]

/-- `HashMap::get` on an association list with distinct keys. -/
def assocGet {α : Type} (k : Str) : List (Str × α) → Option α
  | [] => none
  | (k', v) :: rest => if k' = k then some v else assocGet k rest

/-- token.rs 177-189: single-character tokens. -/
def singleCharToken (c : Char) : Option Token :=
  if c = '+' then some (.binary .add)
  else if c = '-' then some (.binary .subtract)
  else if c = '*' then some (.binary .multiply)
  else if c = '/' then some (.binary .divide)
  else if c = '%' then some (.binary .modulus)
  else if c = '^' then some (.binary .exponent)
  else if c = '(' then some .openParen
  else if c = ')' then some .closeParen
  else if c = '=' then some .assign
  else if c = ',' then some .comma
  else none

/-- token.rs 287-300: pull out underscores and the first decimal point, remembering the index the
point had in the cleaned buffer. -/
def cleanNumber : Str → Str → Option Nat → Str × Option Nat
  | [], clean, dec => (clean, dec)
  | c :: cs, clean, dec =>
    if c = '_' then cleanNumber cs clean dec
    else if c = '.' ∧ dec = none then cleanNumber cs clean (some clean.length)
    else cleanNumber cs (clean ++ [c]) dec

/-- token.rs 251-326 `tokenize_on_multichar_end`: turns the buffered word into a token.  Returns
the new token list and the (emptied) buffer.  `String::from_utf8(..).unwrap()` cannot fail on
ASCII and is not represented.  `clean_buffer.len() - dec_index` cannot underflow (the index was a
length of a prefix); `buffer_stop_position - width` is represented as a checked subtraction. -/
def tokenizeOnMulticharEnd (tokens : List PTok) (buffer : Str) (stop : Nat) (radix : Nat) :
    Outcome (Positioned ParseError) (List PTok × Str) :=
  if buffer = [] then .ok (tokens, buffer)
  else
    let width := buffer.length
    if stop < width then .panic .arithmetic
    else
      let start := stop - width
      if buffer.head? = some '$' then
        .ok (tokens ++ [.newRaw (.variable buffer) start width], [])
      else
        match assocGet buffer tokenMap with
        | some token => .ok (tokens ++ [.newRaw token start width], [])
        | none =>
          let (clean, maybeDec) := cleanNumber buffer [] none
          parseBigInt clean radix >>= fun maybeNumer =>
          match maybeNumer with
          | none => .err (.newRaw (.invalidNumber buffer) start width)
          | some numer =>
            let denom : Int := match maybeDec with
              | some decIndex => (radix : Int) ^ (clean.length - decIndex)
              | none => 1
            ratioNew numer denom >>= fun value =>
            .ok (tokens ++ [.newRaw (.number value) start width], [])

/-- token.rs 173-203: the main loop of `tokenize` over the remaining bytes, with the final flush at
the end of input. -/
def tokenizeLoop (radix : Nat) : (position : Nat) → (rest : Str) → (tokens : List PTok) →
    (buffer : Str) → Outcome (Positioned ParseError) (List PTok)
  | position, [], tokens, buffer =>
    tokenizeOnMulticharEnd tokens buffer position radix >>= fun (tokens, _) => .ok tokens
  | position, c :: cs, tokens, buffer =>
    if isAsciiWs c then
      tokenizeOnMulticharEnd tokens buffer position radix >>= fun (tokens, buffer) =>
      tokenizeLoop radix (position + 1) cs tokens buffer
    else
      match singleCharToken c with
      | some token =>
        tokenizeOnMulticharEnd tokens buffer position radix >>= fun (tokens, buffer) =>
        tokenizeLoop radix (position + 1) cs (tokens ++ [.newRaw token position 1]) buffer
      | none => tokenizeLoop radix (position + 1) cs tokens (buffer ++ [c])

/-- `char::is_ascii` -/
def isAscii (c : Char) : Bool := c.toNat < 128

/-- `str::trim_start`/`trim` strip Unicode white space; on ASCII text that is `is_ascii_whitespace`
plus the vertical tab. -/
def isTrimWs (c : Char) : Bool := isAsciiWs c || c == '\x0b'

/-- `str::trim_start` on ASCII text (token.rs 212). -/
def trimStart (s : Str) : Str := s.dropWhile isTrimWs

/-- `str::trim` on ASCII text. -/
def trimBoth (s : Str) : Str := (trimStart (trimStart s).reverse).reverse

/-- `split_once(|c| c.is_ascii_whitespace())` (token.rs 219). -/
def splitOnceWs : Str → Option (Str × Str)
  | [] => none
  | c :: cs =>
    if isAsciiWs c then some ([], cs)
    else match splitOnceWs cs with
      | none => none
      | some (pre, suf) => some (c :: pre, suf)

/-- token.rs 208-244 `maybe_extract_command`.  The length differences cannot underflow: each
subtrahend is the length of a suffix. -/
def maybeExtractCommand (input : Str) : Option ParsedInput :=
  let trimmed := trimStart input
  let commandStart := input.length - trimmed.length
  match trimmed with
  | '/' :: postSlash =>
    match splitOnceWs postSlash with
    | none =>
      some (.command (.newRaw postSlash commandStart trimmed.length)
        (.newRaw [] (commandStart + trimmed.length) 0))
    | some (pre, suf) =>
      let slashLen := trimmed.length - postSlash.length
      some (.command (.newRaw pre commandStart (slashLen + pre.length))
        (.newRaw suf (input.length - suf.length) suf.length))
  | _ => none

/-- token.rs 154-206 `Tokenizer::tokenize`. -/
def tokenize (input : Str) (radix : Nat) : Outcome (Positioned ParseError) ParsedInput :=
  match input.findIdx? (fun c => !isAscii c) with
  | some position => .err (.newRaw .nonAscii position 1)
  | none =>
    match maybeExtractCommand input with
    | some command => .ok command
    | none => tokenizeLoop radix 0 input [] [] >>= fun tokens => .ok (.tokens tokens)

/-- token.rs 335-343 and 375-383: the error messages of the two list tokenizers. -/
def listErrorMessage : ParseError → Str
  | .invalidVariable s => (ParseError.invalidVariable s).display
  | .invalidNumber s => (ParseError.invalidVariable s).display
  | .nonAscii => ParseError.nonAscii.display

/-- token.rs 353-364: the loop of `tokenize_variable_list`. -/
def variableListLoop : List PTok → List (Positioned Str) →
    Outcome (Positioned Str) (List (Positioned Str))
  | [], result => .ok result
  | t :: ts, result =>
    match t.value with
    | .variable s => variableListLoop ts (result ++ [⟨s, t.position⟩])
    | token => .err ⟨"Expected variable, found ".toList ++ token.display, t.position⟩

/-- token.rs 328-367 `tokenize_variable_list`. -/
def tokenizeVariableList (input : Str) : Outcome (Positioned Str) (List (Positioned Str)) :=
  match tokenize input 10 with
  | .err e => .err ⟨listErrorMessage e.value, e.position⟩
  | .panic k => .panic k
  | .diverge => .diverge
  | .ok (.command name _) =>
    .err ⟨(ParseError.invalidVariable ('/' :: name.value)).display, name.position⟩
  | .ok (.tokens ts) => variableListLoop ts []

/-- Bounds of `i64`. -/
def i64Max : Int := 9223372036854775807
/-- Bounds of `i64`. -/
def i64Min : Int := -9223372036854775808

/-- token.rs 393-452: the loop of `tokenize_int_list`.  `-integer` (token.rs 409) overflows only on
`i64::MIN`, represented as an explicit panic. -/
def intListLoop : List PTok → List (Positioned Int) → Option Position →
    Outcome (Positioned Str) (List (Positioned Int))
  | [], result, none => .ok result
  | [], _, some negPos => .err ⟨"Found negative sign without value".toList, negPos⟩
  | t :: ts, result, neg =>
    match t.value with
    | .number q =>
      if q.den ≠ 1 then
        .err ⟨"Expected an integer, found decimal: ".toList ++ ratDisplay q, t.position⟩
      else if i64Min ≤ q.num ∧ q.num ≤ i64Max then
        match neg with
        | some negPos =>
          if q.num = i64Min then .panic .arithmetic
          else intListLoop ts (result ++ [.newSpan (-q.num) negPos t.position]) none
        | none => intListLoop ts (result ++ [⟨q.num, t.position⟩]) none
      else
        .err ⟨"Value must be representable as a 64-bit signed integer".toList, t.position⟩
    | .binary .subtract =>
      match neg with
      | some prev => .err (.newSpan "Two negative signs in a row".toList prev t.position)
      | none => intListLoop ts result (some t.position)
    | token => .err ⟨"Expected integer, found ".toList ++ token.display, t.position⟩

/-- token.rs 369-455 `tokenize_int_list`. -/
def tokenizeIntList (input : Str) (radix : Nat) :
    Outcome (Positioned Str) (List (Positioned Int)) :=
  match tokenize input radix with
  | .err e => .err ⟨listErrorMessage e.value, e.position⟩
  | .panic k => .panic k
  | .diverge => .diverge
  | .ok (.command name _) =>
    .err ⟨(ParseError.invalidNumber ('/' :: name.value)).display, name.position⟩
  | .ok (.tokens ts) => intListLoop ts [] none

end Bcalc
