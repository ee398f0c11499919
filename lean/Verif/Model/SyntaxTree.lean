import Verif.Model.Variable

/-! # Model of src/syntax_tree.rs (and of `SyntaxError` from src/error.rs) -/

namespace Bcalc

/-- error.rs 114-126 -/
inductive SyntaxError where
  | noInput
  | unexpectedToken (t : Token)
  | mismatchedOpenParen
  | mismatchedCloseParen
  | emptyParens
  | missingOperand (t : Token)
  | commaWithoutOperandBefore
  | commaWithoutOperandAfter
  | functionWithoutParensOrArgument (f : FnName)
  | missingOperator
  deriving DecidableEq, Repr

/-- error.rs 128-160 `Display for SyntaxError` -/
def SyntaxError.display : SyntaxError → Str
  | .noInput => "No input".toList
  | .unexpectedToken t => "Unexpected token encountered: ".toList ++ t.display
  | .mismatchedOpenParen => "Mismatched open parenthesis".toList
  | .mismatchedCloseParen => "Mismatched close parenthesis".toList
  | .emptyParens => "Empty parentheses".toList
  | .missingOperand t => t.display ++ " is missing a required operand".toList
  | .commaWithoutOperandBefore => "Comma must follow an operand".toList
  | .commaWithoutOperandAfter => "Comma must be followed by an operand".toList
  | .functionWithoutParensOrArgument f =>
    "Functions without parentheses are assumed to have a single argument, but none was found for ".toList
      ++ f.display
  | .missingOperator => "Missing an operator between two consecutive operands".toList

/-- error.rs 162-166 `From<Positioned<SyntaxError>>` -/
def Failure.ofSyntax (e : Positioned SyntaxError) : Failure :=
  .input e.value.display (some e.position)

/-- syntax_tree.rs 43-47, 64-68, 92-97, 129-135, 177-183, 240-245, 262-270: the node structs and
`SyntaxTreeNode`. -/
inductive Node where
  | number (value : Rat) (position : Position)
  | variable (name : Str) (position : Position)
  | unary (op : UnOp) (opPosition : Position) (operand : Node)
  | binary (op : BinOp) (opPosition : Position) (operand1 operand2 : Node)
  | function (name : FnName) (namePosition : Position) (operands : List Node)
      (operandsPosition : Position)
  | paren (openPosition closePosition : Position) (node : Node)
  deriving Repr

/-- syntax_tree.rs 59-61, 87-89, 124-126, 169-174, 232-237, 257-259, 305-307: `position` of each node. -/
def Node.position : Node → Position
  | .number _ p => p
  | .variable _ p => p
  | .unary _ p n => Position.fromSpan p n.position
  | .binary _ p a b => Position.fromSpan p (Position.fromSpan a.position b.position)
  | .function _ p _ q => Position.fromSpan p q
  | .paren p q _ => Position.fromSpan p q

/-- syntax_tree.rs 314-318 `OperandOrOperator`. -/
inductive OOO where
  | operand (n : Node)
  | operator (op : Positioned BinOp)
  deriving Repr

/-- syntax_tree.rs 321-326 -/
def OOO.isOperator : OOO → Bool
  | .operator _ => true
  | _ => false

/-- syntax_tree.rs 328-335 -/
def OOO.matchesOperator (o : OOO) (other : BinOp) : Bool :=
  match o with
  | .operator op => op.value == other
  | _ => false

/-- syntax_tree.rs 337-346 -/
def OOO.inOperatorSlice (o : OOO) (slice : List BinOp) : Bool :=
  match o with
  | .operator op => slice.contains op.value
  | _ => false

/-- Results of the parser. -/
abbrev PO (α : Type) := Outcome (Positioned SyntaxError) α

/-- syntax_tree.rs 348-353: panics on an operand. -/
def OOO.unwrapOperator : OOO → PO (Positioned BinOp)
  | .operator o => .ok o
  | _ => .panic .explicit

/-- syntax_tree.rs 355-360 -/
def OOO.isOperand : OOO → Bool
  | .operand _ => true
  | _ => false

/-- syntax_tree.rs 362-367: panics on an operator. -/
def OOO.unwrapOperand : OOO → PO Node
  | .operand o => .ok o
  | _ => .panic .explicit

/-- syntax_tree.rs 372-377 `ExpressionEnd`. -/
inductive ExprEnd where
  | comma (p : Position)
  | closeParen (p : Position)
  | inputEmpty
  deriving DecidableEq, Repr

/-- syntax_tree.rs 381-386 `InputReadResult`. -/
inductive ReadResult where
  | operand (n : Node)
  | operator (op : Positioned BinOp)
  | stop (e : ExprEnd)

/-- syntax_tree.rs 396-404 `OperandReadResult`. -/
inductive OperandResult where
  | operand (n : Node)
  | stop (e : ExprEnd)

/-- syntax_tree.rs 490-518: the loop that turns subtraction operators into negations.  The first
list is `ooos` with its back first, the second is `temp` with its front first; the value returned
is `temp` when `ooos` is empty (then swapped into `ooos`). -/
def negatePass : (ooosReversed : List OOO) → (temp : List OOO) → PO (List OOO)
  | [], temp => .ok temp
  | ooo :: ooos, temp =>
    match ooos with
    | [] => negatePass [] (ooo :: temp)
    | prev :: ooos' =>
      if ooo.isOperand && prev.matchesOperator .subtract &&
          (match ooos' with | [] => true | prevPrev :: _ => prevPrev.isOperator) then
        prev.unwrapOperator >>= fun operator =>
        ooo.unwrapOperand >>= fun operand =>
        negatePass (.operand (.unary .negate operator.position operand) :: ooos') temp
      else negatePass (prev :: ooos') (ooo :: temp)
termination_by ooos => ooos.length

/-- syntax_tree.rs 526-555: one iteration of the `for` loop, combining the operators of one
precedence level from left to right. -/
def precedencePass (ops : List BinOp) : (ooos : List OOO) → (temp : List OOO) → PO (List OOO)
  | [], temp => .ok temp
  | ooo :: ooos, temp =>
    match ooos with
    | next :: nextNext :: ooos' =>
      if ooo.isOperand && next.inOperatorSlice ops && nextNext.isOperand then
        ooo.unwrapOperand >>= fun operand1 =>
        next.unwrapOperator >>= fun operator =>
        nextNext.unwrapOperand >>= fun operand2 =>
        precedencePass ops
          (.operand (.binary operator.value operator.position operand1 operand2) :: ooos') temp
      else precedencePass ops (next :: nextNext :: ooos') (temp ++ [ooo])
    | [next] => precedencePass ops [next] (temp ++ [ooo])
    | [] => precedencePass ops [] (temp ++ [ooo])
termination_by ooos => ooos.length

/-- syntax_tree.rs 525-556: the `for` loop over `ORDERED_BINARY_OPERATORS`. -/
def precedencePasses : List (List BinOp) → List OOO → PO (List OOO)
  | [], ooos => .ok ooos
  | ops :: rest, ooos => precedencePass ops ooos [] >>= fun ooos => precedencePasses rest ooos

/-- syntax_tree.rs 558-594: the final `match` on the first three items. -/
def rootOf : List OOO → PO (Option Node)
  | [] => .ok none
  | [.operand n] => .ok (some n)
  | [.operand _, .operator op] => .err (op.map fun v => .missingOperand (.binary v))
  | .operand _ :: .operator op :: .operator _ :: _ =>
    .err (op.map fun v => .missingOperand (.binary v))
  | .operator op :: _ => .err (op.map fun v => .missingOperand (.binary v))
  | .operand a :: .operand b :: _ => .err (.newBetween .missingOperator a.position b.position)
  | .operand _ :: .operator _ :: .operand _ :: _ => .panic .explicit

/-- syntax_tree.rs 482-594: everything `read_expression` does with the items it has read. -/
def reduceItems (ooos : List OOO) : PO (Option Node) :=
  negatePass ooos.reverse [] >>= fun ooos =>
  precedencePasses orderedBinaryOperators ooos >>= fun ooos =>
  rootOf ooos

/-! The reading functions.  `input` (a `&mut VecDeque`) is passed and returned.  Every function
takes a fuel argument that decreases with each call, so that the recursion is structural; running
out gives `diverge`, which is proved not to happen for the fuel `SyntaxTree.new` passes (C12). -/

mutual

/-- syntax_tree.rs 472-480: the loop of `read_expression` that collects operands and operators. -/
def readItems : Nat → List PTok → PO (List OOO × ExprEnd × List PTok)
  | 0, _ => .diverge
  | fuel + 1, input =>
    readOperandOrOperator fuel input >>= fun (r, input) =>
    match r with
    | .operand o =>
      readItems fuel input >>= fun (ooos, e, input) => .ok (.operand o :: ooos, e, input)
    | .operator o =>
      readItems fuel input >>= fun (ooos, e, input) => .ok (.operator o :: ooos, e, input)
    | .stop e => .ok ([], e, input)

/-- syntax_tree.rs 465-597 `read_expression`. -/
def readExpression : Nat → List PTok → PO (Option Node × ExprEnd × List PTok)
  | 0, _ => .diverge
  | fuel + 1, input =>
    readItems fuel input >>= fun (ooos, e, input) =>
    reduceItems ooos >>= fun root => .ok (root, e, input)

/-- syntax_tree.rs 599-632 `read_operand_or_operator`. -/
def readOperandOrOperator : Nat → List PTok → PO (ReadResult × List PTok)
  | 0, _ => .diverge
  | fuel + 1, input =>
    match input with
    | [] => .ok (.stop .inputEmpty, [])
    | ⟨token, position⟩ :: input =>
      match token with
      | .assign => .err ⟨.unexpectedToken .assign, position⟩
      | .comma => .ok (.stop (.comma position), input)
      | .closeParen => .ok (.stop (.closeParen position), input)
      | .binary op => .ok (.operator ⟨op, position⟩, input)
      | .variable name => .ok (.operand (.variable name position), input)
      | .number value => .ok (.operand (.number value position), input)
      | .unary op =>
        readUnaryNode fuel input op position >>= fun (n, input) => .ok (.operand n, input)
      | .openParen =>
        readParenthesizedNode fuel input position >>= fun (n, input) => .ok (.operand n, input)
      | .function name =>
        readFunctionNode fuel input name position >>= fun (n, input) => .ok (.operand n, input)

/-- syntax_tree.rs 635-651 `read_operand`. -/
def readOperand : Nat → List PTok → PO (OperandResult × List PTok)
  | 0, _ => .diverge
  | fuel + 1, input =>
    readOperandOrOperator fuel input >>= fun (r, input) =>
    match r with
    | .operand op => .ok (.operand op, input)
    | .operator op =>
      if op.value = .subtract then
        readUnaryNode fuel input .negate op.position >>= fun (n, input) => .ok (.operand n, input)
      else .err (op.map fun v => .unexpectedToken (.binary v))
    | .stop e => .ok (.stop e, input)

/-- syntax_tree.rs 653-672 `read_unary_node`. -/
def readUnaryNode : Nat → List PTok → UnOp → Position → PO (Node × List PTok)
  | 0, _, _, _ => .diverge
  | fuel + 1, input, operator, operatorPosition =>
    readOperand fuel input >>= fun (r, input) =>
    match r with
    | .operand operand => .ok (.unary operator operatorPosition operand, input)
    | .stop _ => .err ⟨.missingOperand (.unary operator), operatorPosition⟩

/-- syntax_tree.rs 675-696 `read_parenthesized_node`. -/
def readParenthesizedNode : Nat → List PTok → Position → PO (Node × List PTok)
  | 0, _, _ => .diverge
  | fuel + 1, input, openPosition =>
    readExpression fuel input >>= fun (root, e, input) =>
    match root, e with
    | some node, .closeParen closePosition => .ok (.paren openPosition closePosition node, input)
    | none, .closeParen closePos => .err (.newSpan .emptyParens openPosition closePos)
    | _, .comma p => .err ⟨.unexpectedToken .comma, p⟩
    | _, .inputEmpty => .err ⟨.mismatchedOpenParen, openPosition⟩

/-- syntax_tree.rs 700-785 `read_function_node`. -/
def readFunctionNode : Nat → List PTok → FnName → Position → PO (Node × List PTok)
  | 0, _, _, _ => .diverge
  | fuel + 1, input, functionName, functionNamePosition =>
    match input with
    | [] => .err ⟨.functionWithoutParensOrArgument functionName, functionNamePosition⟩
    | ⟨.openParen, parenPosition⟩ :: input =>
      readArguments fuel input parenPosition none >>= fun (operands, closeParenPos, input) =>
      .ok (.function functionName functionNamePosition operands
        (Position.fromSpan parenPosition closeParenPos), input)
    | notParen :: input =>
      readOperand fuel (notParen :: input) >>= fun (r, input) =>
      match r with
      | .operand operand =>
        .ok (.function functionName functionNamePosition [operand] operand.position, input)
      | .stop _ => .err ⟨.functionWithoutParensOrArgument functionName, functionNamePosition⟩

/-- syntax_tree.rs 741-777: the loop over the arguments of a function; `maybeCommaPos` is the
position of the last comma.  Returns the operands still to be pushed and the position of the close
parenthesis. -/
def readArguments : Nat → List PTok → Position → Option Position →
    PO (List Node × Position × List PTok)
  | 0, _, _, _ => .diverge
  | fuel + 1, input, parenPosition, maybeCommaPos =>
    readExpression fuel input >>= fun (root, e, input) =>
    match root with
    | some operand =>
      match e with
      | .comma pos =>
        readArguments fuel input parenPosition (some pos) >>= fun (operands, close, input) =>
        .ok (operand :: operands, close, input)
      | .closeParen pos => .ok ([operand], pos, input)
      | .inputEmpty => .err ⟨.mismatchedOpenParen, parenPosition⟩
    | none =>
      match maybeCommaPos with
      | some commaPos => .err ⟨.commaWithoutOperandAfter, commaPos⟩
      | none =>
        match e with
        | .comma pos => .err ⟨.commaWithoutOperandBefore, pos⟩
        | .closeParen pos => .ok ([], pos, input)
        | .inputEmpty => .err ⟨.mismatchedOpenParen, parenPosition⟩

end

/-- syntax_tree.rs 409-413 `SyntaxTree`. -/
structure SyntaxTree where
  resultVar : Option (Positioned Str)
  root : Node

/-- Recursion depth allowed to the reading functions for a token list. -/
def parseFuel (input : List PTok) : Nat := 6 * input.length + 6

/-- syntax_tree.rs 446-462: what `SyntaxTree::new` makes of the expression it read. -/
def finishTree (resultVar : Option (Positioned Str)) :
    Option Node × ExprEnd × List PTok → PO SyntaxTree
  | (_, .comma p, _) => .err ⟨.unexpectedToken .comma, p⟩
  | (_, .closeParen p, _) => .err ⟨.mismatchedCloseParen, p⟩
  | (none, .inputEmpty, _) => .err (.newRaw .noInput 0 0)
  | (some root, .inputEmpty, _) => .ok { resultVar := resultVar, root := root }

/-- syntax_tree.rs 416-463 `SyntaxTree::new`. -/
def SyntaxTree.new (input : List PTok) : PO SyntaxTree :=
  match input with
  | ⟨.variable name, position⟩ :: ⟨.assign, _⟩ :: input =>
    readExpression (parseFuel input) input >>= finishTree (some ⟨name, position⟩)
  | input => readExpression (parseFuel input) input >>= finishTree none

/-! ## Execution -/

/-- Code that works on some mutable state, with its result. -/
abbrev St (σ α : Type) := σ → Outcome Failure α × σ

/-- `?` and `;` on such code. -/
def St.andThen {σ α β : Type} (t : St σ α) (f : α → St σ β) : St σ β := fun s =>
  match t s with
  | (.ok a, s') => f a s'
  | (.err e, s') => (.err e, s')
  | (.panic k, s') => (.panic k, s')
  | (.diverge, s') => (.diverge, s')

/-- Code that does not touch the state. -/
def St.lift {σ α : Type} (o : Outcome Failure α) : St σ α := fun s => (o, s)

/-- The `maybe_vars` and `maybe_db` references every `execute` receives. -/
structure Env where
  vars : Option VariableStore
  db : Option SavedData
  deriving DecidableEq, Repr

/-- Code that may change the variables and the database. -/
abbrev Exec (α : Type) := St Env α

/-- Attach the operator's position to a math error (syntax_tree.rs 117, 164). -/
def liftMath {α : Type} (position : Position) (o : Outcome MathError α) : Outcome Failure α :=
  o.mapErr fun e => Failure.ofMath e position

/-- syntax_tree.rs 71-85 `VariableNode::execute`. -/
def execVariable (name : Str) (position : Position) : Exec Rat := fun env =>
  match env.vars with
  | none => (.err (.input noVariableStoreMsg (some position)), env)
  | some vars =>
    match vars.get name env.db with
    | (r, vars', db') =>
      let env' : Env := { vars := some vars', db := db' }
      match r with
      | .ok (some var) => (.ok var.value, env')
      | .ok none => (.err (Failure.ofMath (.unknownVariable name) position), env')
      | .err e => (.err (.runtime e), env')
      | .panic k => (.panic k, env')
      | .diverge => (.diverge, env')

/-- syntax_tree.rs 109-121: the `match` of `UnaryNode::execute`. -/
def applyUnary (m : Machine) (args : Args) (op : UnOp) (position : Position) (operand : Rat) :
    Outcome Failure Rat :=
  match op with
  | .squareRoot =>
    u8Add m args.precision args.extraPrecision >>= fun totalPrecision =>
    liftMath position (exponentiate m operand (1 / 2) totalPrecision args.radix)
  | .negate => .ok (-operand)
  | .absoluteValue => .ok |operand|

/-- syntax_tree.rs 150-166: the `match` of `BinaryNode::execute`. -/
def applyBinary (m : Machine) (args : Args) (op : BinOp) (position : Position) (a b : Rat) :
    Outcome Failure Rat :=
  match op with
  | .add => .ok (a + b)
  | .subtract => .ok (a - b)
  | .multiply => .ok (a * b)
  | .divide => if b.num = 0 then .err (Failure.ofMath .divisionByZero position) else ratDiv a b
  | .modulus => ratRem a b
  | .exponent =>
    u8Add m args.precision args.extraPrecision >>= fun totalPrecision =>
    liftMath position (exponentiate m a b totalPrecision args.radix)

/-- syntax_tree.rs 200-229: the `match` of `FunctionNode::execute`. -/
def applyFunction (name : FnName) (position : Position) (operands : List Rat) :
    Outcome Failure Rat :=
  match operands with
  | [] => .err (Failure.ofMath (.functionNeedsArguments name) position)
  | init :: rest =>
    match name with
    | .max => .ok (rest.foldl max init)
    | .min => .ok (rest.foldl min init)

mutual

/-- syntax_tree.rs 295-303, 50-57, 71-85, 100-122, 138-167, 186-230, 248-255: `execute` of each
kind of node. -/
def Node.execute (m : Machine) (args : Args) : Node → Exec Rat
  | .number value _ => St.lift (.ok value)
  | .variable name position => execVariable name position
  | .unary op position operand =>
    (operand.execute m args).andThen fun v => St.lift (applyUnary m args op position v)
  | .binary op position operand1 operand2 =>
    (operand1.execute m args).andThen fun a =>
    (operand2.execute m args).andThen fun b => St.lift (applyBinary m args op position a b)
  | .function name position operands _ =>
    (executeList m args operands).andThen fun vs => St.lift (applyFunction name position vs)
  | .paren _ _ node => node.execute m args

/-- syntax_tree.rs 192-199: the loop over a function's operands. -/
def executeList (m : Machine) (args : Args) : List Node → Exec (List Rat)
  | [] => St.lift (.ok [])
  | n :: ns =>
    (n.execute m args).andThen fun v =>
    (executeList m args ns).andThen fun vs => St.lift (.ok (v :: vs))

end

/-- syntax_tree.rs 787-809 `SyntaxTree::execute`. -/
def SyntaxTree.execute (m : Machine) (args : Args) (tree : SyntaxTree) (inputHistoryId : Option Int) :
    Exec Rat :=
  (tree.root.execute m args).andThen fun result env =>
  match tree.resultVar with
  | none => (.ok result, env)
  | some resultVar =>
    match env.vars with
    | none => (.err (.input noVariableStoreMsg (some resultVar.position)), env)
    | some vars =>
      match vars.update { name := resultVar.value, value := result } inputHistoryId env.db with
      | (r, vars', db') =>
        let env' : Env := { vars := some vars', db := db' }
        match r with
        | .ok () => (.ok result, env')
        | .err e => (.err (.runtime e), env')
        | .panic k => (.panic k, env')
        | .diverge => (.diverge, env')

end Bcalc
