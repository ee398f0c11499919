import Verif.Model.SyntaxTree

/-!
# The calculator's grammar

`Expr 4` is the category of expressions; `Expr 3`, `Expr 2`, `Expr 1` are the categories of
products, moduli and powers, and `Expr 0` that of signed operands.  Each rule says which tree the
tokens derive.
-/

namespace Bcalc.Spec

/-- Binding level of a binary operator; a smaller level binds tighter. -/
def level : BinOp → Nat
  | .exponent => 1
  | .modulus => 2
  | .multiply => 3
  | .divide => 3
  | .add => 4
  | .subtract => 4

/-- The token list begins with an open parenthesis. -/
def StartsWithOpen (ts : List PTok) : Prop := ∃ p us, ts = ⟨.openParen, p⟩ :: us

mutual

/-- Expressions of a level. -/
inductive Expr : Nat → List PTok → Node → Prop
  /-- the innermost level: a signed operand -/
  | signed {ts n} : Signed ts n → Expr 0 ts n
  /-- anything of a tighter level -/
  | lift {k ts n} : Expr k ts n → Expr (k + 1) ts n
  /-- left operand of the same level, operator of the level, right operand of a tighter level -/
  | op {k ts a o p us b} : Expr (k + 1) ts a → level o = k + 1 → Expr k us b →
      Expr (k + 1) (ts ++ ⟨.binary o, p⟩ :: us) (.binary o p a b)

/-- Operands with any number of minus signs in front. -/
inductive Signed : List PTok → Node → Prop
  | minus {p ts n} : Signed ts n → Signed (⟨.binary .subtract, p⟩ :: ts) (.unary .negate p n)
  | atom {ts n} : Atom ts n → Signed ts n

/-- Operands. -/
inductive Atom : List PTok → Node → Prop
  | number {v p} : Atom [⟨.number v, p⟩] (.number v p)
  | variable {x p} : Atom [⟨.variable x, p⟩] (.variable x p)
  | paren {ts n p q} : Expr 4 ts n →
      Atom (⟨.openParen, p⟩ :: (ts ++ [⟨.closeParen, q⟩])) (.paren p q n)
  | unary {o p ts n} : Signed ts n → Atom (⟨.unary o, p⟩ :: ts) (.unary o p n)
  | functionBare {f p ts n} : Signed ts n → ¬ StartsWithOpen ts →
      Atom (⟨.function f, p⟩ :: ts) (.function f p [n] n.position)
  | functionEmpty {f p q r} :
      Atom [⟨.function f, p⟩, ⟨.openParen, q⟩, ⟨.closeParen, r⟩]
        (.function f p [] (Position.fromSpan q r))
  | function {f p q r ts ns} : Arguments ts ns →
      Atom (⟨.function f, p⟩ :: ⟨.openParen, q⟩ :: (ts ++ [⟨.closeParen, r⟩]))
        (.function f p ns (Position.fromSpan q r))

/-- Non-empty comma separated argument lists. -/
inductive Arguments : List PTok → List Node → Prop
  | one {ts n} : Expr 4 ts n → Arguments ts [n]
  | more {ts n p us ns} : Expr 4 ts n → Arguments us ns →
      Arguments (ts ++ ⟨.comma, p⟩ :: us) (n :: ns)

end

/-- Inputs: an expression, or an assignment of an expression to a variable. -/
inductive Input : List PTok → Option (Positioned Str) → Node → Prop
  | expression {ts n} : Expr 4 ts n → Input ts none n
  | assignment {x p q ts n} : Expr 4 ts n →
      Input (⟨.variable x, p⟩ :: ⟨.assign, q⟩ :: ts) (some ⟨x, p⟩) n

/-- Number of open parentheses among the tokens. -/
def opens (ts : List PTok) : Nat := ts.countP fun t => t.value = .openParen

/-- Number of close parentheses among the tokens. -/
def closes (ts : List PTok) : Nat := ts.countP fun t => t.value = .closeParen

/-- Balanced parentheses: as many close as open ones, and never more close than open ones when
reading from the left. -/
def Balanced (ts : List PTok) : Prop :=
  opens ts = closes ts ∧ ∀ us, us <+: ts → closes us ≤ opens us

/-- A sequence of minus signs at the given places. -/
def minuses (ps : List Position) : List PTok := ps.map fun p => ⟨.binary .subtract, p⟩

/-- As many negations around a tree, the first outermost. -/
def negated (ps : List Position) (n : Node) : Node := ps.foldr (fun p n => .unary .negate p n) n

end Bcalc.Spec
