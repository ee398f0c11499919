import Verif.Proof.Reduce

/-! # The reading functions and the grammar -/

namespace Bcalc
open Spec

/-- A value satisfies `P`, an error satisfies `E`; no panic. -/
def Outcome.Post {ε α : Type} (E : ε → Prop) (P : α → Prop) : Outcome ε α → Prop
  | .ok a => P a
  | .err e => E e
  | .panic _ => False
  | .diverge => True

theorem Outcome.Post.bind {ε α β : Type} {E : ε → Prop} {Q : α → Prop} {P : β → Prop}
    {o : Outcome ε α} {f : α → Outcome ε β} (h : o.Post E Q) (hf : ∀ a, Q a → (f a).Post E P) :
    (o >>= f).Post E P := by
  cases o with
  | ok a => exact hf a h
  | err e => exact h
  | panic k => exact h.elim
  | diverge => trivial

theorem Outcome.Post.imp {ε α : Type} {E E' : ε → Prop} {Q P : α → Prop} {o : Outcome ε α}
    (h : o.Post E Q) (hE : ∀ e, E e → E' e) (hP : ∀ a, Q a → P a) : o.Post E' P := by
  cases o with
  | ok a => exact hP a h
  | err e => exact hE e h
  | panic k => exact h.elim
  | diverge => trivial

/-- The token that ends an expression. -/
def endToks : ExprEnd → List PTok
  | .comma p => [⟨.comma, p⟩]
  | .closeParen p => [⟨.closeParen, p⟩]
  | .inputEmpty => []

/-- The end of the input is at its end. -/
def EndOk (e : ExprEnd) (rest : List PTok) : Prop := e = .inputEmpty → rest = []

/-- Any error. -/
abbrev anyErr : Positioned SyntaxError → Prop := fun _ => True

/-- What the reading functions return, at a given fuel. -/
structure Sound (f : Nat) : Prop where
  items : ∀ input, (readItems f input).Post anyErr fun (l, e, rest) =>
    ∃ ts, input = ts ++ endToks e ++ rest ∧ EndOk e rest ∧ Flat Atom ts l
  expression : ∀ input, (readExpression f input).Post anyErr fun (root, e, rest) =>
    ∃ ts, input = ts ++ endToks e ++ rest ∧ EndOk e rest ∧
      ((root = none ∧ ts = []) ∨ ∃ n, root = some n ∧ Expr 4 ts n)
  ooo : ∀ input, (readOperandOrOperator f input).Post anyErr fun (r, rest) =>
    match r with
    | .operand n => ∃ ts, input = ts ++ rest ∧ Atom ts n
    | .operator o => input = ⟨.binary o.value, o.position⟩ :: rest
    | .stop e => input = endToks e ++ rest ∧ EndOk e rest
  operand : ∀ input, (readOperand f input).Post anyErr fun (r, rest) =>
    match r with
    | .operand n => ∃ ts, input = ts ++ rest ∧ Signed ts n
    | .stop e => input = endToks e ++ rest ∧ EndOk e rest
  unary : ∀ input op p, (readUnaryNode f input op p).Post anyErr fun (n, rest) =>
    ∃ ts m, input = ts ++ rest ∧ Signed ts m ∧ n = .unary op p m
  paren : ∀ input p, (readParenthesizedNode f input p).Post anyErr fun (n, rest) =>
    ∃ ts m q, input = ts ++ ⟨.closeParen, q⟩ :: rest ∧ Expr 4 ts m ∧ n = .paren p q m
  function : ∀ input g p, (readFunctionNode f input g p).Post anyErr fun (n, rest) =>
    ∃ ts, input = ts ++ rest ∧ Atom (⟨.function g, p⟩ :: ts) n
  arguments : ∀ input pp mc, (readArguments f input pp mc).Post anyErr fun (ns, q, rest) =>
    ∃ ts, input = ts ++ ⟨.closeParen, q⟩ :: rest ∧
      ((mc = none ∧ ts = [] ∧ ns = []) ∨ Arguments ts ns)

theorem sound (f : Nat) : Sound f := by
  induction f with
  | zero =>
    constructor <;> intros <;>
      simp [readItems, readExpression, readOperandOrOperator, readOperand, readUnaryNode,
        readParenthesizedNode, readFunctionNode, readArguments, Outcome.Post]
  | succ f ih =>
    constructor
    · -- readItems
      intro input
      unfold readItems
      refine (ih.ooo input).bind ?_
      rintro ⟨r, rest⟩ h
      cases r with
      | operand n =>
        obtain ⟨ts, rfl, h1⟩ := h
        refine (ih.items rest).bind ?_
        rintro ⟨l, e, rest'⟩ ⟨us, rfl, h2, h3⟩
        exact ⟨ts ++ us, by simp, h2, .operand h1 h3⟩
      | operator o =>
        subst h
        refine (ih.items rest).bind ?_
        rintro ⟨l, e, rest'⟩ ⟨us, rfl, h2, h3⟩
        exact ⟨_ :: us, by simp, h2, .operator h3⟩
      | stop e =>
        obtain ⟨rfl, h1⟩ := h
        exact ⟨[], by simp, h1, .nil⟩
    · -- readExpression
      intro input
      unfold readExpression
      refine (ih.items input).bind ?_
      rintro ⟨l, e, rest⟩ ⟨ts, rfl, h2, h3⟩
      simp only
      cases hr : reduceItems l with
      | ok r =>
        refine ⟨ts, rfl, h2, ?_⟩
        rcases reduceItems_sound h3 hr with ⟨rfl, rfl⟩ | ⟨n, rfl, h⟩
        · exact .inl ⟨rfl, rfl⟩
        · exact .inr ⟨n, rfl, h⟩
      | err e => trivial
      | panic k =>
        rcases reduceItems_total l with ⟨r, h⟩ | ⟨r, h⟩ <;> rw [h] at hr <;> cases hr
      | diverge => trivial
    · -- readOperandOrOperator
      intro input
      unfold readOperandOrOperator
      cases input with
      | nil => exact ⟨rfl, fun _ => rfl⟩
      | cons t input =>
        obtain ⟨token, p⟩ := t
        cases token with
        | «variable» x => exact ⟨[_], rfl, .variable⟩
        | assign => trivial
        | comma => exact ⟨rfl, by simp [EndOk]⟩
        | number v => exact ⟨[_], rfl, .number⟩
        | openParen =>
          refine (ih.paren input p).bind ?_
          rintro ⟨n, rest⟩ ⟨ts, m, q, rfl, h1, rfl⟩
          exact ⟨_ :: (ts ++ [_]), by simp, .paren h1⟩
        | closeParen => exact ⟨rfl, by simp [EndOk]⟩
        | binary o => rfl
        | unary o =>
          refine (ih.unary input o p).bind ?_
          rintro ⟨n, rest⟩ ⟨ts, m, rfl, h1, rfl⟩
          exact ⟨_ :: ts, by simp, .unary h1⟩
        | function g =>
          refine (ih.function input g p).bind ?_
          rintro ⟨n, rest⟩ ⟨ts, rfl, h1⟩
          exact ⟨_ :: ts, by simp, h1⟩
    · -- readOperand
      intro input
      unfold readOperand
      refine (ih.ooo input).bind ?_
      rintro ⟨r, rest⟩ h
      cases r with
      | operand n =>
        obtain ⟨ts, rfl, h1⟩ := h
        exact ⟨ts, rfl, .atom h1⟩
      | operator o =>
        subst h
        simp only
        split
        · rename_i ho
          refine (ih.unary rest .negate o.position).bind ?_
          rintro ⟨n, rest'⟩ ⟨ts, m, rfl, h1, rfl⟩
          rw [ho]
          exact ⟨_ :: ts, by simp, .minus h1⟩
        · trivial
      | stop e => exact h
    · -- readUnaryNode
      intro input op p
      unfold readUnaryNode
      refine (ih.operand input).bind ?_
      rintro ⟨r, rest⟩ h
      cases r with
      | operand n =>
        obtain ⟨ts, rfl, h1⟩ := h
        exact ⟨ts, n, rfl, h1, rfl⟩
      | stop e => trivial
    · -- readParenthesizedNode
      intro input p
      unfold readParenthesizedNode
      refine (ih.expression input).bind ?_
      rintro ⟨r, e, rest⟩ ⟨ts, rfl, h1, h2⟩
      rcases h2 with ⟨rfl, rfl⟩ | ⟨n, rfl, h2⟩
      · cases e <;> trivial
      · cases e with
        | comma q => trivial
        | closeParen q => exact ⟨ts, n, q, by simp [endToks], h2, rfl⟩
        | inputEmpty => trivial
    · -- readFunctionNode
      intro input g p
      unfold readFunctionNode
      split
      · trivial
      · rename_i pp input'
        refine (ih.arguments input' pp none).bind ?_
        rintro ⟨ns, q, rest⟩ ⟨ts, rfl, h1⟩
        refine ⟨⟨.openParen, pp⟩ :: (ts ++ [⟨.closeParen, q⟩]), by simp, ?_⟩
        rcases h1 with ⟨_, rfl, rfl⟩ | h1
        · exact .functionEmpty
        · exact .function h1
      · rename_i t input' hnp
        refine (ih.operand _).bind ?_
        rintro ⟨r, rest⟩ h
        cases r with
        | operand n =>
          obtain ⟨ts, h0, h1⟩ := h
          refine ⟨ts, h0, .functionBare h1 ?_⟩
          rintro ⟨q, us, rfl⟩
          simp at h0
          exact hnp q h0.1
        | stop e => trivial
    · -- readArguments
      intro input pp mc
      unfold readArguments
      refine (ih.expression input).bind ?_
      rintro ⟨r, e, rest⟩ ⟨ts, rfl, h1, h2⟩
      rcases h2 with ⟨rfl, rfl⟩ | ⟨n, rfl, h2⟩
      · cases mc with
        | some c => trivial
        | none =>
          cases e with
          | comma q => trivial
          | closeParen q => exact ⟨[], by simp [endToks], .inl ⟨rfl, rfl, rfl⟩⟩
          | inputEmpty => trivial
      · cases e with
        | comma q =>
          refine (ih.arguments rest pp (some q)).bind ?_
          rintro ⟨ns, q', rest'⟩ ⟨us, rfl, h3⟩
          rcases h3 with ⟨h3, _⟩ | h3
          · cases h3
          · exact ⟨ts ++ ⟨.comma, q⟩ :: us, by simp [endToks], .inr (.more h2 h3)⟩
        | closeParen q => exact ⟨ts, by simp [endToks], .inr (.one h2)⟩
        | inputEmpty => trivial

/-! ## Fuel -/

/-- Two runs agree unless the first ran out of fuel. -/
def Outcome.Le {ε α : Type} (a b : Outcome ε α) : Prop := a = .diverge ∨ a = b

theorem Outcome.Le.refl {ε α : Type} (a : Outcome ε α) : a.Le a := .inr rfl

theorem Outcome.Le.bind {ε α β : Type} {a b : Outcome ε α} {f g : α → Outcome ε β}
    (h : a.Le b) (hf : ∀ x, (f x).Le (g x)) : (a >>= f).Le (b >>= g) := by
  rcases h with rfl | rfl
  · exact .inl rfl
  · cases a with
    | ok x => exact hf x
    | err e => exact .inr rfl
    | panic k => exact .inr rfl
    | diverge => exact .inl rfl

/-- More fuel changes nothing but divergence. -/
structure Mono (f : Nat) : Prop where
  items : ∀ input, (readItems f input).Le (readItems (f + 1) input)
  expression : ∀ input, (readExpression f input).Le (readExpression (f + 1) input)
  ooo : ∀ input, (readOperandOrOperator f input).Le (readOperandOrOperator (f + 1) input)
  operand : ∀ input, (readOperand f input).Le (readOperand (f + 1) input)
  unary : ∀ input op p, (readUnaryNode f input op p).Le (readUnaryNode (f + 1) input op p)
  paren : ∀ input p, (readParenthesizedNode f input p).Le (readParenthesizedNode (f + 1) input p)
  function : ∀ input g p, (readFunctionNode f input g p).Le (readFunctionNode (f + 1) input g p)
  arguments : ∀ input pp mc, (readArguments f input pp mc).Le (readArguments (f + 1) input pp mc)

theorem mono (f : Nat) : Mono f := by
  induction f with
  | zero =>
    constructor <;> intros <;> left <;>
      simp [readItems, readExpression, readOperandOrOperator, readOperand, readUnaryNode,
        readParenthesizedNode, readFunctionNode, readArguments]
  | succ f ih =>
    constructor
    · intro input
      rw [readItems, readItems]
      refine (ih.ooo input).bind ?_
      rintro ⟨r, rest⟩
      cases r with
      | operand n => exact (ih.items rest).bind fun _ => .refl _
      | operator n => exact (ih.items rest).bind fun _ => .refl _
      | stop e => exact .refl _
    · intro input
      rw [readExpression, readExpression]
      exact (ih.items input).bind fun _ => .refl _
    · intro input
      rw [readOperandOrOperator.eq_def, readOperandOrOperator.eq_def]
      cases input with
      | nil => exact .refl _
      | cons t input =>
        obtain ⟨token, p⟩ := t
        cases token with
        | openParen => exact (ih.paren input p).bind fun _ => .refl _
        | unary o => exact (ih.unary input o p).bind fun _ => .refl _
        | function g => exact (ih.function input g p).bind fun _ => .refl _
        | _ => exact .refl _
    · intro input
      rw [readOperand, readOperand]
      refine (ih.ooo input).bind ?_
      rintro ⟨r, rest⟩
      cases r with
      | operand n => exact .refl _
      | operator o =>
        simp only
        split
        · exact (ih.unary _ _ _).bind fun _ => .refl _
        · exact .refl _
      | stop e => exact .refl _
    · intro input op p
      rw [readUnaryNode, readUnaryNode]
      exact (ih.operand input).bind fun _ => .refl _
    · intro input p
      rw [readParenthesizedNode, readParenthesizedNode]
      exact (ih.expression input).bind fun _ => .refl _
    · intro input g p
      rw [readFunctionNode.eq_def, readFunctionNode.eq_def]
      simp only
      split
      · exact .refl _
      · exact (ih.arguments _ _ _).bind fun _ => .refl _
      · exact (ih.operand _).bind fun _ => .refl _
    · intro input pp mc
      rw [readArguments, readArguments]
      refine (ih.expression input).bind ?_
      rintro ⟨r, e, rest⟩
      cases r with
      | none => exact .refl _
      | some n =>
        cases e with
        | comma q => exact (ih.arguments _ _ _).bind fun _ => .refl _
        | _ => exact .refl _

theorem mono_le {α : Type} {r : Nat → Outcome (Positioned SyntaxError) α}
    (h : ∀ f, (r f).Le (r (f + 1))) {f g : Nat} (hfg : f ≤ g) {a} (ha : r f = a)
    (hd : a ≠ .diverge) : r g = a := by
  induction hfg with
  | refl => exact ha
  | step _ ih =>
    rcases h _ with h | h
    · exact absurd (ih.symm.trans h) hd
    · rw [← h]; exact ih

/-- With enough fuel none of the reading functions diverges. -/
structure Finishes (n : Nat) : Prop where
  ooo : ∀ input f, input.length ≤ n → 5 * n + 1 ≤ f → readOperandOrOperator f input ≠ .diverge
  operand : ∀ input f, input.length ≤ n → 5 * n + 2 ≤ f → readOperand f input ≠ .diverge
  unary : ∀ input op p f, input.length ≤ n → 5 * n + 3 ≤ f →
    readUnaryNode f input op p ≠ .diverge
  items : ∀ input f, input.length ≤ n → 5 * n + 2 ≤ f → readItems f input ≠ .diverge
  expression : ∀ input f, input.length ≤ n → 5 * n + 3 ≤ f → readExpression f input ≠ .diverge
  paren : ∀ input p f, input.length ≤ n → 5 * n + 4 ≤ f → readParenthesizedNode f input p ≠ .diverge
  arguments : ∀ input pp mc f, input.length ≤ n → 5 * n + 4 ≤ f →
    readArguments f input pp mc ≠ .diverge
  function : ∀ input g p f, input.length ≤ n → 5 * n + 5 ≤ f →
    readFunctionNode f input g p ≠ .diverge

theorem bind_ne_diverge {ε α β : Type} {o : Outcome ε α} {k : α → Outcome ε β}
    (h : o ≠ .diverge) (hk : ∀ a, o = .ok a → k a ≠ .diverge) : (o >>= k) ≠ .diverge := by
  cases o with
  | ok a => exact hk a rfl
  | err e => simp
  | panic k => simp
  | diverge => exact absurd rfl h

theorem atom_length {ts n} (h : Atom ts n) : 0 < ts.length := by
  cases h <;> simp

theorem signed_length {ts n} (h : Signed ts n) : 0 < ts.length := by
  cases h with
  | minus => simp
  | atom h => exact atom_length h

theorem finishes (n : Nat) : Finishes n := by
  induction n using Nat.strong_induction_on with
  | _ n ih =>
    have hooo : ∀ input f, input.length ≤ n → 5 * n + 1 ≤ f →
        readOperandOrOperator f input ≠ .diverge := by
      intro input f hl hf
      obtain ⟨f, rfl⟩ : ∃ f', f = f' + 1 := ⟨f - 1, by omega⟩
      rw [readOperandOrOperator.eq_def]
      cases input with
      | nil => simp
      | cons t input =>
        obtain ⟨token, p⟩ := t
        simp at hl
        have ih' := ih (n - 1) (by omega)
        cases token with
        | openParen => exact bind_ne_diverge (ih'.paren _ _ _ (by omega) (by omega)) (by simp)
        | unary o => exact bind_ne_diverge (ih'.unary _ _ _ _ (by omega) (by omega)) (by simp)
        | function g => exact bind_ne_diverge (ih'.function _ _ _ _ (by omega) (by omega)) (by simp)
        | _ => simp
    have hoperand : ∀ input f, input.length ≤ n → 5 * n + 2 ≤ f →
        readOperand f input ≠ .diverge := by
      intro input f hl hf
      obtain ⟨f, rfl⟩ : ∃ f', f = f' + 1 := ⟨f - 1, by omega⟩
      rw [readOperand]
      refine bind_ne_diverge (hooo _ _ hl (by omega)) ?_
      rintro ⟨r, rest⟩ hr
      have hs := (sound f).ooo input
      rw [hr] at hs
      cases r with
      | operand m => simp
      | operator o =>
        simp only [Outcome.Post] at hs
        subst hs
        simp at hl
        simp only
        split
        · exact bind_ne_diverge ((ih (n - 1) (by omega)).unary _ _ _ _ (by omega) (by omega))
            (by simp)
        · simp
      | stop e => simp
    have hunary : ∀ input op p f, input.length ≤ n → 5 * n + 3 ≤ f →
        readUnaryNode f input op p ≠ .diverge := by
      intro input op p f hl hf
      obtain ⟨f, rfl⟩ : ∃ f', f = f' + 1 := ⟨f - 1, by omega⟩
      rw [readUnaryNode]
      refine bind_ne_diverge (hoperand _ _ hl (by omega)) ?_
      rintro ⟨r, rest⟩ _
      cases r <;> simp
    have hitems : ∀ input f, input.length ≤ n → 5 * n + 2 ≤ f → readItems f input ≠ .diverge := by
      intro input f hl hf
      obtain ⟨f, rfl⟩ : ∃ f', f = f' + 1 := ⟨f - 1, by omega⟩
      rw [readItems]
      refine bind_ne_diverge (hooo _ _ hl (by omega)) ?_
      rintro ⟨r, rest⟩ hr
      have hs := (sound f).ooo input
      rw [hr] at hs
      cases r with
      | operand m =>
        obtain ⟨ts, rfl, h1⟩ := hs
        have := atom_length h1
        simp at hl
        exact bind_ne_diverge ((ih (n - 1) (by omega)).items _ _ (by omega) (by omega)) (by simp)
      | operator o =>
        simp only [Outcome.Post] at hs
        subst hs
        simp at hl
        exact bind_ne_diverge ((ih (n - 1) (by omega)).items _ _ (by omega) (by omega)) (by simp)
      | stop e => simp
    have hexpression : ∀ input f, input.length ≤ n → 5 * n + 3 ≤ f →
        readExpression f input ≠ .diverge := by
      intro input f hl hf
      obtain ⟨f, rfl⟩ : ∃ f', f = f' + 1 := ⟨f - 1, by omega⟩
      rw [readExpression]
      refine bind_ne_diverge (hitems _ _ hl (by omega)) ?_
      rintro ⟨l, e, rest⟩ _
      rcases reduceItems_total l with ⟨r, h⟩ | ⟨r, h⟩ <;> simp [h]
    have hparen : ∀ input p f, input.length ≤ n → 5 * n + 4 ≤ f →
        readParenthesizedNode f input p ≠ .diverge := by
      intro input p f hl hf
      obtain ⟨f, rfl⟩ : ∃ f', f = f' + 1 := ⟨f - 1, by omega⟩
      rw [readParenthesizedNode]
      refine bind_ne_diverge (hexpression _ _ hl (by omega)) ?_
      rintro ⟨r, e, rest⟩ _
      cases r <;> cases e <;> simp
    have harguments : ∀ input pp mc f, input.length ≤ n → 5 * n + 4 ≤ f →
        readArguments f input pp mc ≠ .diverge := by
      intro input pp mc f hl hf
      obtain ⟨f, rfl⟩ : ∃ f', f = f' + 1 := ⟨f - 1, by omega⟩
      rw [readArguments]
      refine bind_ne_diverge (hexpression _ _ hl (by omega)) ?_
      rintro ⟨r, e, rest⟩ hr
      have hs := (sound f).expression input
      rw [hr] at hs
      obtain ⟨ts, rfl, _, _⟩ := hs
      cases r with
      | none => cases mc <;> cases e <;> simp
      | some m =>
        cases e with
        | comma q =>
          simp [endToks] at hl
          exact bind_ne_diverge ((ih (n - 1) (by omega)).arguments _ _ _ _ (by omega) (by omega))
            (by simp)
        | closeParen q => simp
        | inputEmpty => simp
    refine ⟨hooo, hoperand, hunary, hitems, hexpression, hparen, harguments, ?_⟩
    intro input g p f hl hf
    obtain ⟨f, rfl⟩ : ∃ f', f = f' + 1 := ⟨f - 1, by omega⟩
    rw [readFunctionNode.eq_def]
    simp only
    split
    · simp
    · simp at hl
      exact bind_ne_diverge (harguments _ _ _ _ (by omega) (by omega)) (by simp)
    · refine bind_ne_diverge (hoperand _ _ hl (by omega)) ?_
      rintro ⟨r, rest⟩ _
      cases r <;> simp

end Bcalc
