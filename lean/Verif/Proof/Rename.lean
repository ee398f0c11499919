import Verif.Spec.Rename
import Verif.Proof.Independent
import Verif.Proof.ParserSpan

/-! # Lines of the same words: parsing and evaluating them -/

namespace Bcalc
open Spec

/-- Outcomes that correspond. -/
inductive OutRel {ε ε' α β : Type} (E : ε → ε' → Prop) (A : α → β → Prop) : Outcome ε α → Outcome ε' β → Prop
  | ok {a b} : A a b → OutRel E A (.ok a) (.ok b)
  | err {e e'} : E e e' → OutRel E A (.err e) (.err e')
  | panic {k} : OutRel E A (.panic k) (.panic k)
  | diverge : OutRel E A .diverge .diverge

theorem OutRel.bind {ε ε' α β γ δ : Type} {E : ε → ε' → Prop} {A : α → β → Prop} {B : γ → δ → Prop} {o : Outcome ε α}
    {o' : Outcome ε' β} {f : α → Outcome ε γ} {f' : β → Outcome ε' δ} (h : OutRel E A o o')
    (hf : ∀ a b, A a b → OutRel E B (f a) (f' b)) : OutRel E B (o >>= f) (o' >>= f') := by
  cases h with
  | ok h => exact hf _ _ h
  | err h => exact .err h
  | panic => exact .panic
  | diverge => exact .diverge

section
variable (σ : Str → Str) (R : Position → Position → Prop)

/-- Corresponding tokens. -/
def TokRel (t t' : PTok) : Prop :=
  t'.value = renamedToken σ t.value ∧ R t.position t'.position ∧ ∀ x, t.value = .variable x → VariableName x

/-- Corresponding operators. -/
def OpRel (o o' : Positioned BinOp) : Prop := o'.value = o.value ∧ R o.position o'.position

/-- Corresponding trees. -/
inductive NodeRel : Node → Node → Prop
  | number {v p p'} : R p p' → NodeRel (.number v p) (.number v p')
  | variable {x p p'} : VariableName x → R p p' → NodeRel (.variable x p) (.variable (σ x) p')
  | unary {o p p' n n'} : R p p' → NodeRel n n' → NodeRel (.unary o p n) (.unary o p' n')
  | binary {o p p' a a' b b'} : R p p' → NodeRel a a' → NodeRel b b' → NodeRel (.binary o p a b) (.binary o p' a' b')
  | function {f p p' ns ns' q q'} : R p p' → List.Forall₂ NodeRel ns ns' → R q q' →
      NodeRel (.function f p ns q) (.function f p' ns' q')
  | paren {p p' q q' n n'} : R p p' → R q q' → NodeRel n n' → NodeRel (.paren p q n) (.paren p' q' n')

/-- Corresponding items of an expression. -/
inductive ItemRel : OOO → OOO → Prop
  | operand {n n'} : NodeRel σ R n n' → ItemRel (.operand n) (.operand n')
  | operator {o o'} : OpRel R o o' → ItemRel (.operator o) (.operator o')

/-- Corresponding ends. -/
inductive EndRel : ExprEnd → ExprEnd → Prop
  | comma {p p'} : R p p' → EndRel (.comma p) (.comma p')
  | closeParen {p p'} : R p p' → EndRel (.closeParen p) (.closeParen p')
  | inputEmpty : EndRel .inputEmpty .inputEmpty

/-- Corresponding results of reading. -/
inductive ReadRel : ReadResult → ReadResult → Prop
  | operand {n n'} : NodeRel σ R n n' → ReadRel (.operand n) (.operand n')
  | operator {o o'} : OpRel R o o' → ReadRel (.operator o) (.operator o')
  | stop {e e'} : EndRel R e e' → ReadRel (.stop e) (.stop e')

/-- Corresponding results of reading an operand. -/
inductive OperandRel : OperandResult → OperandResult → Prop
  | operand {n n'} : NodeRel σ R n n' → OperandRel (.operand n) (.operand n')
  | stop {e e'} : EndRel R e e' → OperandRel (.stop e) (.stop e')

/-- Corresponding complaints. -/
def ErrRel (e e' : Positioned SyntaxError) : Prop :=
  e'.value = e.value ∧ (R e.position e'.position ∨ e.value = .noInput ∧ e.position = ⟨0, 0⟩ ∧ e'.position = ⟨0, 0⟩)

/-- Corresponding optional trees. -/
inductive RootRel : Option Node → Option Node → Prop
  | none : RootRel none none
  | some {n n'} : NodeRel σ R n n' → RootRel (some n) (some n')

end

variable {σ : Str → Str} {R : Position → Position → Prop}
  (hspan : ∀ {p p' q q'}, R p p' → R q q' → R (Position.fromSpan p q) (Position.fromSpan p' q'))
  (hbetween : ∀ {p p' q q'}, R p p' → R q q' → R (Position.fromBetween p q) (Position.fromBetween p' q'))

include hspan in
theorem NodeRel.place : ∀ {n n'}, NodeRel σ R n n' → R n.position n'.position
  | _, _, .number h => h
  | _, _, .variable _ h => h
  | _, _, .unary h h' => hspan h h'.place
  | _, _, .binary h h' h'' => hspan h (hspan h'.place h''.place)
  | _, _, .function h _ h' => hspan h h'
  | _, _, .paren h h' _ => hspan h h'

theorem ItemRel.isOperand {a b} (h : ItemRel σ R a b) : b.isOperand = a.isOperand := by cases h <;> rfl
theorem ItemRel.isOperator {a b} (h : ItemRel σ R a b) : b.isOperator = a.isOperator := by cases h <;> rfl
theorem ItemRel.matchesOperator {a b} (h : ItemRel σ R a b) (o : BinOp) : b.matchesOperator o = a.matchesOperator o := by
  cases h with
  | operand => rfl
  | operator h => unfold OOO.matchesOperator; simp only [h.1]
theorem ItemRel.inOperatorSlice {a b} (h : ItemRel σ R a b) (o : List BinOp) : b.inOperatorSlice o = a.inOperatorSlice o := by
  cases h with
  | operand => rfl
  | operator h => unfold OOO.inOperatorSlice; simp only [h.1]
theorem ItemRel.unwrapOperand {a b} (h : ItemRel σ R a b) : OutRel (ErrRel R) (NodeRel σ R) a.unwrapOperand b.unwrapOperand := by
  cases h with
  | operand h => exact .ok h
  | operator => exact .panic
theorem ItemRel.unwrapOperator {a b} (h : ItemRel σ R a b) : OutRel (ErrRel R) (OpRel R) a.unwrapOperator b.unwrapOperator := by
  cases h with
  | operand => exact .panic
  | operator h => exact .ok h

theorem negatePass_rel : ∀ (k : Nat) {l l' t t' : List OOO}, l.length ≤ k → List.Forall₂ (ItemRel σ R) l l' →
    List.Forall₂ (ItemRel σ R) t t' → OutRel (ErrRel R) (List.Forall₂ (ItemRel σ R)) (negatePass l t) (negatePass l' t')
  | _, _, _, _, _, _, .nil, ht => by
    unfold negatePass; exact .ok ht
  | k + 1, _, _, t, t', hk, .cons h .nil, ht => by
    unfold negatePass
    unfold negatePass
    exact .ok (.cons h ht)
  | k + 1, _ :: _ :: l, _ :: _ :: l', t, t', hk, .cons h (.cons h1 h2), ht => by
    unfold negatePass
    simp only
    cases h2 with
    | nil =>
      simp only
      rw [h.isOperand, h1.matchesOperator]
      split
      · refine h1.unwrapOperator.bind fun o o' ho => h.unwrapOperand.bind fun n n' hn => ?_
        exact negatePass_rel k (by simp at hk ⊢; omega) (.cons (.operand (.unary ho.2 hn)) .nil) ht
      · exact negatePass_rel k (by simp at hk ⊢; omega) (.cons h1 .nil) (.cons h ht)
    | cons h2 h3 =>
      simp only [h.isOperand, h1.matchesOperator, h2.isOperator]
      split
      · refine h1.unwrapOperator.bind fun o o' ho => h.unwrapOperand.bind fun n n' hn => ?_
        exact negatePass_rel k (by simp at hk ⊢; omega) (.cons (.operand (.unary ho.2 hn)) (.cons h2 h3)) ht
      · exact negatePass_rel k (by simp at hk ⊢; omega) (.cons h1 (.cons h2 h3)) (.cons h ht)

theorem forall₂_snoc {α β : Type} {r : α → β → Prop} : ∀ {l l'} {a b}, List.Forall₂ r l l' → r a b → List.Forall₂ r (l ++ [a]) (l' ++ [b])
  | _, _, _, _, .nil, h => .cons h .nil
  | _, _, _, _, .cons h1 h2, h => .cons h1 (forall₂_snoc h2 h)

theorem precedencePass_rel (ops : List BinOp) : ∀ (k : Nat) {l l' t t' : List OOO}, l.length ≤ k →
    List.Forall₂ (ItemRel σ R) l l' → List.Forall₂ (ItemRel σ R) t t' →
    OutRel (ErrRel R) (List.Forall₂ (ItemRel σ R)) (precedencePass ops l t) (precedencePass ops l' t')
  | _, _, _, _, _, _, .nil, ht => by
    unfold precedencePass; exact .ok ht
  | k + 1, _, _, t, t', hk, .cons h .nil, ht => by
    unfold precedencePass
    exact precedencePass_rel ops k (by simp) .nil (forall₂_snoc ht h)
  | k + 1, _, _, t, t', hk, .cons h (.cons h1 .nil), ht => by
    unfold precedencePass
    exact precedencePass_rel ops k (by simp at hk ⊢; omega) (.cons h1 .nil) (forall₂_snoc ht h)
  | k + 1, _, _, t, t', hk, .cons h (.cons h1 (.cons h2 h3)), ht => by
    unfold precedencePass
    simp only
    rw [h.isOperand, h1.inOperatorSlice, h2.isOperand]
    split
    · refine h.unwrapOperand.bind fun n n' hn => h1.unwrapOperator.bind fun o o' ho => h2.unwrapOperand.bind fun u u' hu => ?_
      refine precedencePass_rel ops k (by simp at hk ⊢; omega) (.cons (.operand ?_) h3) ht
      rw [ho.1]
      exact .binary ho.2 hn hu
    · exact precedencePass_rel ops k (by simp at hk ⊢; omega) (.cons h1 (.cons h2 h3)) (forall₂_snoc ht h)

theorem precedencePasses_rel : ∀ (levels : List (List BinOp)) {l l' : List OOO}, List.Forall₂ (ItemRel σ R) l l' →
    OutRel (ErrRel R) (List.Forall₂ (ItemRel σ R)) (precedencePasses levels l) (precedencePasses levels l')
  | [], _, _, h => .ok h
  | ops :: rest, _, _, h => by
    unfold precedencePasses
    exact (precedencePass_rel ops _ (Nat.le_refl _) h .nil).bind fun a b hab => precedencePasses_rel rest hab

include hspan hbetween in
theorem rootOf_rel {l l' : List OOO} (h : List.Forall₂ (ItemRel σ R) l l') : OutRel (ErrRel R) (RootRel σ R) (rootOf l) (rootOf l') := by
  have hop : ∀ {o o' : Positioned BinOp}, OpRel R o o' →
      ErrRel R (o.map fun v => SyntaxError.missingOperand (.binary v)) (o'.map fun v => SyntaxError.missingOperand (.binary v)) := by
    intro o o' h
    exact ⟨by simp [Positioned.map, h.1], .inl h.2⟩
  cases h with
  | nil => exact .ok .none
  | cons h h1 =>
    cases h with
    | operator h => exact .err (hop h)
    | operand h =>
      cases h1 with
      | nil => exact .ok (.some h)
      | cons h1 h2 =>
        cases h1 with
        | operand h1 => exact .err ⟨rfl, .inl (hbetween (h.place hspan) (h1.place hspan))⟩
        | operator h1 =>
          cases h2 with
          | nil => exact .err (hop h1)
          | cons h2 h3 =>
            cases h2 with
            | operator => exact .err (hop h1)
            | operand => exact .panic

theorem forall₂_reverse {α β : Type} {r : α → β → Prop} : ∀ {l l'}, List.Forall₂ r l l' → List.Forall₂ r l.reverse l'.reverse
  | _, _, .nil => .nil
  | _, _, .cons h1 h2 => by
    rw [List.reverse_cons, List.reverse_cons]
    exact forall₂_snoc (forall₂_reverse h2) h1

include hspan hbetween in
theorem reduceItems_rel {l l' : List OOO} (h : List.Forall₂ (ItemRel σ R) l l') :
    OutRel (ErrRel R) (RootRel σ R) (reduceItems l) (reduceItems l') := by
  unfold reduceItems
  refine (negatePass_rel _ (Nat.le_refl _) (forall₂_reverse h) .nil).bind fun a b hab => ?_
  exact (precedencePasses_rel _ hab).bind fun a b hab => rootOf_rel hspan hbetween hab

/-- Corresponding inputs. -/
abbrev Toks (σ : Str → Str) (R : Position → Position → Prop) := List.Forall₂ (TokRel σ R)

/-- The reading functions, given this much fuel, treat corresponding inputs correspondingly. -/
structure ReadsAlike (σ : Str → Str) (R : Position → Position → Prop) (fuel : Nat) : Prop where
  items : ∀ {i i'}, Toks σ R i i' → OutRel (ErrRel R) (fun a b => List.Forall₂ (ItemRel σ R) a.1 b.1 ∧ EndRel R a.2.1 b.2.1 ∧ Toks σ R a.2.2 b.2.2)
    (readItems fuel i) (readItems fuel i')
  expression : ∀ {i i'}, Toks σ R i i' → OutRel (ErrRel R) (fun a b => RootRel σ R a.1 b.1 ∧ EndRel R a.2.1 b.2.1 ∧ Toks σ R a.2.2 b.2.2)
    (readExpression fuel i) (readExpression fuel i')
  either : ∀ {i i'}, Toks σ R i i' → OutRel (ErrRel R) (fun a b => ReadRel σ R a.1 b.1 ∧ Toks σ R a.2 b.2)
    (readOperandOrOperator fuel i) (readOperandOrOperator fuel i')
  operand : ∀ {i i'}, Toks σ R i i' → OutRel (ErrRel R) (fun a b => OperandRel σ R a.1 b.1 ∧ Toks σ R a.2 b.2)
    (readOperand fuel i) (readOperand fuel i')
  unary : ∀ {i i'}, Toks σ R i i' → ∀ o {p p'}, R p p' → OutRel (ErrRel R) (fun a b => NodeRel σ R a.1 b.1 ∧ Toks σ R a.2 b.2)
    (readUnaryNode fuel i o p) (readUnaryNode fuel i' o p')
  paren : ∀ {i i'}, Toks σ R i i' → ∀ {p p'}, R p p' → OutRel (ErrRel R) (fun a b => NodeRel σ R a.1 b.1 ∧ Toks σ R a.2 b.2)
    (readParenthesizedNode fuel i p) (readParenthesizedNode fuel i' p')
  function : ∀ {i i'}, Toks σ R i i' → ∀ f {p p'}, R p p' → OutRel (ErrRel R) (fun a b => NodeRel σ R a.1 b.1 ∧ Toks σ R a.2 b.2)
    (readFunctionNode fuel i f p) (readFunctionNode fuel i' f p')
  arguments : ∀ {i i'}, Toks σ R i i' → ∀ {p p'}, R p p' → ∀ {c c'}, Option.Rel R c c' →
    OutRel (ErrRel R) (fun a b => List.Forall₂ (NodeRel σ R) a.1 b.1 ∧ R a.2.1 b.2.1 ∧ Toks σ R a.2.2 b.2.2)
    (readArguments fuel i p c) (readArguments fuel i' p' c')

include hspan hbetween in
theorem readsAlike : ∀ fuel, ReadsAlike σ R fuel
  | 0 => by
    constructor <;> intros
    · unfold readItems; exact .diverge
    · unfold readExpression; exact .diverge
    · unfold readOperandOrOperator; exact .diverge
    · unfold readOperand; exact .diverge
    · unfold readUnaryNode; exact .diverge
    · unfold readParenthesizedNode; exact .diverge
    · unfold readFunctionNode; exact .diverge
    · unfold readArguments; exact .diverge
  | fuel + 1 => by
    have ih := readsAlike fuel
    constructor
    · intro i i' h
      unfold readItems
      refine (ih.either h).bind fun a b hab => ?_
      obtain ⟨r, j⟩ := a
      obtain ⟨r', j'⟩ := b
      obtain ⟨h1, h2⟩ := hab
      simp only at h1 h2 ⊢
      cases h1 with
      | operand h1 => exact (ih.items h2).bind fun a b hab => .ok ⟨.cons (.operand h1) hab.1, hab.2⟩
      | operator h1 => exact (ih.items h2).bind fun a b hab => .ok ⟨.cons (.operator h1) hab.1, hab.2⟩
      | stop h1 => exact .ok ⟨.nil, h1, h2⟩
    · intro i i' h
      unfold readExpression
      refine (ih.items h).bind fun a b hab => ?_
      exact (reduceItems_rel hspan hbetween hab.1).bind fun r r' hr => .ok ⟨hr, hab.2⟩
    · intro i i' h
      unfold readOperandOrOperator
      cases h with
      | nil => exact .ok ⟨.stop .inputEmpty, .nil⟩
      | @cons t t' i i' ht h =>
        obtain ⟨t, p⟩ := t
        obtain ⟨t', p'⟩ := t'
        obtain ⟨h1, h2, h3⟩ := ht
        simp only at h1 h2 h3 ⊢
        subst h1
        cases t <;> simp only [renamedToken]
        · exact .ok ⟨.operand (.variable (h3 _ rfl) h2), h⟩
        · exact .err ⟨rfl, .inl h2⟩
        · exact .ok ⟨.stop (.comma h2), h⟩
        · exact .ok ⟨.operand (.number h2), h⟩
        · exact (ih.paren h h2).bind fun a b hab => .ok ⟨.operand hab.1, hab.2⟩
        · exact .ok ⟨.stop (.closeParen h2), h⟩
        · exact .ok ⟨.operator ⟨rfl, h2⟩, h⟩
        · exact (ih.unary h _ h2).bind fun a b hab => .ok ⟨.operand hab.1, hab.2⟩
        · exact (ih.function h _ h2).bind fun a b hab => .ok ⟨.operand hab.1, hab.2⟩
    · intro i i' h
      unfold readOperand
      refine (ih.either h).bind fun a b hab => ?_
      obtain ⟨r, j⟩ := a
      obtain ⟨r', j'⟩ := b
      obtain ⟨h1, h2⟩ := hab
      simp only at h1 h2 ⊢
      cases h1 with
      | operand h1 => exact .ok ⟨.operand h1, h2⟩
      | operator h1 =>
        simp only [h1.1]
        split
        · exact (ih.unary h2 _ h1.2).bind fun a b hab => .ok ⟨.operand hab.1, hab.2⟩
        · exact .err ⟨by simp [Positioned.map, h1.1], .inl h1.2⟩
      | stop h1 => exact .ok ⟨.stop h1, h2⟩
    · intro i i' h o p p' hp
      unfold readUnaryNode
      refine (ih.operand h).bind fun a b hab => ?_
      obtain ⟨r, j⟩ := a
      obtain ⟨r', j'⟩ := b
      obtain ⟨h1, h2⟩ := hab
      simp only at h1 h2 ⊢
      cases h1 with
      | operand h1 => exact .ok ⟨.unary hp h1, h2⟩
      | stop => exact .err ⟨rfl, .inl hp⟩
    · intro i i' h p p' hp
      unfold readParenthesizedNode
      refine (ih.expression h).bind fun a b hab => ?_
      obtain ⟨r, e, j⟩ := a
      obtain ⟨r', e', j'⟩ := b
      obtain ⟨h1, h2, h3⟩ := hab
      simp only at h1 h2 h3 ⊢
      cases h1 <;> cases h2
      · exact .err ⟨rfl, .inl (by assumption)⟩
      · exact .err ⟨rfl, .inl (hspan hp (by assumption))⟩
      · exact .err ⟨rfl, .inl hp⟩
      · exact .err ⟨rfl, .inl (by assumption)⟩
      · exact .ok ⟨.paren hp (by assumption) (by assumption), h3⟩
      · exact .err ⟨rfl, .inl hp⟩
    · intro i i' h f p p' hp
      unfold readFunctionNode
      cases h with
      | nil => exact .err ⟨rfl, .inl hp⟩
      | @cons t t' i i' ht h =>
        have hbare : OutRel (ErrRel R) (fun a b => NodeRel σ R a.1 b.1 ∧ Toks σ R a.2 b.2)
            (readOperand fuel (t :: i) >>= fun (r, input) =>
              match r with
              | .operand operand => .ok (.function f p [operand] operand.position, input)
              | .stop _ => .err ⟨.functionWithoutParensOrArgument f, p⟩)
            (readOperand fuel (t' :: i') >>= fun (r, input) =>
              match r with
              | .operand operand => .ok (.function f p' [operand] operand.position, input)
              | .stop _ => .err ⟨.functionWithoutParensOrArgument f, p'⟩) := by
          refine (ih.operand (.cons ht h)).bind fun a b hab => ?_
          obtain ⟨r, j⟩ := a
          obtain ⟨r', j'⟩ := b
          obtain ⟨h1, h2⟩ := hab
          simp only at h1 h2 ⊢
          cases h1 with
          | operand h1 => exact .ok ⟨.function hp (.cons h1 .nil) (h1.place hspan), h2⟩
          | stop => exact .err ⟨rfl, .inl hp⟩
        obtain ⟨t, q⟩ := t
        obtain ⟨t', q'⟩ := t'
        obtain ⟨h1, h2, h3⟩ := ht
        simp only at h1 h2 h3 ⊢
        subst h1
        cases t <;> simp only [renamedToken] at hbare ⊢ <;> first | exact hbare | skip
        refine (ih.arguments h h2 .none).bind fun a b hab => ?_
        exact .ok ⟨.function hp hab.1 (hspan h2 hab.2.1), hab.2.2⟩
    · intro i i' h p p' hp c c' hc
      unfold readArguments
      refine (ih.expression h).bind fun a b hab => ?_
      obtain ⟨r, e, j⟩ := a
      obtain ⟨r', e', j'⟩ := b
      obtain ⟨h1, h2, h3⟩ := hab
      simp only at h1 h2 h3 ⊢
      cases h1 with
      | some h1 =>
        cases h2 with
        | comma h2 => exact (ih.arguments h3 hp (.some h2)).bind fun a b hab => .ok ⟨.cons h1 hab.1, hab.2⟩
        | closeParen h2 => exact .ok ⟨.cons h1 .nil, h2, h3⟩
        | inputEmpty => exact .err ⟨rfl, .inl hp⟩
      | none =>
        cases hc with
        | some hc => exact .err ⟨rfl, .inl hc⟩
        | none =>
          cases h2 with
          | comma h2 => exact .err ⟨rfl, .inl h2⟩
          | closeParen h2 => exact .ok ⟨.nil, h2, h3⟩
          | inputEmpty => exact .err ⟨rfl, .inl hp⟩

/-- Corresponding syntax trees. -/
def TreeRel (σ : Str → Str) (R : Position → Position → Prop) (t t' : SyntaxTree) : Prop :=
  Option.Rel (fun x x' : Positioned Str => x'.value = σ x.value ∧ VariableName x.value) t.resultVar t'.resultVar ∧ NodeRel σ R t.root t'.root

theorem finishTree_rel {rv rv' : Option (Positioned Str)}
    (hrv : Option.Rel (fun x x' : Positioned Str => x'.value = σ x.value ∧ VariableName x.value) rv rv')
    {a b} (hab : RootRel σ R a.1 b.1 ∧ EndRel R a.2.1 b.2.1 ∧ Toks σ R a.2.2 b.2.2) :
    OutRel (ErrRel R) (TreeRel σ R) (finishTree rv a) (finishTree rv' b) := by
  obtain ⟨r, e, j⟩ := a
  obtain ⟨r', e', j'⟩ := b
  obtain ⟨h1, h2, h3⟩ := hab
  simp only at h1 h2 h3
  cases h2 with
  | comma h2 => cases h1 <;> exact .err ⟨rfl, .inl h2⟩
  | closeParen h2 => cases h1 <;> exact .err ⟨rfl, .inl h2⟩
  | inputEmpty =>
    cases h1 with
    | none => exact .err ⟨rfl, .inr ⟨rfl, rfl, rfl⟩⟩
    | some h1 => exact .ok ⟨hrv, h1⟩

include hspan hbetween in
theorem new_rel {ts ts' : List PTok} (h : Toks σ R ts ts') : OutRel (ErrRel R) (TreeRel σ R) (SyntaxTree.new ts) (SyntaxTree.new ts') := by
  have hplain : ∀ {ts ts' : List PTok} {rv rv'}, Toks σ R ts ts' →
      Option.Rel (fun x x' : Positioned Str => x'.value = σ x.value ∧ VariableName x.value) rv rv' →
      OutRel (ErrRel R) (TreeRel σ R) (readExpression (parseFuel ts) ts >>= finishTree rv)
        (readExpression (parseFuel ts') ts' >>= finishTree rv') := by
    intro ts ts' rv rv' h hrv
    have : parseFuel ts' = parseFuel ts := by unfold parseFuel; rw [h.length_eq]
    rw [this]
    exact ((readsAlike hspan hbetween _).expression h).bind fun a b hab => finishTree_rel hrv hab
  unfold SyntaxTree.new
  cases h with
  | nil => exact hplain .nil .none
  | @cons t t' ts ts' ht h =>
    have h0 := hplain (rv := none) (rv' := none) (.cons ht h) .none
    obtain ⟨t, p⟩ := t
    obtain ⟨t', p'⟩ := t'
    obtain ⟨h1, h2, h3⟩ := ht
    simp only at h1 h2 h3
    subst h1
    cases t <;> simp only [renamedToken] at h0 ⊢ <;> first | exact h0 | skip
    cases h with
    | nil => exact h0
    | @cons u u' ts ts' hu h =>
      obtain ⟨u, q⟩ := u
      obtain ⟨u', q'⟩ := u'
      obtain ⟨k1, k2, k3⟩ := hu
      simp only at k1 k2 k3
      subst k1
      cases u <;> simp only [renamedToken] at h0 ⊢ <;> first | exact h0 | skip
      exact hplain h (.some ⟨rfl, h3 _ rfl⟩)

/-! ## Evaluation -/

/-- Corresponding refusals. -/
inductive FailRel (σ : Str → Str) (R : Position → Position → Prop) : Failure → Failure → Prop
  | unknown {x p p'} : R p p' → FailRel σ R (.input ("Unknown variable: ".toList ++ x) (some p))
      (.input ("Unknown variable: ".toList ++ σ x) (some p'))
  | refused {text p p'} : R p p' → FailRel σ R (.input text (some p)) (.input text (some p'))

theorem liftMath_rel {α : Type} {p p' : Position} (h : R p p') (o : Outcome MathError α) :
    OutRel (FailRel σ R) Eq (liftMath p o) (liftMath p' o) := by
  cases o with
  | ok => exact .ok rfl
  | err => exact .err (.refused h)
  | panic => exact .panic
  | diverge => exact .diverge

theorem outRel_refl {E : Failure → Failure → Prop} {α : Type} (o : Outcome Failure α) (h : ∀ e, o ≠ .err e) : OutRel E Eq o o := by
  cases o with
  | ok => exact .ok rfl
  | err e => exact absurd rfl (h e)
  | panic => exact .panic
  | diverge => exact .diverge

theorem u8Add_rel {E : Failure → Failure → Prop} (m : Machine) (a b : Nat) :
    OutRel E Eq (u8Add m a b : Outcome Failure Nat) (u8Add m a b) := by
  refine outRel_refl _ fun e h => ?_
  unfold u8Add at h
  repeat' split at h
  all_goals cases h

theorem ratDiv_rel {E : Failure → Failure → Prop} (a b : Rat) : OutRel E Eq (ratDiv a b : Outcome Failure Rat) (ratDiv a b) := by
  refine outRel_refl _ fun e h => ?_
  unfold ratDiv at h
  repeat' split at h
  all_goals cases h

theorem ratRem_rel {E : Failure → Failure → Prop} (a b : Rat) : OutRel E Eq (ratRem a b : Outcome Failure Rat) (ratRem a b) := by
  refine outRel_refl _ fun e h => ?_
  unfold ratRem at h
  repeat' split at h
  all_goals cases h

theorem applyUnary_rel (m : Machine) (args : Args) (o : UnOp) {p p' : Position} (h : R p p') (a : Rat) :
    OutRel (FailRel σ R) Eq (applyUnary m args o p a) (applyUnary m args o p' a) := by
  cases o with
  | squareRoot =>
    unfold applyUnary
    refine (u8Add_rel m _ _).bind fun a b hab => ?_
    subst hab
    exact liftMath_rel h _
  | negate => exact .ok rfl
  | absoluteValue => exact .ok rfl

theorem applyBinary_rel (m : Machine) (args : Args) (o : BinOp) {p p' : Position} (h : R p p') (a b : Rat) :
    OutRel (FailRel σ R) Eq (applyBinary m args o p a b) (applyBinary m args o p' a b) := by
  cases o with
  | divide =>
    unfold applyBinary
    simp only
    split
    · exact .err (.refused h)
    · exact ratDiv_rel a b
  | exponent =>
    unfold applyBinary
    refine (u8Add_rel m _ _).bind fun a b hab => ?_
    subst hab
    exact liftMath_rel h _
  | modulus => exact ratRem_rel a b
  | _ => exact .ok rfl

theorem applyFunction_rel (f : FnName) {p p' : Position} (h : R p p') (vs : List Rat) :
    OutRel (FailRel σ R) Eq (applyFunction f p vs) (applyFunction f p' vs) := by
  unfold applyFunction
  cases vs with
  | nil => exact .err (.refused h)
  | cons => cases f <;> exact .ok rfl

section
variable (m : Machine) (args : Args) {ρ ρ' : Valuation}

mutual
theorem pure_rel (hρ : ∀ x, VariableName x → ρ' (σ x) = ρ x) : ∀ {n n'}, NodeRel σ R n n' → OutRel (FailRel σ R) Eq (n.pure m args true ρ) (n'.pure m args true ρ')
  | _, _, .number _ => by unfold Node.pure; exact .ok rfl
  | _, _, .variable hx hp => by
    unfold Node.pure pureVariable
    rw [hρ _ hx]
    split
    · exact .ok rfl
    · exact .err (.unknown hp)
  | _, _, .unary hp h => by
    unfold Node.pure
    exact (pure_rel hρ h).bind fun a b hab => by subst hab; exact applyUnary_rel m args _ hp a
  | _, _, .binary hp h h' => by
    unfold Node.pure
    refine (pure_rel hρ h).bind fun a b hab => (pure_rel hρ h').bind fun c d hcd => ?_
    subst hab hcd
    exact applyBinary_rel m args _ hp _ _
  | _, _, .function hp h _ => by
    unfold Node.pure
    exact (pureList_rel hρ h).bind fun a b hab => by subst hab; exact applyFunction_rel _ hp a
  | _, _, .paren _ _ h => by
    unfold Node.pure
    exact pure_rel hρ h
theorem pureList_rel (hρ : ∀ x, VariableName x → ρ' (σ x) = ρ x) : ∀ {ns ns'}, List.Forall₂ (NodeRel σ R) ns ns' →
    OutRel (FailRel σ R) Eq (pureList m args true ρ ns) (pureList m args true ρ' ns')
  | _, _, .nil => by unfold pureList; exact .ok rfl
  | _, _, .cons h h' => by
    unfold pureList
    refine (pure_rel hρ h).bind fun a b hab => (pureList_rel hρ h').bind fun c d hcd => ?_
    subst hab hcd
    exact .ok rfl
end
end

/-! ## Places -/

theorem insertSorted_map {f : Nat → Nat} (hf : Monotone f) (x : Nat) : ∀ {l : List Nat}, l.Pairwise (· ≤ ·) →
    insertSorted (f x) (l.map f) = (insertSorted x l).map f
  | [], _ => rfl
  | y :: l, h => by
    obtain ⟨h1, h2⟩ := List.pairwise_cons.1 h
    rw [List.map_cons]
    unfold insertSorted
    by_cases hxy : x ≤ y
    · rw [if_pos hxy, if_pos (hf hxy)]; rfl
    · rw [if_neg hxy]
      split
      · rename_i hle
        have e : f x = f y := Nat.le_antisymm hle (hf (by omega))
        rw [List.map_cons, ← insertSorted_map hf x h2, e]
        congr 1
        cases l with
        | nil => rfl
        | cons z l =>
          rw [List.map_cons]
          unfold insertSorted
          rw [if_pos (hf (h1 z (by simp)))]
      · rw [List.map_cons, insertSorted_map hf x h2]

theorem insertSorted_sorted (x : Nat) : ∀ {l : List Nat}, l.Pairwise (· ≤ ·) → (insertSorted x l).Pairwise (· ≤ ·)
  | [], _ => by simp [insertSorted]
  | y :: l, h => by
    obtain ⟨h1, h2⟩ := List.pairwise_cons.1 h
    unfold insertSorted
    split
    · rename_i hle
      refine List.pairwise_cons.2 ⟨fun z hz => ?_, h⟩
      rcases List.mem_cons.1 hz with rfl | hz
      · exact hle
      · exact Nat.le_trans hle (h1 z hz)
    · refine List.pairwise_cons.2 ⟨fun z hz => ?_, insertSorted_sorted x h2⟩
      rcases ((insertSorted_spec x l).1 z).1 hz with rfl | hz
      · omega
      · exact h1 z hz

theorem sortNat_sorted : ∀ l : List Nat, (sortNat l).Pairwise (· ≤ ·)
  | [] => .nil
  | x :: l => insertSorted_sorted x (sortNat_sorted l)

theorem sortNat_map {f : Nat → Nat} (hf : Monotone f) : ∀ l : List Nat, sortNat (l.map f) = (sortNat l).map f
  | [] => rfl
  | x :: l => by
    show insertSorted (f x) (sortNat (l.map f)) = (insertSorted x (sortNat l)).map f
    rw [sortNat_map hf l, insertSorted_map hf x (sortNat_sorted l)]

/-- Places that begin and end at the same edges, where the edges are numbered in order. -/
def EdgeRel (f f' : Nat → Nat) (n : Nat) (p p' : Position) : Prop :=
  ∃ i j, i < n ∧ j < n ∧ p.start = f i ∧ p.start + p.width = f j ∧ p'.start = f' i ∧ p'.start + p'.width = f' j

theorem edgeRel_span {f f' : Nat → Nat} (hf : Monotone f) (hf' : Monotone f') {n : Nat} {p p' q q' : Position}
    (h : EdgeRel f f' n p p') (h' : EdgeRel f f' n q q') :
    EdgeRel f f' n (Position.fromSpan p q) (Position.fromSpan p' q') := by
  obtain ⟨i, j, hi, hj, a1, a2, a3, a4⟩ := h
  obtain ⟨k, l, hk, hl, b1, b2, b3, b4⟩ := h'
  refine ⟨min i k, max j l, by omega, by omega, ?_, ?_, ?_, ?_⟩
  · show min p.start q.start = _
    rw [hf.map_min, a1, b1]
  · show min p.start q.start + (max (p.start + p.width) (q.start + q.width) - min p.start q.start) = _
    rw [hf.map_max, ← a2, ← b2]
    omega
  · show min p'.start q'.start = _
    rw [hf'.map_min, a3, b3]
  · show min p'.start q'.start + (max (p'.start + p'.width) (q'.start + q'.width) - min p'.start q'.start) = _
    rw [hf'.map_max, ← a4, ← b4]
    omega

theorem sorted_middle {l : List Nat} (h : l.Pairwise (· ≤ ·)) (hl : l.length = 4) : l.getD 1 0 ≤ l.getD 2 0 := by
  match l, hl with
  | [a, b, c, d], _ =>
    simp at h ⊢
    omega

theorem edgeRel_between {f f' : Nat → Nat} (hf : Monotone f) (hf' : Monotone f') {n : Nat} {p p' q q' : Position}
    (h : EdgeRel f f' n p p') (h' : EdgeRel f f' n q q') :
    EdgeRel f f' n (Position.fromBetween p q) (Position.fromBetween p' q') := by
  obtain ⟨i, j, hi, hj, a1, a2, a3, a4⟩ := h
  obtain ⟨k, l, hk, hl, b1, b2, b3, b4⟩ := h'
  have e : Position.fromBetween p q = ⟨((sortNat [i, j, k, l]).map f).getD 1 0,
      ((sortNat [i, j, k, l]).map f).getD 2 0 - ((sortNat [i, j, k, l]).map f).getD 1 0⟩ := by
    unfold Position.fromBetween
    rw [a2, b2, a1, b1, ← sortNat_map hf]; rfl
  have e' : Position.fromBetween p' q' = ⟨((sortNat [i, j, k, l]).map f').getD 1 0,
      ((sortNat [i, j, k, l]).map f').getD 2 0 - ((sortNat [i, j, k, l]).map f').getD 1 0⟩ := by
    unfold Position.fromBetween
    rw [a4, b4, a3, b3, ← sortNat_map hf']; rfl
  rw [e, e']
  obtain ⟨s1, s2⟩ := sortNat_spec [i, j, k, l]
  have s3 := sortNat_sorted [i, j, k, l]
  generalize sortNat [i, j, k, l] = s at s1 s2 s3
  match s, s2 with
  | [a, b, c, d], _ =>
    have hb := (s1 b).1 (by simp)
    have hc := (s1 c).1 (by simp)
    simp at hb hc s3
    have h1 := hf s3.2.1.1
    have h2 := hf' s3.2.1.1
    refine ⟨b, c, by omega, by omega, rfl, ?_, rfl, ?_⟩
    · show f b + (f c - f b) = f c
      omega
    · show f' b + (f' c - f' b) = f' c
      omega

theorem getD_in {l : List Nat} {n d : Nat} (h : n < l.length) : l.getD n d = l[n] := by
  rw [List.getD_eq_getElem?_getD, List.getElem?_eq_getElem h]; rfl

theorem getD_out {l : List Nat} {n d : Nat} (h : l.length ≤ n) : l.getD n d = d := by
  rw [List.getD_eq_getElem?_getD, List.getElem?_eq_none h]; rfl

/-- The edges of words, and something behind the last. -/
def edgeAt (ts : List PTok) (n : Nat) : Nat := (edges ts).getD n (edges ts).sum

theorem edgeAt_mono {ts : List PTok} (h : (edges ts).Pairwise (· ≤ ·)) : Monotone (edgeAt ts) := by
  intro i j hij
  unfold edgeAt
  by_cases hj : j < (edges ts).length
  · rw [getD_in hj, getD_in (by omega)]
    rcases Nat.lt_or_ge i j with h1 | h1
    · exact List.pairwise_iff_getElem.1 h i j _ _ h1
    · have : i = j := by omega
      subst this; exact Nat.le_refl _
  · rw [getD_out (n := j) (by omega)]
    by_cases hi : i < (edges ts).length
    · rw [getD_in hi]
      exact List.le_sum_of_mem (List.getElem_mem _)
    · rw [getD_out (by omega)]

theorem edgeRel_samePlace {ts ts' : List PTok} (hl : (edges ts').length = (edges ts).length) {p p' : Position}
    (h : EdgeRel (edgeAt ts) (edgeAt ts') (edges ts).length p p') : SamePlace ts ts' p p' := by
  obtain ⟨i, j, hi, hj, a1, a2, a3, a4⟩ := h
  unfold edgeAt at a1 a2 a3 a4
  refine ⟨i, j, ?_, ?_, ?_, ?_⟩
  · rw [a1, getD_in hi, List.getElem?_eq_getElem hi]
  · rw [a2, getD_in hj, List.getElem?_eq_getElem hj]
  · rw [a3, getD_in (hl ▸ hi), List.getElem?_eq_getElem (hl ▸ hi)]
  · rw [a4, getD_in (hl ▸ hj), List.getElem?_eq_getElem (hl ▸ hj)]

theorem edges_length (ts : List PTok) : (edges ts).length = 2 * ts.length := by
  unfold edges
  induction ts with
  | nil => rfl
  | cons t ts ih => simp only [List.flatMap_cons, List.length_append, ih, List.length_cons, List.length_nil]; omega

theorem lexes_edges {radix pos : Nat} {line : Str} {ts : List PTok} (h : Lexes radix pos line ts) :
    (∀ n ∈ edges ts, pos ≤ n) ∧ (edges ts).Pairwise (· ≤ ·) := by
  induction h with
  | done => exact ⟨by simp [edges], .nil⟩
  | blank _ _ ih => exact ⟨fun n hn => Nat.le_of_succ_le (ih.1 n hn), ih.2⟩
  | @symbol pos c t rest ts _ _ ih =>
    have e : edges (⟨t, ⟨pos, 1⟩⟩ :: ts) = pos :: (pos + 1) :: edges ts := rfl
    rw [e]
    refine ⟨fun n hn => ?_, List.pairwise_cons.2 ⟨fun n hn => ?_, List.pairwise_cons.2 ⟨ih.1, ih.2⟩⟩⟩
    · simp only [List.mem_cons] at hn
      rcases hn with rfl | rfl | hn
      · exact Nat.le_refl _
      · omega
      · exact Nat.le_of_succ_le (ih.1 n hn)
    · simp only [List.mem_cons] at hn
      rcases hn with rfl | hn
      · omega
      · exact Nat.le_of_succ_le (ih.1 n hn)
  | @word pos w t rest ts _ _ _ _ _ ih =>
    have e : edges (⟨t, ⟨pos, w.length⟩⟩ :: ts) = pos :: (pos + w.length) :: edges ts := rfl
    rw [e]
    refine ⟨fun n hn => ?_, List.pairwise_cons.2 ⟨fun n hn => ?_, List.pairwise_cons.2 ⟨ih.1, ih.2⟩⟩⟩
    · simp only [List.mem_cons] at hn
      rcases hn with rfl | rfl | hn
      · exact Nat.le_refl _
      · omega
      · have := ih.1 n hn; omega
    · simp only [List.mem_cons] at hn
      rcases hn with rfl | hn
      · omega
      · have := ih.1 n hn; omega

theorem lexes_isName {radix pos : Nat} {line : Str} {ts : List PTok} (h : Lexes radix pos line ts) :
    ∀ t ∈ ts, ∀ x, t.value = .variable x → VariableName x := by
  induction h with
  | done => intro t ht; cases ht
  | blank _ _ ih => exact ih
  | symbol hs _ ih =>
    intro t ht x hx
    rcases List.mem_cons.1 ht with rfl | ht
    · simp only at hx; subst hx; cases hs
    · exact ih t ht x hx
  | word _ hw _ hword _ ih =>
    intro t ht x hx
    rcases List.mem_cons.1 ht with rfl | ht
    · simp only at hx
      subst hx
      cases hword with
      | «variable» h => exact ⟨⟨_, h⟩, hw⟩
    · exact ih t ht x hx

theorem forall₂_of_getElem {α β : Type} {r : α → β → Prop} : ∀ {l : List α} {l' : List β}, l'.length = l.length →
    (∀ i (h : i < l.length) (h' : i < l'.length), r l[i] l'[i]) → List.Forall₂ r l l'
  | [], [], _, _ => .nil
  | a :: l, b :: l', hl, h => .cons (h 0 (by simp) (by simp))
      (forall₂_of_getElem (by simpa using hl) fun i hi hi' => h (i + 1) (by simpa using hi) (by simpa using hi'))

theorem edges_getElem : ∀ (ts : List PTok) (i : Nat) (h : i < ts.length),
    (edges ts)[2 * i]? = some ts[i].position.start ∧ (edges ts)[2 * i + 1]? = some (ts[i].position.start + ts[i].position.width)
  | t :: ts, 0, _ => ⟨rfl, rfl⟩
  | t :: ts, i + 1, h => by
    have e : edges (t :: ts) = t.position.start :: (t.position.start + t.position.width) :: edges ts := rfl
    have := edges_getElem ts i (by simpa using h)
    rw [e]
    exact this

theorem sameWords_toks {radix : Nat} {line line' : Str} {ts ts' : List PTok} (h : SameWords radix σ line line' ts ts') :
    Toks σ (EdgeRel (edgeAt ts) (edgeAt ts') (edges ts).length) ts ts' := by
  have hl : ts'.length = ts.length := by simpa using congrArg List.length h.same
  refine forall₂_of_getElem hl fun i hi hi' => ⟨?_, ?_, lexes_isName h.words _ (List.getElem_mem _)⟩
  · have e1 : (ts'.map (·.value))[i]? = some ts'[i].value := by simp [hi']
    rw [h.same] at e1
    simp only [List.getElem?_map, List.getElem?_eq_getElem hi, Option.map_some, Option.some.injEq] at e1
    exact e1.symm
  · obtain ⟨a1, a2⟩ := edges_getElem ts i hi
    obtain ⟨b1, b2⟩ := edges_getElem ts' i hi'
    have hlen := edges_length ts
    refine ⟨2 * i, 2 * i + 1, by omega, by omega, ?_, ?_, ?_, ?_⟩
    · unfold edgeAt; rw [List.getD_eq_getElem?_getD, a1]; rfl
    · unfold edgeAt; rw [List.getD_eq_getElem?_getD, a2]; rfl
    · unfold edgeAt; rw [List.getD_eq_getElem?_getD, b1]; rfl
    · unfold edgeAt; rw [List.getD_eq_getElem?_getD, b2]; rfl

theorem displayResult_noErr (args : Args) (q : Rat) (e : Failure) : displayResult args q ≠ .err e := by
  have hi : ∀ n r, (intToStrRadix n r : Outcome Failure Str) ≠ .err e := by
    intro n r
    unfold intToStrRadix
    split <;> simp
  have hb : ∀ {α β : Type} {o : Outcome Failure α} {f : α → Outcome Failure β}, o ≠ .err e → (∀ a, f a ≠ .err e) →
      (o >>= f) ≠ .err e := by
    intro α β o f h1 h2
    cases o with
    | ok a => exact h2 a
    | err e' => intro h; apply h1; cases h; rfl
    | panic => intro h; cases h
    | diverge => intro h; cases h
  unfold displayResult
  split
  · simp
  · unfold makeDecimalString
    simp only
    refine hb ?_ fun _ => hb (hi _ _) fun _ => ?_
    · split
      · simp
      · exact hb (hi _ _) fun _ => by simp
    · split <;> simp

/-- Lines of the same words: what is answered, and what is assigned. -/
theorem pureAnswer_rel (m : Machine) (args : Args) (h2 : 2 ≤ args.radix) (h16 : args.radix ≤ 16) (hσ : Renaming σ) {ρ ρ' : Valuation}
    (hρ : ∀ x, VariableName x → ρ' (σ x) = ρ x) {line line' : Str} {ts ts' : List PTok}
    (h : SameWords args.radix σ line line' ts ts') :
    SameReply σ ts ts' (pureAnswer m args ρ line) (pureAnswer m args ρ' line') ∧
    ∀ x, VariableName x → pureEffect m args ρ' line' (σ x) = pureEffect m args ρ line x := by
  have hl : ts'.length = ts.length := by simpa using congrArg List.length h.same
  have hel : (edges ts').length = (edges ts).length := by rw [edges_length, edges_length, hl]
  have ht := (C01_tokens_iff _ h2 h16 line ts).2 ⟨h.ascii, h.plain, h.words⟩
  have ht' := (C01_tokens_iff _ h2 h16 line' ts').2 ⟨h.ascii', h.plain', h.words'⟩
  have hf := edgeAt_mono (lexes_edges h.words).2
  have hf' := edgeAt_mono (lexes_edges h.words').2
  have hnew := new_rel (edgeRel_span hf hf') (edgeRel_between hf hf') (sameWords_toks h)
  unfold pureAnswer pureEffect
  rw [ht, ht']
  simp only
  constructor
  · by_cases hn : ts = []
    · have hn' : ts' = [] := by
        subst hn
        exact List.length_eq_zero_iff.1 hl
      rw [if_pos hn, if_pos hn']
      exact .ok
    · have hn' : ts' ≠ [] := by
        rintro rfl
        exact hn (List.length_eq_zero_iff.1 hl.symm)
      rw [if_neg hn, if_neg hn']
      generalize SyntaxTree.new ts = o at hnew ⊢
      generalize SyntaxTree.new ts' = o' at hnew ⊢
      cases hnew with
      | panic => exact .panic
      | diverge => exact .diverge
      | @err e e' he =>
        obtain ⟨e, p⟩ := e
        obtain ⟨e', p'⟩ := e'
        obtain ⟨rfl, he⟩ := he
        simp only at he
        rcases he with he | ⟨rfl, rfl, rfl⟩
        · exact .refused (edgeRel_samePlace hel he)
        · exact .noInput
      | @ok t t' htr =>
        simp only [Outcome.mapErr, Outcome.bind_ok]
        have := pure_rel m args hρ htr.2
        generalize t.root.pure m args true ρ = o at this ⊢
        generalize t'.root.pure m args true ρ' = o' at this ⊢
        cases this with
        | panic => exact .panic
        | diverge => exact .diverge
        | err he =>
          cases he with
          | unknown he => exact .unknown (edgeRel_samePlace hel he)
          | refused he => exact .refused (edgeRel_samePlace hel he)
        | @ok a b hab =>
          subst hab
          simp only [Outcome.bind_ok]
          have hd := displayResult_noErr args a
          generalize displayResult args a = o at hd ⊢
          cases o with
          | ok => exact .ok
          | err e => exact absurd rfl (hd e)
          | panic => exact .panic
          | diverge => exact .diverge
  · intro x hx
    generalize SyntaxTree.new ts = o at hnew ⊢
    generalize SyntaxTree.new ts' = o' at hnew ⊢
    cases hnew with
    | panic => exact hρ x hx
    | diverge => exact hρ x hx
    | err => exact hρ x hx
    | @ok t t' htr =>
      obtain ⟨rv, n⟩ := t
      obtain ⟨rv', n'⟩ := t'
      obtain ⟨h1, h2⟩ := htr
      simp only at h1 h2
      have := pure_rel m args hρ h2
      cases h1 with
      | none => exact hρ x hx
      | @some v v' hv =>
        simp only
        generalize n.pure m args true ρ = o at this ⊢
        generalize n'.pure m args true ρ' = o' at this ⊢
        cases this with
        | panic => exact hρ x hx
        | diverge => exact hρ x hx
        | err => exact hρ x hx
        | @ok a b hab =>
          subst hab
          simp only
          by_cases hxv : x = v.value
          · rw [if_pos hxv, if_pos (by rw [hxv, hv.1])]
          · rw [if_neg hxv, if_neg (by rw [hv.1]; exact fun h => hxv (hσ x v.value hx hv.2 h)), hρ x hx]

end Bcalc
