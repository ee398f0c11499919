import Verif.Proof.ParserSpan
import Verif.Proof.Lexical3

/-! # Properties C10-C18: parsing -/

namespace Bcalc
open Spec

/-! ## C10 The parser accepts exactly the calculator's grammar -/

theorem C10_parser_iff_grammar (input : List PTok) (t : SyntaxTree) :
    SyntaxTree.new input = .ok t ↔ Input input t.resultVar t.root := parse_iff input t

example : Input [⟨.variable "$x".toList, ⟨0, 2⟩⟩, ⟨.assign, ⟨2, 1⟩⟩, ⟨.number 1, ⟨3, 1⟩⟩,
      ⟨.binary .add, ⟨4, 1⟩⟩, ⟨.function .max, ⟨5, 3⟩⟩, ⟨.openParen, ⟨8, 1⟩⟩,
      ⟨.number 2, ⟨9, 1⟩⟩, ⟨.comma, ⟨10, 1⟩⟩, ⟨.number 3, ⟨11, 1⟩⟩, ⟨.closeParen, ⟨12, 1⟩⟩]
    (some ⟨"$x".toList, ⟨0, 2⟩⟩)
    (.binary .add ⟨4, 1⟩ (.number 1 ⟨3, 1⟩)
      (.function .max ⟨5, 3⟩ [.number 2 ⟨9, 1⟩, .number 3 ⟨11, 1⟩] ⟨8, 5⟩)) := by
  have num : ∀ k v p, Expr k [⟨.number v, p⟩] (.number v p) := by
    intro k v p
    induction k with
    | zero => exact .signed (.atom .number)
    | succ k ih => exact .lift ih
  refine .assignment (Expr.op (ts := [_]) (num 4 1 _) rfl ?_)
  exact .lift (.lift (.lift (.signed (.atom (.function
    (Arguments.more (ts := [_]) (us := [_]) (num _ _ _) (.one (num _ _ _))))))))

/-! ## C11 Every expression has one reading -/

theorem C11_one_reading (input : List PTok) (v v' : Option (Positioned Str)) (n n' : Node)
    (h : Input input v n) (h' : Input input v' n') : v = v' ∧ n = n' := by
  have a := (parse_iff input ⟨v, n⟩).2 h
  have b := (parse_iff input ⟨v', n'⟩).2 h'
  rw [a] at b
  simpa using b

/-- The same for the category of expressions. -/
theorem C11_one_reading_expression (input : List PTok) (n n' : Node)
    (h : Expr 4 input n) (h' : Expr 4 input n') : n = n' :=
  (C11_one_reading input none none n n' (.expression h) (.expression h')).2

/-! ## C12 Parsing never crashes and always finishes -/

theorem new_cases (input : List PTok) :
    ∃ rv pre us, input = pre ++ us ∧
      SyntaxTree.new input = (readExpression (parseFuel us) us >>= finishTree rv) ∧
      ((pre = [] ∧ rv = none) ∨
        ∃ x p q, pre = [⟨.variable x, p⟩, ⟨.assign, q⟩] ∧ rv = some ⟨x, p⟩) := by
  unfold SyntaxTree.new
  split
  · exact ⟨_, [_, _], _, rfl, rfl, .inr ⟨_, _, _, rfl, rfl⟩⟩
  · exact ⟨none, [], input, rfl, rfl, .inl ⟨rfl, rfl⟩⟩

theorem C12_total (input : List PTok) :
    (∃ t, SyntaxTree.new input = .ok t) ∨ (∃ e, SyntaxTree.new input = .err e) := by
  obtain ⟨rv, pre, us, _, h, _⟩ := new_cases input
  rw [h]
  have hs := (sound (parseFuel us)).expression us
  have hf := (finishes us.length).expression us (parseFuel us) (Nat.le_refl _)
    (by unfold parseFuel; omega)
  cases hr : readExpression (parseFuel us) us with
  | ok x =>
    obtain ⟨r, e, rest⟩ := x
    cases e <;> cases r <;> simp [finishTree]
  | err e => simp
  | panic k => rw [hr] at hs; exact hs.elim
  | diverge => exact absurd hr hf

/-- The error of a run that ended in one. -/
def errorOf {ε α : Type} : Outcome ε α → Option ε
  | .err e => some e
  | _ => none

example : errorOf (SyntaxTree.new [⟨.binary .multiply, ⟨0, 1⟩⟩]) =
    some ⟨.missingOperand (.binary .multiply), ⟨0, 1⟩⟩ := by
  decide +kernel

/-! ## C13 Operator precedence and left associativity -/

theorem expr_raise {k ts n} (h : Expr k ts n) : ∀ {j}, k ≤ j → Expr j ts n := by
  intro j hj
  induction hj with
  | refl => exact h
  | step _ ih => exact .lift ih

theorem level_pos (o : BinOp) : 1 ≤ level o ∧ level o ≤ 4 := by cases o <;> decide

theorem expr_binary {o ts a us b p} (h1 : Expr (level o) ts a) (h2 : Expr (level o - 1) us b) :
    Expr (level o) (ts ++ ⟨.binary o, p⟩ :: us) (.binary o p a b) := by
  obtain ⟨k, hk⟩ : ∃ k, level o = k + 1 := ⟨level o - 1, by have := level_pos o; omega⟩
  rw [hk] at h1 h2 ⊢
  exact .op h1 hk h2

theorem parse_of_expr {k ts n} (h : Expr k ts n) (hk : k ≤ 4) :
    SyntaxTree.new ts = .ok ⟨none, n⟩ :=
  (parse_iff ts ⟨none, n⟩).2 (.expression (expr_raise h hk))

/-- The tree of `x o1 y o2 z`: the second operator is applied first when it binds tighter;
otherwise (in particular for operators of the same level) the first one. -/
theorem C13_two_operators (xs ys zs : List PTok) (x y z : Node) (o1 o2 : BinOp) (p1 p2 : Position)
    (hx : Signed xs x) (hy : Signed ys y) (hz : Signed zs z) :
    SyntaxTree.new (xs ++ ⟨.binary o1, p1⟩ :: (ys ++ ⟨.binary o2, p2⟩ :: zs)) =
      .ok ⟨none, if level o2 < level o1 then .binary o1 p1 x (.binary o2 p2 y z)
        else .binary o2 p2 (.binary o1 p1 x y) z⟩ := by
  have l1 := level_pos o1
  have l2 := level_pos o2
  split
  · refine parse_of_expr (k := level o1) (expr_binary (expr_raise (.signed hx) (by omega)) ?_)
      (by omega)
    refine expr_raise (k := level o2) (expr_binary (expr_raise (.signed hy) (by omega))
      (expr_raise (.signed hz) (by omega))) (by omega)
  · have := expr_binary (o := o2) (p := p2) (ts := xs ++ ⟨.binary o1, p1⟩ :: ys) (us := zs)
      (a := .binary o1 p1 x y) (b := z)
      (expr_raise (k := level o1) (expr_binary (expr_raise (.signed hx) (by omega))
        (expr_raise (.signed hy) (by omega))) (by omega)) (expr_raise (.signed hz) (by omega))
    rw [List.append_assoc] at this
    exact parse_of_expr this (by omega)

/-- Chains of any length of operators of one level group to the left. -/
theorem C13_left_associative (k : Nat) (xs : List PTok) (x : Node) (hx : Signed xs x)
    (chain : List (BinOp × Position × List PTok × Node))
    (hc : ∀ c ∈ chain, level c.1 = k ∧ Signed c.2.2.1 c.2.2.2) :
    SyntaxTree.new (xs ++ chain.flatMap fun c => ⟨.binary c.1, c.2.1⟩ :: c.2.2.1) =
      .ok ⟨none, chain.foldl (fun n c => .binary c.1 c.2.1 n c.2.2.2) x⟩ := by
  by_cases hk : k ≤ 4
  swap
  · cases chain with
    | nil => simpa using parse_of_expr (.signed hx) (by omega)
    | cons c l =>
      have h1 := (hc c (by simp)).1
      have := level_pos c.1
      omega
  refine parse_of_expr (k := k) ?_ hk
  have : ∀ (ts : List PTok) (n : Node), Expr k ts n →
      Expr k (ts ++ chain.flatMap fun c => ⟨.binary c.1, c.2.1⟩ :: c.2.2.1)
        (chain.foldl (fun n c => .binary c.1 c.2.1 n c.2.2.2) n) := by
    induction chain with
    | nil => intro ts n h; simpa using h
    | cons c l ih =>
      intro ts n h
      have hc1 := hc c (by simp)
      simp only [List.flatMap_cons, List.foldl_cons]
      have := ih (fun c hc' => hc c (by simp [hc'])) (ts ++ ⟨.binary c.1, c.2.1⟩ :: c.2.2.1)
        (.binary c.1 c.2.1 n c.2.2.2) (by
          rw [← hc1.1]
          exact expr_binary (by rw [hc1.1]; exact h) (expr_raise (.signed hc1.2) (by omega)))
      simpa using this
  exact this xs x (expr_raise (.signed hx) (by omega))

/-- The levels are those of the claim. -/
theorem C13_levels : level .exponent < level .modulus ∧ level .modulus < level .multiply ∧
    level .multiply = level .divide ∧ level .divide < level .add ∧ level .add = level .subtract := by
  decide

/-- `2 ^ 3 ^ 2` is `(2 ^ 3) ^ 2`; `1 + 2 * 3` is `1 + (2 * 3)`. -/
example : SyntaxTree.new [⟨.number 2, ⟨0, 1⟩⟩, ⟨.binary .exponent, ⟨1, 1⟩⟩, ⟨.number 3, ⟨2, 1⟩⟩,
      ⟨.binary .exponent, ⟨3, 1⟩⟩, ⟨.number 2, ⟨4, 1⟩⟩] =
    .ok ⟨none, .binary .exponent ⟨3, 1⟩ (.binary .exponent ⟨1, 1⟩ (.number 2 ⟨0, 1⟩)
      (.number 3 ⟨2, 1⟩)) (.number 2 ⟨4, 1⟩)⟩ :=
  C13_two_operators [_] [_] [_] _ _ _ .exponent .exponent _ _ (.atom .number) (.atom .number)
    (.atom .number)

example : SyntaxTree.new [⟨.number 1, ⟨0, 1⟩⟩, ⟨.binary .add, ⟨1, 1⟩⟩, ⟨.number 2, ⟨2, 1⟩⟩,
      ⟨.binary .multiply, ⟨3, 1⟩⟩, ⟨.number 3, ⟨4, 1⟩⟩] =
    .ok ⟨none, .binary .add ⟨1, 1⟩ (.number 1 ⟨0, 1⟩) (.binary .multiply ⟨3, 1⟩
      (.number 2 ⟨2, 1⟩) (.number 3 ⟨4, 1⟩))⟩ :=
  C13_two_operators [_] [_] [_] _ _ _ .add .multiply _ _ (.atom .number) (.atom .number)
    (.atom .number)

/-! ## C14 Minus signs are disambiguated -/

theorem signed_minuses {ts n} (ps : List Position) (h : Signed ts n) :
    Signed (minuses ps ++ ts) (negated ps n) := by
  induction ps with
  | nil => exact h
  | cons p ps ih => exact .minus ih

/-- After an operand (indeed after any expression) a minus sign subtracts. -/
theorem C14_subtraction (xs ys : List PTok) (x y : Node) (p : Position)
    (hx : Expr 4 xs x) (hy : Signed ys y) :
    SyntaxTree.new (xs ++ ⟨.binary .subtract, p⟩ :: ys) = .ok ⟨none, .binary .subtract p x y⟩ :=
  parse_of_expr (k := 4) (expr_binary (o := .subtract) hx (expr_raise (.signed hy) (by decide)))
    (by omega)

/-- At the start every one of any number of minus signs negates. -/
theorem C14_leading (ps : List Position) (xs : List PTok) (x : Node) (hx : Signed xs x) :
    SyntaxTree.new (minuses ps ++ xs) = .ok ⟨none, negated ps x⟩ :=
  parse_of_expr (.signed (signed_minuses ps hx)) (by omega)

/-- After an operator every minus sign negates, whatever the operator; and the negations in front of
the first operand apply to it alone. -/
theorem C14_after_operator (ps qs : List Position) (o : BinOp) (p : Position) (xs ys : List PTok)
    (x y : Node) (hx : Signed xs x) (hy : Signed ys y) :
    SyntaxTree.new (minuses ps ++ xs ++ ⟨.binary o, p⟩ :: (minuses qs ++ ys)) =
      .ok ⟨none, .binary o p (negated ps x) (negated qs y)⟩ :=
  parse_of_expr (k := level o) (expr_binary (expr_raise (.signed (signed_minuses ps hx)) (by omega))
    (expr_raise (.signed (signed_minuses qs hy)) (by omega))) (level_pos o).2

/-- After `sqrt` or `abs` every minus sign negates. -/
theorem C14_after_unary (ps : List Position) (o : UnOp) (p : Position) (xs : List PTok) (x : Node)
    (hx : Signed xs x) :
    SyntaxTree.new (⟨.unary o, p⟩ :: (minuses ps ++ xs)) = .ok ⟨none, .unary o p (negated ps x)⟩ :=
  parse_of_expr (.signed (.atom (.unary (signed_minuses ps hx)))) (by omega)

/-- After `max` or `min` every minus sign negates. -/
theorem C14_after_function (q : Position) (ps : List Position) (f : FnName) (p : Position)
    (xs : List PTok) (x : Node) (hx : Signed xs x) :
    SyntaxTree.new (⟨.function f, p⟩ :: (minuses (q :: ps) ++ xs)) =
      .ok ⟨none, .function f p [negated (q :: ps) x] (negated (q :: ps) x).position⟩ := by
  refine parse_of_expr (.signed (.atom (.functionBare (signed_minuses (q :: ps) hx) ?_))) (by omega)
  rintro ⟨r, us, h⟩
  simp [minuses] at h

/-- At the start of a parenthesised expression, too. -/
theorem C14_after_open (ps : List Position) (p q : Position) (xs : List PTok) (x : Node)
    (hx : Signed xs x) :
    SyntaxTree.new (⟨.openParen, p⟩ :: (minuses ps ++ xs ++ [⟨.closeParen, q⟩])) =
      .ok ⟨none, .paren p q (negated ps x)⟩ :=
  parse_of_expr (.signed (.atom (.paren (expr_raise (.signed (signed_minuses ps hx)) (by omega)))))
    (by omega)

/-- `-2 ^ - -2` is `(-2) ^ (-(-2))`. -/
example : SyntaxTree.new [⟨.binary .subtract, ⟨0, 1⟩⟩, ⟨.number 2, ⟨1, 1⟩⟩,
      ⟨.binary .exponent, ⟨2, 1⟩⟩, ⟨.binary .subtract, ⟨3, 1⟩⟩, ⟨.binary .subtract, ⟨4, 1⟩⟩,
      ⟨.number 2, ⟨5, 1⟩⟩] =
    .ok ⟨none, .binary .exponent ⟨2, 1⟩ (.unary .negate ⟨0, 1⟩ (.number 2 ⟨1, 1⟩))
      (.unary .negate ⟨3, 1⟩ (.unary .negate ⟨4, 1⟩ (.number 2 ⟨5, 1⟩)))⟩ :=
  C14_after_operator [⟨0, 1⟩] [⟨3, 1⟩, ⟨4, 1⟩] .exponent ⟨2, 1⟩ [_] [_] _ _ (.atom .number)
    (.atom .number)

/-! ## C15 Accepted expressions have balanced parentheses -/

theorem opens_append (a b : List PTok) : opens (a ++ b) = opens a + opens b := by
  simp [opens, List.countP_append]

theorem closes_append (a b : List PTok) : closes (a ++ b) = closes a + closes b := by
  simp [closes, List.countP_append]

theorem balanced_nil : Balanced [] := ⟨rfl, by intro us h; simp at h; subst h; simp [closes]⟩

theorem prefix_append_cases {us a b : List PTok} (h : us <+: a ++ b) :
    us <+: a ∨ ∃ vs, us = a ++ vs ∧ vs <+: b := by
  obtain ⟨w, hw⟩ := h
  rcases List.append_eq_append_iff.1 hw with ⟨x, rfl, _⟩ | ⟨x, rfl, rfl⟩
  · exact .inl ⟨x, rfl⟩
  · exact .inr ⟨x, rfl, ⟨w, rfl⟩⟩

theorem balanced_append {a b : List PTok} (ha : Balanced a) (hb : Balanced b) :
    Balanced (a ++ b) := by
  refine ⟨by rw [opens_append, closes_append, ha.1, hb.1], ?_⟩
  intro us h
  rcases prefix_append_cases h with h | ⟨vs, rfl, h'⟩
  · exact ha.2 us h
  · rw [opens_append, closes_append, ha.1]
    have := hb.2 vs h'
    omega

theorem balanced_other {t : PTok} (h1 : t.value ≠ .openParen) (h2 : t.value ≠ .closeParen) :
    Balanced [t] := by
  have e1 : opens [t] = 0 := by simp [opens, h1]
  have e2 : closes [t] = 0 := by simp [closes, h2]
  refine ⟨by rw [e1, e2], ?_⟩
  intro us h
  have : closes us ≤ closes [t] := h.sublist.countP_le
  omega

theorem balanced_cons {t : PTok} {ts} (h1 : t.value ≠ .openParen) (h2 : t.value ≠ .closeParen)
    (h : Balanced ts) : Balanced (t :: ts) := balanced_append (balanced_other h1 h2) h

theorem balanced_wrap {ts : List PTok} (p q : Position) (h : Balanced ts) :
    Balanced (⟨.openParen, p⟩ :: (ts ++ [⟨.closeParen, q⟩])) := by
  have e1 : opens [(⟨.openParen, p⟩ : PTok)] = 1 := by simp [opens]
  have e2 : closes [(⟨.openParen, p⟩ : PTok)] = 0 := by simp [closes]
  have e3 : opens [(⟨.closeParen, q⟩ : PTok)] = 0 := by simp [opens]
  have e4 : closes [(⟨.closeParen, q⟩ : PTok)] = 1 := by simp [closes]
  have hc : ∀ ts : List PTok, (⟨.openParen, p⟩ : PTok) :: ts = [⟨.openParen, p⟩] ++ ts := fun _ => rfl
  refine ⟨?_, ?_⟩
  · rw [hc, opens_append, opens_append, closes_append, closes_append, e1, e2, e3, e4, h.1]; omega
  · intro us hu
    cases us with
    | nil => simp [closes]
    | cons u us =>
      rw [List.cons_prefix_cons] at hu
      obtain ⟨rfl, hu⟩ := hu
      rw [hc, opens_append, closes_append, e1, e2]
      rcases prefix_append_cases hu with hu | ⟨vs, rfl, hu'⟩
      · have := h.2 us hu; omega
      · rw [opens_append, closes_append, h.1]
        have : closes vs ≤ closes [(⟨.closeParen, q⟩ : PTok)] := hu'.sublist.countP_le
        omega

mutual
theorem expr_balanced : ∀ {k ts n}, Expr k ts n → Balanced ts
  | _, _, _, .signed h => signed_balanced h
  | _, _, _, .lift h => expr_balanced h
  | _, _, _, .op h1 _ h2 =>
    balanced_append (expr_balanced h1) (balanced_cons (by simp) (by simp) (expr_balanced h2))
theorem signed_balanced : ∀ {ts n}, Signed ts n → Balanced ts
  | _, _, .minus h => balanced_cons (by simp) (by simp) (signed_balanced h)
  | _, _, .atom h => atom_balanced h
theorem atom_balanced : ∀ {ts n}, Atom ts n → Balanced ts
  | _, _, .number => balanced_other (by simp) (by simp)
  | _, _, .variable => balanced_other (by simp) (by simp)
  | _, _, .paren h => balanced_wrap _ _ (expr_balanced h)
  | _, _, .unary h => balanced_cons (by simp) (by simp) (signed_balanced h)
  | _, _, .functionBare h _ => balanced_cons (by simp) (by simp) (signed_balanced h)
  | _, _, .functionEmpty => balanced_cons (by simp) (by simp) (balanced_wrap _ _ balanced_nil)
  | _, _, .function h =>
    balanced_cons (by simp) (by simp) (balanced_wrap _ _ (arguments_balanced h))
theorem arguments_balanced : ∀ {ts ns}, Arguments ts ns → Balanced ts
  | _, _, .one h => expr_balanced h
  | _, _, .more h h' =>
    balanced_append (expr_balanced h) (balanced_cons (by simp) (by simp) (arguments_balanced h'))
end

theorem C15_accepted_balanced (input : List PTok) (t : SyntaxTree)
    (h : SyntaxTree.new input = .ok t) : Balanced input := by
  have := (parse_iff input t).1 h
  generalize t.resultVar = rv at this
  cases this with
  | expression h => exact expr_balanced h
  | assignment h =>
    exact balanced_cons (by simp) (by simp) (balanced_cons (by simp) (by simp) (expr_balanced h))

theorem C15_unbalanced_rejected (input : List PTok) (h : ¬ Balanced input) :
    ∃ e, SyntaxTree.new input = .err e := by
  rcases C12_total input with ⟨t, ht⟩ | he
  · exact absurd (C15_accepted_balanced input t ht) h
  · exact he

/-- `)(` has as many open as close parentheses, but is not balanced. -/
example : ¬ Balanced [⟨.closeParen, ⟨0, 1⟩⟩, ⟨.openParen, ⟨1, 1⟩⟩] ∧
    Balanced [⟨.openParen, ⟨0, 1⟩⟩, ⟨.number 1, ⟨1, 1⟩⟩, ⟨.closeParen, ⟨2, 1⟩⟩] := by
  refine ⟨?_, balanced_wrap (ts := [_]) _ _ (balanced_other (by simp) (by simp))⟩
  rintro ⟨_, h⟩
  have := h [⟨.closeParen, ⟨0, 1⟩⟩] (by simp)
  simp [opens, closes] at this

/-! ## C16 Syntax errors point inside the input -/

theorem new_boxed {lo hi : Nat} {input : List PTok}
    (hb : ∀ t ∈ input, lo ≤ t.position.start ∧ t.position.start + t.position.width ≤ hi)
    {e : Positioned SyntaxError} (h : SyntaxTree.new input = .err e) :
    (lo ≤ e.position.start ∧ e.position.start + e.position.width ≤ hi) ∨
      (e = ⟨.noInput, ⟨0, 0⟩⟩ ∧
        (input = [] ∨ ∃ x p q, input = [⟨.variable x, p⟩, ⟨.assign, q⟩])) := by
  obtain ⟨rv, pre, us, hi', hn, hpre⟩ := new_cases input
  rw [hn] at h
  have hbu : BoxToks lo hi us := fun t ht => hb t (by rw [hi']; simp [ht])
  have hx := (boxed lo hi (parseFuel us)).expression us hbu
  have hs := (sound (parseFuel us)).expression us
  cases hr : readExpression (parseFuel us) us with
  | ok x =>
    rw [hr] at h hx hs
    obtain ⟨r, ee, rest⟩ := x
    obtain ⟨_, h2, _⟩ := hx
    cases ee with
    | comma p =>
      simp [finishTree] at h; subst h
      exact .inl h2
    | closeParen p =>
      simp [finishTree] at h; subst h
      exact .inl h2
    | inputEmpty =>
      cases r with
      | some n => simp [finishTree] at h
      | none =>
        simp [finishTree, Positioned.newRaw] at h
        refine .inr ⟨h.symm, ?_⟩
        obtain ⟨ts, h3, h4, h5⟩ := hs
        have := h4 rfl
        subst this
        rcases h5 with ⟨_, rfl⟩ | ⟨n, hn, _⟩
        · simp [endToks] at h3
          subst h3
          rcases hpre with ⟨rfl, _⟩ | ⟨x, p, q, rfl, _⟩
          · exact .inl (by simpa using hi')
          · exact .inr ⟨x, p, q, by simpa using hi'⟩
        · cases hn
  | err e' =>
    rw [hr] at h hx
    simp at h; subst h
    exact .inl hx
  | panic k => rw [hr] at h; simp at h
  | diverge => rw [hr] at h; simp at h

/-- The place of an error lies between the start of the first token and the end of the last one.
The one exception is the error for a missing expression, which is reported at the beginning of the
line. -/
theorem C16_error_inside (first last : PTok) (input : List PTok) (e : Positioned SyntaxError)
    (ho : input.Pairwise fun a b => a.position.start + a.position.width ≤ b.position.start)
    (hf : input.head? = some first) (hl : input.getLast? = some last)
    (h : SyntaxTree.new input = .err e) :
    (first.position.start ≤ e.position.start ∧
        e.position.start + e.position.width ≤ last.position.start + last.position.width) ∨
      (e = ⟨.noInput, ⟨0, 0⟩⟩ ∧ ∃ x p q, input = [⟨.variable x, p⟩, ⟨.assign, q⟩]) := by
  have hs : Spans input ⟨first.position.start,
      last.position.start + last.position.width - first.position.start⟩ := by
    refine ⟨first, last, hf, hl, rfl, ?_⟩
    have : first.position.start ≤ last.position.start + last.position.width := by
      cases input with
      | nil => simp at hf
      | cons x xs =>
        simp at hf; subst hf
        rcases List.mem_cons.1 (List.mem_of_mem_getLast? hl) with rfl | hm
        · omega
        · have := (List.pairwise_cons.1 ho).1 last hm; omega
    simp only; omega
  have key := new_boxed (lo := first.position.start)
    (hi := last.position.start + last.position.width) (input := input) (by
      intro t ht
      have := spans_bounds hs ho ht
      simp only at this
      have h5 : first.position.start ≤ last.position.start + last.position.width := by
        have := spans_bounds hs ho (List.mem_of_mem_getLast? hl)
        simp only at this
        omega
      omega) h
  rcases key with k | ⟨k, rfl | k'⟩
  · exact .inl k
  · simp at hf
  · exact .inr ⟨k, k'⟩

/-- Hence no error of an input line points outside of the line. -/
theorem C16_error_inside_line (radix : Nat) (h2 : 2 ≤ radix) (hr : radix ≤ 16) (line : Str)
    (ts : List PTok) (e : Positioned SyntaxError)
    (ht : tokenize line radix = .ok (.tokens ts)) (h : SyntaxTree.new ts = .err e) :
    e.position.start + e.position.width ≤ line.length := by
  have hl := ((tokenize_tokens_iff h2 hr line ts).1 ht).2.2
  have hb := lexes_start_le hl
  rcases new_boxed (lo := 0) (hi := line.length) (input := ts) (by
    intro t ht
    have := hb t ht
    unfold Position.stop at this
    omega) h with k | ⟨rfl, _⟩
  · exact k.2
  · simp

/-- The place of the tree of an expression runs from its first to its last token. -/
theorem C16_tree_span (first last : PTok) (input : List PTok) (t : SyntaxTree)
    (ho : input.Pairwise fun a b => a.position.start + a.position.width ≤ b.position.start)
    (hf : input.head? = some first) (hl : input.getLast? = some last)
    (h : SyntaxTree.new input = .ok t) (hv : t.resultVar = none) :
    t.root.position.start = first.position.start ∧
      t.root.position.start + t.root.position.width =
        last.position.start + last.position.width := by
  have := (parse_iff input t).1 h
  rw [hv] at this
  cases this with
  | expression h =>
    obtain ⟨a, b, h1, h2, h3, h4⟩ := expr_spans h ho
    rw [hf] at h1; rw [hl] at h2
    simp at h1 h2
    subst h1 h2
    exact ⟨h3, h4⟩

/-- The same for the right side of an assignment. -/
theorem C16_tree_span_assignment (first last v a : PTok) (input : List PTok) (t : SyntaxTree)
    (ho : input.Pairwise fun a b => a.position.start + a.position.width ≤ b.position.start)
    (hf : input.head? = some first) (hl : input.getLast? = some last)
    (h : SyntaxTree.new (v :: a :: input) = .ok t) (hv : t.resultVar.isSome) :
    t.root.position.start = first.position.start ∧
      t.root.position.start + t.root.position.width =
        last.position.start + last.position.width := by
  have := (parse_iff _ t).1 h
  generalize hg : v :: a :: input = i at this
  generalize hrv : t.resultVar = rv at this
  cases this with
  | expression h => rw [hrv] at hv; simp at hv
  | assignment h =>
    simp at hg
    obtain ⟨_, _, rfl⟩ := hg
    obtain ⟨a, b, h1, h2, h3, h4⟩ := expr_spans h ho
    rw [hf] at h1; rw [hl] at h2
    simp at h1 h2
    subst h1 h2
    exact ⟨h3, h4⟩

/-- `1 2`: the error is reported between the two operands. -/
example : errorOf (SyntaxTree.new [⟨.number 1, ⟨0, 1⟩⟩, ⟨.number 2, ⟨3, 1⟩⟩]) =
    some ⟨.missingOperator, ⟨1, 2⟩⟩ := by decide +kernel

/-! ## C17 Redundant parentheses are harmless -/

theorem execute_of_root {m args id} {t t' : SyntaxTree} (hv : t.resultVar = t'.resultVar)
    (hr : t.root.execute m args = t'.root.execute m args) :
    t.execute m args id = t'.execute m args id := by
  unfold SyntaxTree.execute
  rw [hr, hv]

theorem C17_parens_expression (input : List PTok) (p q : Position) (t : SyntaxTree)
    (h : SyntaxTree.new input = .ok t) (hv : t.resultVar = none) :
    ∃ t', SyntaxTree.new (⟨.openParen, p⟩ :: (input ++ [⟨.closeParen, q⟩])) = .ok t' ∧
      ∀ m args id env, t'.execute m args id env = t.execute m args id env := by
  have := (parse_iff input t).1 h
  rw [hv] at this
  cases this with
  | expression h =>
    refine ⟨⟨none, .paren p q t.root⟩, parse_of_expr (.signed (.atom (.paren h))) (by omega), ?_⟩
    intro m args id env
    rw [execute_of_root (t := ⟨none, .paren p q t.root⟩) hv.symm rfl]

theorem C17_parens_assignment (x : Str) (vp ap p q : Position) (input : List PTok) (t : SyntaxTree)
    (h : SyntaxTree.new (⟨.variable x, vp⟩ :: ⟨.assign, ap⟩ :: input) = .ok t) :
    ∃ t', SyntaxTree.new (⟨.variable x, vp⟩ :: ⟨.assign, ap⟩ :: ⟨.openParen, p⟩ ::
        (input ++ [⟨.closeParen, q⟩])) = .ok t' ∧
      ∀ m args id env, t'.execute m args id env = t.execute m args id env := by
  have := (parse_iff _ t).1 h
  generalize hg : (⟨Token.variable x, vp⟩ : PTok) :: ⟨.assign, ap⟩ :: input = i at this
  generalize hrv : t.resultVar = rv at this
  cases this with
  | expression h =>
    subst hg
    exact absurd rfl (expr_noAssign h ⟨.assign, ap⟩ (by simp))
  | assignment h =>
    simp at hg
    obtain ⟨⟨rfl, rfl⟩, _, rfl⟩ := hg
    refine ⟨⟨some ⟨x, vp⟩, .paren p q t.root⟩, (parse_iff _ _).2
      (.assignment (expr_raise (.signed (.atom (.paren h))) (by omega))), ?_⟩
    intro m args id env
    rw [execute_of_root (t := ⟨_, .paren p q t.root⟩) hrv.symm rfl]

/-! ## C18 Assignment syntax -/

theorem C18_assignment_iff (input : List PTok) (t : SyntaxTree) (x : Str) (p : Position)
    (h : SyntaxTree.new input = .ok t) :
    t.resultVar = some ⟨x, p⟩ ↔ ∃ q us, input = ⟨.variable x, p⟩ :: ⟨.assign, q⟩ :: us := by
  have := (parse_iff _ t).1 h
  generalize hrv : t.resultVar = rv at this
  cases this with
  | expression h =>
    constructor
    · intro h'; cases h'
    · rintro ⟨q, us, rfl⟩
      exact absurd rfl (expr_noAssign h ⟨.assign, q⟩ (by simp))
  | assignment h =>
    constructor
    · intro h'; simp at h'; obtain ⟨rfl, rfl⟩ := h'; exact ⟨_, _, rfl⟩
    · rintro ⟨q, us, h'⟩
      simp at h'
      simp [h']

/-- An equals sign anywhere but in second place after a variable makes the input an error. -/
theorem C18_assign_elsewhere (pre post : List PTok) (q : Position)
    (hp : ¬ ∃ x p, pre = [⟨.variable x, p⟩]) :
    ∃ e, SyntaxTree.new (pre ++ ⟨.assign, q⟩ :: post) = .err e := by
  rcases C12_total (pre ++ ⟨.assign, q⟩ :: post) with ⟨t, ht⟩ | he
  · exfalso
    have := (parse_iff _ t).1 ht
    generalize hg : pre ++ ⟨.assign, q⟩ :: post = i at this
    generalize hrv : t.resultVar = rv at this
    cases this with
    | expression h =>
      subst hg
      exact expr_noAssign h ⟨.assign, q⟩ (by simp) rfl
    | @assignment x p q' ts n h =>
      match pre, hg with
      | [], hg => simp at hg
      | [a], hg =>
        simp at hg
        exact hp ⟨x, p, by rw [hg.1]⟩
      | a :: b :: l, hg =>
        simp at hg
        have : (⟨.assign, q⟩ : PTok) ∈ ts := by rw [← hg.2.2]; simp
        exact expr_noAssign h _ this rfl
  · exact he

/-- An assignment evaluates its right side, and when it succeeds yields the right side's value;
when the right side fails, it fails in the same way, with the same effects. -/
theorem C18_value (x : Str) (p q : Position) (us : List PTok) (t : SyntaxTree)
    (h : SyntaxTree.new (⟨.variable x, p⟩ :: ⟨.assign, q⟩ :: us) = .ok t) :
    ∃ t', SyntaxTree.new us = .ok t' ∧ ∀ m args id env,
      (∀ v env', t.execute m args id env = (.ok v, env') →
        ∃ env1, t'.execute m args id env = (.ok v, env1)) ∧
      (∀ f env', t'.execute m args id env = (.err f, env') →
        t.execute m args id env = (.err f, env')) ∧
      (∀ k env', t'.execute m args id env = (.panic k, env') →
        t.execute m args id env = (.panic k, env')) := by
  have hi := (parse_iff _ t).1 h
  generalize hg : (⟨Token.variable x, p⟩ : PTok) :: ⟨.assign, q⟩ :: us = i at hi
  generalize hrv : t.resultVar = rv at hi
  cases hi with
  | expression h =>
    subst hg
    exact absurd rfl (expr_noAssign h ⟨.assign, q⟩ (by simp))
  | assignment h =>
    simp at hg
    obtain ⟨⟨rfl, rfl⟩, _, rfl⟩ := hg
    refine ⟨⟨none, t.root⟩, parse_of_expr h (Nat.le_refl _), ?_⟩
    intro m args id env
    unfold SyntaxTree.execute St.andThen
    rcases hx : t.root.execute m args env with ⟨o, env1⟩
    cases o with
    | ok v =>
      refine ⟨?_, by simp, by simp⟩
      intro v' env' h'
      simp only [hrv] at h'
      refine ⟨env1, ?_⟩
      simp only
      cases hv : env1.vars with
      | none => rw [hv] at h'; simp at h'
      | some vars =>
        rw [hv] at h'
        simp only at h'
        split at h' <;> simp at h'
        rw [h'.1]
    | err e => simp
    | panic k => simp
    | diverge => simp

example : SyntaxTree.new [⟨.variable "$x".toList, ⟨0, 2⟩⟩, ⟨.assign, ⟨3, 1⟩⟩, ⟨.number 1, ⟨5, 1⟩⟩] =
      .ok ⟨some ⟨"$x".toList, ⟨0, 2⟩⟩, .number 1 ⟨5, 1⟩⟩ ∧
    (∃ e, SyntaxTree.new [⟨.number 1, ⟨5, 1⟩⟩, ⟨.assign, ⟨3, 1⟩⟩, ⟨.number 1, ⟨5, 1⟩⟩] = .err e) := by
  refine ⟨(parse_iff _ _).2 (.assignment (expr_raise (.signed (.atom .number)) (by omega))), ?_⟩
  exact C18_assign_elsewhere [_] _ _ (by simp)

end Bcalc
