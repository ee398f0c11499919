import Verif.Proof.ParserComplete

/-! # Positions of errors and of trees -/

namespace Bcalc
open Spec

/-- The position lies between two indices. -/
def Within (lo hi : Nat) (p : Position) : Prop := lo ≤ p.start ∧ p.start + p.width ≤ hi

theorem within_fromSpan {lo hi p q} (hp : Within lo hi p) (hq : Within lo hi q) :
    Within lo hi (Position.fromSpan p q) := by
  unfold Within Position.fromSpan at *
  simp only
  omega

theorem insertSorted_spec (x : Nat) (l : List Nat) :
    (∀ y, y ∈ insertSorted x l ↔ y = x ∨ y ∈ l) ∧ (insertSorted x l).length = l.length + 1 := by
  induction l with
  | nil => simp [insertSorted]
  | cons z zs ih =>
    unfold insertSorted
    split
    · simp
    · simp only [List.mem_cons, ih.1, List.length_cons, ih.2]
      exact ⟨fun y => by tauto, trivial⟩

theorem sortNat_spec (l : List Nat) :
    (∀ y, y ∈ sortNat l ↔ y ∈ l) ∧ (sortNat l).length = l.length := by
  induction l with
  | nil => simp [sortNat]
  | cons x xs ih =>
    simp only [sortNat, (insertSorted_spec x _).1, (insertSorted_spec x _).2, ih.1, ih.2,
      List.mem_cons, List.length_cons]
    simp

theorem within_fromBetween {lo hi p q} (hp : Within lo hi p) (hq : Within lo hi q) :
    Within lo hi (Position.fromBetween p q) := by
  unfold Within Position.fromBetween at *
  obtain ⟨h1, h2⟩ := sortNat_spec [p.start, p.start + p.width, q.start, q.start + q.width]
  generalize hs : sortNat [p.start, p.start + p.width, q.start, q.start + q.width] = s at h1 h2
  have hb : ∀ y ∈ s, lo ≤ y ∧ y ≤ hi := by
    intro y hy
    rw [h1] at hy
    simp at hy
    omega
  simp only [List.length_cons, List.length_nil] at h2
  simp only
  have k1 := hb (s.getD 1 0) (by grind)
  have k2 := hb (s.getD 2 0) (by grind)
  omega

/-- Position of an item. -/
def OOO.pos : OOO → Position
  | .operand n => n.position
  | .operator o => o.position

/-- All items lie between two indices. -/
def BoxItems (lo hi : Nat) (l : List OOO) : Prop := ∀ x ∈ l, Within lo hi x.pos

/-- All tokens lie between two indices. -/
def BoxToks (lo hi : Nat) (l : List PTok) : Prop := ∀ x ∈ l, Within lo hi x.position

theorem boxItems_cons {lo hi x l} : BoxItems lo hi (x :: l) ↔ Within lo hi x.pos ∧ BoxItems lo hi l := by
  simp [BoxItems]

theorem boxItems_append {lo hi l m} :
    BoxItems lo hi (l ++ m) ↔ BoxItems lo hi l ∧ BoxItems lo hi m := by
  simp [BoxItems, or_imp, forall_and]

theorem boxToks_cons {lo hi x l} :
    BoxToks lo hi (x :: l) ↔ Within lo hi x.position ∧ BoxToks lo hi l := by
  simp [BoxToks]

/-- Errors between two indices. -/
abbrev ErrIn (lo hi : Nat) : Positioned SyntaxError → Prop := fun e => Within lo hi e.position

theorem negatePass_box {lo hi} (n : Nat) : ∀ (rev temp : List OOO), rev.length ≤ n →
    BoxItems lo hi rev → BoxItems lo hi temp →
    (negatePass rev temp).Post (ErrIn lo hi) (BoxItems lo hi) := by
  induction n with
  | zero =>
    intro rev temp hl h1 h2
    have : rev = [] := List.length_eq_zero_iff.1 (by omega)
    subst this
    rw [negatePass_nil]; exact h2
  | succ n ih =>
    intro rev temp hl h1 h2
    match rev, hl with
    | [], _ => rw [negatePass_nil]; exact h2
    | [a], _ =>
      rw [negatePass_one]
      exact boxItems_cons.2 ⟨h1 a (by simp), h2⟩
    | a :: b :: l, hl =>
      by_cases ht : negTest a b l = true
      · obtain ⟨nd, p, rfl, rfl, hr⟩ := negTest_true ht
        rw [negatePass_merge _ _ _ _ hr]
        apply ih _ _ (by simp at hl ⊢; omega) _ h2
        rw [boxItems_cons, boxItems_cons] at h1
        exact boxItems_cons.2 ⟨within_fromSpan h1.2.1 h1.1, h1.2.2⟩
      · rw [negatePass_push _ _ _ _ (by simpa using ht)]
        rw [boxItems_cons] at h1
        exact ih _ _ (by simp at hl ⊢; omega) h1.2 (boxItems_cons.2 ⟨h1.1, h2⟩)

theorem precedencePass_box {lo hi} (S : List BinOp) (n : Nat) : ∀ (l temp : List OOO), l.length ≤ n →
    BoxItems lo hi l → BoxItems lo hi temp →
    (precedencePass S l temp).Post (ErrIn lo hi) (BoxItems lo hi) := by
  induction n with
  | zero =>
    intro l temp hl h1 h2
    have : l = [] := List.length_eq_zero_iff.1 (by omega)
    subst this
    rw [precedencePass_nil]; exact h2
  | succ n ih =>
    intro l temp hl h1 h2
    match l, hl with
    | [], _ => rw [precedencePass_nil]; exact h2
    | [a], _ => rw [precedencePass_one]; exact boxItems_append.2 ⟨h2, h1⟩
    | [a, b], _ => rw [precedencePass_two]; exact boxItems_append.2 ⟨h2, h1⟩
    | a :: b :: c :: l, hl =>
      by_cases ht : precTest S a b c = true
      · obtain ⟨x, o, y, rfl, rfl, rfl, ho⟩ := precTest_true ht
        rw [precedencePass_merge _ _ _ _ _ _ ho]
        apply ih _ _ (by simp at hl ⊢; omega) _ h2
        simp only [boxItems_cons] at h1 ⊢
        exact ⟨within_fromSpan h1.2.1 (within_fromSpan h1.1 h1.2.2.1), h1.2.2.2⟩
      · rw [precedencePass_push _ _ _ _ _ _ (by simpa using ht)]
        rw [boxItems_cons] at h1
        exact ih _ _ (by simp at hl ⊢; omega) h1.2
          (boxItems_append.2 ⟨h2, by simpa [BoxItems] using h1.1⟩)

/-- Optional node between two indices. -/
def BoxRoot (lo hi : Nat) (r : Option Node) : Prop := ∀ n, r = some n → Within lo hi n.position

theorem reduceItems_box {lo hi} {l : List OOO} (h : BoxItems lo hi l) :
    (reduceItems l).Post (ErrIn lo hi) (BoxRoot lo hi) := by
  unfold reduceItems
  refine (negatePass_box _ l.reverse [] (Nat.le_refl _) (by simpa [BoxItems] using h)
    (by simp [BoxItems])).bind ?_
  intro l1 h1
  have hred := precedencePasses_reduced l1
  have hp : (precedencePasses orderedBinaryOperators l1).Post (ErrIn lo hi) (BoxItems lo hi) := by
    simp only [precedencePasses, orderedBinaryOperators]
    have hpass := fun S l (h : BoxItems lo hi l) =>
      precedencePass_box S _ l [] (Nat.le_refl _) h (by simp [BoxItems])
    refine (hpass _ _ h1).bind fun l2 h2 => ?_
    refine (hpass _ _ h2).bind fun l3 h3 => ?_
    refine (hpass _ _ h3).bind fun l4 h4 => ?_
    exact (hpass _ _ h4).bind fun l5 h5 => h5
  obtain ⟨l2, h2, h3⟩ := hred
  rw [h2] at hp ⊢
  simp only [Outcome.bind_ok]
  have hb : BoxItems lo hi l2 := hp
  have ht := rootOf_total h3
  unfold rootOf at ht ⊢
  split
  · intro n hn; cases hn
  · intro n hn
    simp at hn; subst hn
    exact (boxItems_cons.1 hb).1
  · exact (boxItems_cons.1 (boxItems_cons.1 hb).2).1
  · exact (boxItems_cons.1 (boxItems_cons.1 hb).2).1
  · exact (boxItems_cons.1 hb).1
  · exact within_fromBetween (boxItems_cons.1 hb).1 (boxItems_cons.1 (boxItems_cons.1 hb).2).1
  · simp at ht

/-- End of an expression between two indices. -/
def BoxEnd (lo hi : Nat) : ExprEnd → Prop
  | .comma p => Within lo hi p
  | .closeParen p => Within lo hi p
  | .inputEmpty => True

/-- Everything the reading functions report lies between the indices that bound the tokens. -/
structure Boxed (lo hi f : Nat) : Prop where
  items : ∀ input, BoxToks lo hi input → (readItems f input).Post (ErrIn lo hi) fun (l, e, rest) =>
    BoxItems lo hi l ∧ BoxEnd lo hi e ∧ BoxToks lo hi rest
  expression : ∀ input, BoxToks lo hi input → (readExpression f input).Post (ErrIn lo hi)
    fun (root, e, rest) => BoxRoot lo hi root ∧ BoxEnd lo hi e ∧ BoxToks lo hi rest
  ooo : ∀ input, BoxToks lo hi input → (readOperandOrOperator f input).Post (ErrIn lo hi)
    fun (r, rest) => BoxToks lo hi rest ∧ match r with
    | .operand n => Within lo hi n.position
    | .operator o => Within lo hi o.position
    | .stop e => BoxEnd lo hi e
  operand : ∀ input, BoxToks lo hi input → (readOperand f input).Post (ErrIn lo hi)
    fun (r, rest) => BoxToks lo hi rest ∧ match r with
    | .operand n => Within lo hi n.position
    | .stop e => BoxEnd lo hi e
  unary : ∀ input op p, BoxToks lo hi input → Within lo hi p →
    (readUnaryNode f input op p).Post (ErrIn lo hi) fun (n, rest) =>
      BoxToks lo hi rest ∧ Within lo hi n.position
  paren : ∀ input p, BoxToks lo hi input → Within lo hi p →
    (readParenthesizedNode f input p).Post (ErrIn lo hi) fun (n, rest) =>
      BoxToks lo hi rest ∧ Within lo hi n.position
  function : ∀ input g p, BoxToks lo hi input → Within lo hi p →
    (readFunctionNode f input g p).Post (ErrIn lo hi) fun (n, rest) =>
      BoxToks lo hi rest ∧ Within lo hi n.position
  arguments : ∀ input pp mc, BoxToks lo hi input → Within lo hi pp →
    (∀ c, mc = some c → Within lo hi c) →
    (readArguments f input pp mc).Post (ErrIn lo hi) fun (_, q, rest) =>
      BoxToks lo hi rest ∧ Within lo hi q

theorem boxed (lo hi f : Nat) : Boxed lo hi f := by
  induction f with
  | zero =>
    constructor <;> intros <;>
      simp [readItems, readExpression, readOperandOrOperator, readOperand, readUnaryNode,
        readParenthesizedNode, readFunctionNode, readArguments, Outcome.Post]
  | succ f ih =>
    constructor
    · intro input hb
      unfold readItems
      refine (ih.ooo input hb).bind ?_
      rintro ⟨r, rest⟩ ⟨hr, h⟩
      cases r with
      | operand n =>
        refine (ih.items rest hr).bind ?_
        rintro ⟨l, e, rest'⟩ ⟨h1, h2, h3⟩
        exact ⟨boxItems_cons.2 ⟨h, h1⟩, h2, h3⟩
      | operator o =>
        refine (ih.items rest hr).bind ?_
        rintro ⟨l, e, rest'⟩ ⟨h1, h2, h3⟩
        exact ⟨boxItems_cons.2 ⟨h, h1⟩, h2, h3⟩
      | stop e => exact ⟨by simp [BoxItems], h, hr⟩
    · intro input hb
      unfold readExpression
      refine (ih.items input hb).bind ?_
      rintro ⟨l, e, rest⟩ ⟨h1, h2, h3⟩
      refine (reduceItems_box h1).bind ?_
      intro r hr
      exact ⟨hr, h2, h3⟩
    · intro input hb
      unfold readOperandOrOperator
      cases input with
      | nil => exact ⟨by simp [BoxToks], trivial⟩
      | cons t input =>
        obtain ⟨token, p⟩ := t
        obtain ⟨hp, hb'⟩ := boxToks_cons.1 hb
        cases token with
        | «variable» x => exact ⟨hb', hp⟩
        | assign => exact hp
        | comma => exact ⟨hb', hp⟩
        | number v => exact ⟨hb', hp⟩
        | openParen => exact (ih.paren input p hb' hp).bind fun _ h => h
        | closeParen => exact ⟨hb', hp⟩
        | binary o => exact ⟨hb', hp⟩
        | unary o => exact (ih.unary input o p hb' hp).bind fun _ h => h
        | function g => exact (ih.function input g p hb' hp).bind fun _ h => h
    · intro input hb
      unfold readOperand
      refine (ih.ooo input hb).bind ?_
      rintro ⟨r, rest⟩ ⟨hr, h⟩
      cases r with
      | operand n => exact ⟨hr, h⟩
      | operator o =>
        simp only
        split
        · exact (ih.unary rest .negate o.position hr h).bind fun _ h => h
        · exact h
      | stop e => exact ⟨hr, h⟩
    · intro input op p hb hp
      unfold readUnaryNode
      refine (ih.operand input hb).bind ?_
      rintro ⟨r, rest⟩ ⟨hr, h⟩
      cases r with
      | operand n => exact ⟨hr, within_fromSpan hp h⟩
      | stop e => exact hp
    · intro input p hb hp
      unfold readParenthesizedNode
      refine (ih.expression input hb).bind ?_
      rintro ⟨r, e, rest⟩ ⟨h1, h2, h3⟩
      cases r <;> cases e
      · exact h2
      · exact within_fromSpan hp h2
      · exact hp
      · exact h2
      · exact ⟨h3, within_fromSpan hp h2⟩
      · exact hp
    · intro input g p hb hp
      unfold readFunctionNode
      split
      · exact hp
      · rename_i pp input'
        obtain ⟨hpp, hb'⟩ := boxToks_cons.1 hb
        refine (ih.arguments input' pp none hb' hpp (by simp)).bind ?_
        rintro ⟨ns, q, rest⟩ ⟨h1, h2⟩
        exact ⟨h1, within_fromSpan hp (within_fromSpan hpp h2)⟩
      · refine (ih.operand _ hb).bind ?_
        rintro ⟨r, rest⟩ ⟨hr, h⟩
        cases r with
        | operand n => exact ⟨hr, within_fromSpan hp h⟩
        | stop e => exact hp
    · intro input pp mc hb hp hc
      unfold readArguments
      refine (ih.expression input hb).bind ?_
      rintro ⟨r, e, rest⟩ ⟨h1, h2, h3⟩
      cases r with
      | none =>
        cases mc with
        | some c => exact hc c rfl
        | none =>
          cases e with
          | comma q => exact h2
          | closeParen q => exact ⟨h3, h2⟩
          | inputEmpty => exact hp
      | some n =>
        cases e with
        | comma q =>
          refine (ih.arguments rest pp (some q) h3 hp (by rintro c ⟨⟩; exact h2)).bind ?_
          rintro ⟨ns, q', rest'⟩ ⟨h4, h5⟩
          exact ⟨h4, h5⟩
        | closeParen q => exact ⟨h3, h2⟩
        | inputEmpty => exact hp

/-! ## Spans of trees -/

/-- The node's place runs from the first token to the last. -/
def Spans (ts : List PTok) (p : Position) : Prop :=
  ∃ a b : PTok, ts.head? = some a ∧ ts.getLast? = some b ∧ p.start = a.position.start ∧
    p.start + p.width = b.position.start + b.position.width

/-- The tokens are in order and do not overlap. -/
def Ordered (ts : List PTok) : Prop :=
  ts.Pairwise fun a b => a.position.start + a.position.width ≤ b.position.start

theorem spans_bounds {ts p} (h : Spans ts p) (ho : Ordered ts) {t} (ht : t ∈ ts) :
    p.start ≤ t.position.start ∧ t.position.start + t.position.width ≤ p.start + p.width := by
  obtain ⟨a, b, h1, h2, h3, h4⟩ := h
  rw [h3] at h4 ⊢
  rw [h4]
  constructor
  · obtain ⟨us, rfl⟩ : ∃ us, ts = a :: us := by
      cases ts with
      | nil => simp at h1
      | cons x xs => simp at h1; exact ⟨xs, by rw [h1]⟩
    rcases List.mem_cons.1 ht with rfl | ht
    · exact Nat.le_refl _
    · have := (List.pairwise_cons.1 ho).1 t ht; omega
  · obtain ⟨us, rfl⟩ : ∃ us, ts = us ++ [b] := by
      rcases List.eq_nil_or_concat ts with rfl | ⟨us, x, rfl⟩
      · simp at h2
      · simp at h2; exact ⟨us, by simp [h2]⟩
    simp at ht
    rcases ht with ht | rfl
    · have := (List.pairwise_append.1 ho).2.2 t ht b (by simp); omega
    · exact Nat.le_refl _

theorem spans_ne_nil {ts p} (h : Spans ts p) : ts ≠ [] := by
  obtain ⟨a, _, h1, _⟩ := h
  rintro rfl; simp at h1

theorem spans_cons {t : PTok} {ts p} (h : Spans ts p) (ho : Ordered (t :: ts)) :
    Spans (t :: ts) (Position.fromSpan t.position p) := by
  have ho' := (List.pairwise_cons.1 ho).2
  have hne := spans_ne_nil h
  obtain ⟨a, b, h1, h2, h3, h4⟩ := h
  have ha : a ∈ ts := List.mem_of_mem_head? h1
  have hb : b ∈ ts := List.mem_of_mem_getLast? h2
  have hta := (List.pairwise_cons.1 ho).1 a ha
  have htb := (List.pairwise_cons.1 ho).1 b hb
  refine ⟨t, b, rfl, by rw [List.getLast?_cons_of_ne_nil hne]; exact h2, ?_, ?_⟩
  · unfold Position.fromSpan; simp only; omega
  · unfold Position.fromSpan; simp only; omega

theorem ordered_append {ts us : List PTok} (h : Ordered (ts ++ us)) :
    Ordered ts ∧ Ordered us ∧ ∀ a ∈ ts, ∀ b ∈ us,
      a.position.start + a.position.width ≤ b.position.start :=
  List.pairwise_append.1 h

/-- Joining two spans with tokens around and in between. -/
theorem spans_join {ts us : List PTok} {p q : Position} (h : Spans ts p) (h' : Spans us q)
    (mid : List PTok) (ho : Ordered (ts ++ (mid ++ us))) :
    Spans (ts ++ (mid ++ us)) (Position.fromSpan p q) := by
  obtain ⟨o1, o2, o3⟩ := ordered_append ho
  obtain ⟨o4, o5, o6⟩ := ordered_append o2
  have hne := spans_ne_nil h
  have hne' := spans_ne_nil h'
  obtain ⟨a, b, h1, h2, h3, h4⟩ := h
  obtain ⟨a', b', h1', h2', h3', h4'⟩ := h'
  have ha : a ∈ ts := List.mem_of_mem_head? h1
  have hb : b ∈ ts := List.mem_of_mem_getLast? h2
  have ha' : a' ∈ us := List.mem_of_mem_head? h1'
  have hb' : b' ∈ us := List.mem_of_mem_getLast? h2'
  have k1 := o3 a ha a' (by simp [ha'])
  have k2 := o3 b hb b' (by simp [hb'])
  refine ⟨a, b', ?_, ?_, ?_, ?_⟩
  · rw [List.head?_append, h1]; rfl
  · rw [List.getLast?_append, List.getLast?_append, h2']; rfl
  · unfold Position.fromSpan; simp only; omega
  · unfold Position.fromSpan; simp only; omega

theorem spans_inner {ts : List PTok} {p q : Position} (h : Spans ts p) (ho : Ordered ts)
    (hq : p.start ≤ q.start ∧ q.start + q.width ≤ p.start + p.width) :
    Spans ts (Position.fromSpan q p) := by
  obtain ⟨a, b, h1, h2, h3, h4⟩ := h
  refine ⟨a, b, h1, h2, ?_, ?_⟩
  · unfold Position.fromSpan; simp only; omega
  · unfold Position.fromSpan; simp only; omega

theorem spans_one (t : PTok) : Spans [t] t.position := ⟨t, t, rfl, rfl, rfl, rfl⟩

mutual
theorem expr_spans : ∀ {k ts n}, Expr k ts n → Ordered ts → Spans ts n.position
  | _, _, _, .signed h, ho => signed_spans h ho
  | _, _, _, .lift h, ho => expr_spans h ho
  | _, _, _, .op (ts := ts) (o := o) (p := p) (us := us) h1 _ h2, ho => by
    obtain ⟨o1, o2, o3⟩ := ordered_append ho
    have o4 := (List.pairwise_cons.1 o2).2
    have hj := spans_join (expr_spans h1 o1) (expr_spans h2 o4) [⟨.binary o, p⟩] ho
    exact spans_inner hj ho (spans_bounds hj ho (t := ⟨.binary o, p⟩) (by simp))
theorem signed_spans : ∀ {ts n}, Signed ts n → Ordered ts → Spans ts n.position
  | _, _, .minus h, ho => spans_cons (signed_spans h (List.pairwise_cons.1 ho).2) ho
  | _, _, .atom h, ho => atom_spans h ho
theorem atom_spans : ∀ {ts n}, Atom ts n → Ordered ts → Spans ts n.position
  | _, _, .number, _ => spans_one _
  | _, _, .variable, _ => spans_one _
  | _, _, .paren (ts := ts) (p := p) (q := q) h, ho =>
    spans_join (spans_one ⟨.openParen, p⟩) (spans_one ⟨.closeParen, q⟩) ts ho
  | _, _, .unary h, ho => spans_cons (signed_spans h (List.pairwise_cons.1 ho).2) ho
  | _, _, .functionBare h _, ho => spans_cons (signed_spans h (List.pairwise_cons.1 ho).2) ho
  | _, _, .functionEmpty (q := q) (r := r), ho =>
    spans_cons (spans_join (spans_one ⟨.openParen, q⟩) (spans_one ⟨.closeParen, r⟩) []
      (List.pairwise_cons.1 ho).2) ho
  | _, _, .function (q := q) (r := r) (ts := ts) _, ho =>
    spans_cons (spans_join (spans_one ⟨.openParen, q⟩) (spans_one ⟨.closeParen, r⟩) ts
      (List.pairwise_cons.1 ho).2) ho
end

end Bcalc
