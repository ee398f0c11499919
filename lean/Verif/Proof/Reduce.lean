import Verif.Spec.Grammar
import Mathlib.Data.List.Induction

/-! # The reduction of a flat list of operands and operators to a tree -/

namespace Bcalc
open Spec

/-- The tokens `ts` are those of the items, an operand item standing for tokens related by `S`. -/
inductive Flat (S : List PTok → Node → Prop) : List PTok → List OOO → Prop
  | nil : Flat S [] []
  | operator {o p ts l} : Flat S ts l → Flat S (⟨.binary o, p⟩ :: ts) (.operator ⟨o, p⟩ :: l)
  | operand {us n ts l} : S us n → Flat S ts l → Flat S (us ++ ts) (.operand n :: l)

theorem Flat.mono {S T : List PTok → Node → Prop} (h : ∀ us n, S us n → T us n) {ts l}
    (hf : Flat S ts l) : Flat T ts l := by
  induction hf with
  | nil => exact .nil
  | operator _ ih => exact .operator ih
  | operand h1 _ ih => exact .operand (h _ _ h1) ih

theorem Flat.append {S ts l us m} (h1 : Flat S ts l) (h2 : Flat S us m) :
    Flat S (ts ++ us) (l ++ m) := by
  induction h1 with
  | nil => exact h2
  | operator _ ih => exact .operator ih
  | operand h _ ih => rw [List.append_assoc]; exact .operand h ih

theorem flat_append_iff {S : List PTok → Node → Prop} {l m : List OOO} {ts} :
    Flat S ts (l ++ m) ↔ ∃ us vs, ts = us ++ vs ∧ Flat S us l ∧ Flat S vs m := by
  constructor
  · intro h
    induction l generalizing ts with
    | nil => exact ⟨[], ts, rfl, .nil, h⟩
    | cons a l ih =>
      cases h with
      | operator h =>
        obtain ⟨us, vs, rfl, h1, h2⟩ := ih h
        exact ⟨_ :: us, vs, rfl, .operator h1, h2⟩
      | operand h0 h =>
        obtain ⟨us, vs, rfl, h1, h2⟩ := ih h
        exact ⟨_ ++ us, vs, by rw [List.append_assoc], .operand h0 h1, h2⟩
  · rintro ⟨us, vs, rfl, h1, h2⟩; exact h1.append h2

theorem flat_operand_iff {S : List PTok → Node → Prop} {ts n l} :
    Flat S ts (.operand n :: l) ↔ ∃ us vs, ts = us ++ vs ∧ S us n ∧ Flat S vs l := by
  constructor
  · intro h; cases h with | operand h1 h2 => exact ⟨_, _, rfl, h1, h2⟩
  · rintro ⟨us, vs, rfl, h1, h2⟩; exact .operand h1 h2

theorem flat_operator_iff {S : List PTok → Node → Prop} {ts o l} :
    Flat S ts (.operator o :: l) ↔
      ∃ vs, ts = ⟨.binary o.value, o.position⟩ :: vs ∧ Flat S vs l := by
  constructor
  · intro h; cases h with | operator h2 => exact ⟨_, rfl, h2⟩
  · rintro ⟨vs, rfl, h2⟩; exact .operator h2

/-! ## Unfolding lemmas -/

theorem negatePass_nil (temp) : negatePass [] temp = .ok temp := by
  unfold negatePass; rfl

theorem negatePass_one (o temp) : negatePass [o] temp = .ok (o :: temp) := by
  unfold negatePass; simp [negatePass_nil]

/-- The test of the negation pass. -/
def negTest (ooo prev : OOO) (ooos' : List OOO) : Bool :=
  ooo.isOperand && prev.matchesOperator .subtract &&
    (match ooos' with | [] => true | prevPrev :: _ => prevPrev.isOperator)

theorem negTest_true {ooo prev ooos'} (h : negTest ooo prev ooos' = true) :
    ∃ n p, ooo = .operand n ∧ prev = .operator ⟨.subtract, p⟩ ∧
      (ooos' = [] ∨ ∃ o l, ooos' = .operator o :: l) := by
  unfold negTest at h
  simp only [Bool.and_eq_true] at h
  obtain ⟨⟨h1, h2⟩, h3⟩ := h
  cases ooo with
  | operator _ => simp [OOO.isOperand] at h1
  | operand n =>
    cases prev with
    | operand _ => simp [OOO.matchesOperator] at h2
    | operator o =>
      obtain ⟨v, p⟩ := o
      simp [OOO.matchesOperator] at h2
      subst h2
      refine ⟨n, p, rfl, rfl, ?_⟩
      cases ooos' with
      | nil => exact .inl rfl
      | cons a l =>
        right
        cases a with
        | operand _ => simp [OOO.isOperator] at h3
        | operator o => exact ⟨o, l, rfl⟩

theorem negatePass_merge (n p ooos' temp)
    (h : ooos' = [] ∨ ∃ o l, ooos' = OOO.operator o :: l) :
    negatePass (.operand n :: .operator ⟨.subtract, p⟩ :: ooos') temp =
      negatePass (.operand (.unary .negate p n) :: ooos') temp := by
  conv_lhs => unfold negatePass
  rcases h with rfl | ⟨o, l, rfl⟩ <;>
    simp [OOO.isOperand, OOO.matchesOperator, OOO.isOperator, OOO.unwrapOperator,
      OOO.unwrapOperand]

theorem negatePass_push (ooo prev ooos' temp) (h : negTest ooo prev ooos' = false) :
    negatePass (ooo :: prev :: ooos') temp = negatePass (prev :: ooos') (ooo :: temp) := by
  conv_lhs => unfold negatePass
  change (if negTest ooo prev ooos' = true then _ else _) = _
  rw [h]; rfl

/-- The negation pass succeeds on any list and keeps the tokens. -/
theorem negatePass_flat (n : Nat) : ∀ (rev temp : List OOO) (us vs : List PTok), rev.length ≤ n →
    Flat Signed us rev.reverse → Flat Signed vs temp →
    ∃ out, negatePass rev temp = .ok out ∧ Flat Signed (us ++ vs) out := by
  induction n with
  | zero =>
    intro rev temp us vs hl h1 h2
    have : rev = [] := List.length_eq_zero_iff.1 (by omega)
    subst this
    cases h1
    exact ⟨temp, negatePass_nil _, h2⟩
  | succ n ih =>
    intro rev temp us vs hl h1 h2
    cases rev with
    | nil => cases h1; exact ⟨temp, negatePass_nil _, h2⟩
    | cons ooo rev =>
      cases rev with
      | nil =>
        refine ⟨ooo :: temp, negatePass_one _ _, ?_⟩
        simp at h1
        exact h1.append h2 (m := temp) (l := [ooo])
      | cons prev rev' =>
        by_cases ht : negTest ooo prev rev' = true
        · obtain ⟨nd, p, rfl, rfl, hr⟩ := negTest_true ht
          rw [negatePass_merge _ _ _ _ hr]
          apply ih _ _ _ _ (by simp at hl ⊢; omega) _ h2
          simp only [List.reverse_cons, List.append_assoc, List.singleton_append] at h1 ⊢
          rw [flat_append_iff] at h1 ⊢
          obtain ⟨u1, u2, rfl, k1, k2⟩ := h1
          refine ⟨u1, u2, rfl, k1, ?_⟩
          rw [flat_operator_iff] at k2
          obtain ⟨u3, rfl, k3⟩ := k2
          rw [flat_operand_iff] at k3
          obtain ⟨u4, u5, rfl, k4, k5⟩ := k3
          exact .operand (us := _ :: u4) (.minus k4) k5
        · have ht : negTest ooo prev rev' = false := by simpa using ht
          rw [negatePass_push _ _ _ _ ht]
          simp only [List.reverse_cons, List.append_assoc] at h1
          rw [← List.append_assoc, flat_append_iff] at h1
          obtain ⟨u1, u2, rfl, k1, k2⟩ := h1
          rw [List.append_assoc]
          apply ih _ _ _ _ (by simp at hl ⊢; omega)
          · simpa using k1
          · exact k2.append h2 (l := [ooo])

theorem precedencePass_nil (S temp) : precedencePass S [] temp = .ok temp := by
  unfold precedencePass; rfl

theorem precedencePass_one (S o temp) : precedencePass S [o] temp = .ok (temp ++ [o]) := by
  unfold precedencePass; simp [precedencePass_nil]

theorem precedencePass_two (S o o' temp) :
    precedencePass S [o, o'] temp = .ok (temp ++ [o, o']) := by
  unfold precedencePass; simp [precedencePass_one]

/-- The test of a precedence pass. -/
def precTest (S : List BinOp) (a b c : OOO) : Bool :=
  a.isOperand && b.inOperatorSlice S && c.isOperand

theorem precTest_true {S a b c} (h : precTest S a b c = true) :
    ∃ n o m, a = .operand n ∧ b = .operator o ∧ c = .operand m ∧ o.value ∈ S := by
  unfold precTest at h
  simp only [Bool.and_eq_true] at h
  cases a <;> cases b <;> cases c <;>
    simp [OOO.isOperand, OOO.inOperatorSlice] at h
  exact ⟨_, _, _, rfl, rfl, rfl, h⟩

theorem precedencePass_merge (S n o m l temp) (h : o.value ∈ S) :
    precedencePass S (.operand n :: .operator o :: .operand m :: l) temp =
      precedencePass S (.operand (.binary o.value o.position n m) :: l) temp := by
  conv_lhs => unfold precedencePass
  simp [OOO.isOperand, OOO.inOperatorSlice, OOO.unwrapOperator, OOO.unwrapOperand, h]

theorem precedencePass_push (S a b c l temp) (h : precTest S a b c = false) :
    precedencePass S (a :: b :: c :: l) temp =
      precedencePass S (b :: c :: l) (temp ++ [a]) := by
  conv_lhs => unfold precedencePass
  unfold precTest at h
  simp only [h]
  rfl

/-- The shape of an item: which operator it is, if any. -/
def OOO.shape : OOO → Option BinOp
  | .operand _ => none
  | .operator o => some o.value

/-- No operand, operator of `S`, operand in a row. -/
def Reduced (S : BinOp → Prop) (l : List (Option BinOp)) : Prop :=
  ∀ i o, l[i]? = some none → l[i + 1]? = some (some o) → l[i + 2]? = some none → ¬ S o

theorem reduced_push {S : BinOp → Prop} {temp : List (Option BinOp)} {a b c : Option BinOp}
    (h : Reduced S (temp ++ [a, b]))
    (ht : ∀ o, a = none → b = some o → c = none → ¬ S o) :
    Reduced S (temp ++ [a, b, c]) := by
  intro i o h1 h2 h3
  by_cases hi : i < temp.length
  · exact h i o (by grind) (by grind) (by grind)
  · exact ht o (by grind) (by grind) (by grind)

theorem reduced_short {S : BinOp → Prop} {l : List (Option BinOp)} (h : l.length ≤ 2) :
    Reduced S l := by
  intro i o h1 h2 h3; grind

/-- Merging into an operand creates no new triple. -/
theorem reduced_merge_head {S : BinOp → Prop} {temp : List (Option BinOp)} {b x : Option BinOp}
    (h : Reduced S (temp ++ [none, b])) : Reduced S (temp ++ [none, x]) := by
  intro i o h1 h2 h3
  by_cases hi : i + 1 < temp.length
  · exact h i o (by grind) (by grind) (by grind)
  · exfalso; grind

theorem reduced_prefix {S : BinOp → Prop} {l m : List (Option BinOp)}
    (h : Reduced S (l ++ m)) : Reduced S l := by
  intro i o h1 h2 h3
  exact h i o (by grind) (by grind) (by grind)

theorem reduced_merge {S : BinOp → Prop} {temp l : List (Option BinOp)} {b : Option BinOp}
    (h : Reduced S (temp ++ none :: b :: none :: l)) : Reduced S (temp ++ none :: l) := by
  intro i o h1 h2 h3
  by_cases hi : i + 1 < temp.length
  · exact h i o (by grind) (by grind) (by grind)
  · by_cases hi2 : i < temp.length
    · exfalso; grind
    · exact h (i + 2) o (by grind) (by grind) (by grind)

/-- Nothing is said about an operand item except that it is one. -/
theorem shape_operand {a : OOO} : a.shape = none ↔ ∃ n, a = .operand n := by
  cases a <;> simp [OOO.shape]

theorem shape_operator {a : OOO} {o : BinOp} :
    a.shape = some o ↔ ∃ p, a = .operator ⟨o, p⟩ := by
  cases a with
  | operand _ => simp [OOO.shape]
  | operator x => cases x; simp [OOO.shape, eq_comm]

theorem precTest_false {S : List BinOp} {a b c : OOO} (h : precTest S a b c = false) :
    ∀ o, a.shape = none → b.shape = some o → c.shape = none → ¬ o ∈ S := by
  intro o h1 h2 h3 h4
  obtain ⟨n, rfl⟩ := shape_operand.1 h1
  obtain ⟨p, rfl⟩ := shape_operator.1 h2
  obtain ⟨m, rfl⟩ := shape_operand.1 h3
  simp [precTest, OOO.isOperand, OOO.inOperatorSlice, h4] at h

/-- A precedence pass succeeds on any list; it leaves no operator of its level between operands, and
creates none of another. -/
theorem precedencePass_reduced (S : List BinOp) (n : Nat) : ∀ (l temp : List OOO), l.length ≤ n →
    ∃ out, precedencePass S l temp = .ok out ∧
      (Reduced (· ∈ S) ((temp ++ l.take 2).map OOO.shape) →
        Reduced (· ∈ S) (out.map OOO.shape)) ∧
      ∀ T, Reduced T ((temp ++ l).map OOO.shape) → Reduced T (out.map OOO.shape) := by
  induction n with
  | zero =>
    intro l temp hl
    have : l = [] := List.length_eq_zero_iff.1 (by omega)
    subst this
    exact ⟨temp, precedencePass_nil _ _, by simp, by simp⟩
  | succ n ih =>
    intro l temp hl
    match l, hl with
    | [], _ => exact ⟨temp, precedencePass_nil _ _, by simp, by simp⟩
    | [a], _ => exact ⟨_, precedencePass_one _ _ _, by simp, by simp⟩
    | [a, b], _ => exact ⟨_, precedencePass_two _ _ _ _, by simp, by simp⟩
    | a :: b :: c :: l, hl =>
      by_cases ht : precTest S a b c = true
      · obtain ⟨x, o, y, rfl, rfl, rfl, ho⟩ := precTest_true ht
        rw [precedencePass_merge _ _ _ _ _ _ ho]
        obtain ⟨out, h1, h2, h3⟩ := ih (.operand (.binary o.value o.position x y) :: l) temp
          (by simp at hl ⊢; omega)
        refine ⟨out, h1, ?_, ?_⟩
        · intro h
          apply h2
          simp only [List.take_succ_cons, List.take_zero, List.map_append, List.map_cons,
            List.map_nil, OOO.shape] at h ⊢
          cases l with
          | nil => simpa using reduced_prefix (m := [some o.value]) (by simpa using h)
          | cons z zs => simpa using reduced_merge_head h
        · intro T h
          apply h3
          simp only [List.map_append, List.map_cons, OOO.shape] at h ⊢
          exact reduced_merge h
      · have ht : precTest S a b c = false := by simpa using ht
        rw [precedencePass_push _ _ _ _ _ _ ht]
        obtain ⟨out, h1, h2, h3⟩ := ih (b :: c :: l) (temp ++ [a]) (by simp at hl ⊢; omega)
        refine ⟨out, h1, ?_, ?_⟩
        · intro h
          apply h2
          have := reduced_push (c := c.shape) (temp := temp.map OOO.shape) (a := a.shape)
            (b := b.shape) (S := (· ∈ S)) (by simpa using h) (precTest_false ht)
          simpa using this
        · intro T h
          apply h3
          simpa using h

/-- All passes together succeed; afterwards no operator at all stands between two operands. -/
theorem precedencePasses_reduced (l : List OOO) :
    ∃ out, precedencePasses orderedBinaryOperators l = .ok out ∧
      Reduced (fun _ => True) (out.map OOO.shape) := by
  have step : ∀ (S : List BinOp) (l : List OOO), ∃ out, precedencePass S l [] = .ok out ∧
      Reduced (· ∈ S) (out.map OOO.shape) ∧
      ∀ T, Reduced T (l.map OOO.shape) → Reduced T (out.map OOO.shape) := by
    intro S l
    obtain ⟨out, h1, h2, h3⟩ := precedencePass_reduced S l.length l [] (Nat.le_refl _)
    exact ⟨out, h1, h2 (reduced_short (by simp)), by simpa using h3⟩
  obtain ⟨l1, a1, b1, c1⟩ := step [.exponent] l
  obtain ⟨l2, a2, b2, c2⟩ := step [.modulus] l1
  obtain ⟨l3, a3, b3, c3⟩ := step [.multiply, .divide] l2
  obtain ⟨l4, a4, b4, c4⟩ := step [.add, .subtract] l3
  refine ⟨l4, by simp [precedencePasses, orderedBinaryOperators, a1, a2, a3, a4], ?_⟩
  have d1 := c4 _ (c3 _ (c2 _ b1))
  have d2 := c4 _ (c3 _ b2)
  have d3 := c4 _ b3
  intro i o h1 h2 h3 _
  cases o
  · exact b4 i _ h1 h2 h3 (by simp)
  · exact b4 i _ h1 h2 h3 (by simp)
  · exact d3 i _ h1 h2 h3 (by simp)
  · exact d3 i _ h1 h2 h3 (by simp)
  · exact d2 i _ h1 h2 h3 (by simp)
  · exact d1 i _ h1 h2 h3 (by simp)

theorem rootOf_total {l : List OOO} (h : Reduced (fun _ => True) (l.map OOO.shape)) :
    (∃ r, rootOf l = .ok r) ∨ (∃ e, rootOf l = .err e) := by
  unfold rootOf
  split
  case h_7 =>
    exact absurd trivial (h 0 _ rfl rfl rfl)
  all_goals simp

/-! ## The passes keep the tokens -/

theorem precedencePass_flat {S : List BinOp} {k : Nat} (hS : ∀ o ∈ S, level o = k + 1) (n : Nat) :
    ∀ (l temp out : List OOO) (us vs : List PTok), l.length ≤ n →
      Flat (Expr (k + 1)) us (temp ++ l.take 1) → Flat (Expr k) vs (l.drop 1) →
      precedencePass S l temp = .ok out → Flat (Expr (k + 1)) (us ++ vs) out := by
  induction n with
  | zero =>
    intro l temp out us vs hl h1 h2 h
    have : l = [] := List.length_eq_zero_iff.1 (by omega)
    subst this
    rw [precedencePass_nil] at h
    cases h; cases h2
    simpa using h1
  | succ n ih =>
    intro l temp out us vs hl h1 h2 h
    match l, hl with
    | [], _ =>
      rw [precedencePass_nil] at h
      cases h; cases h2
      simpa using h1
    | [a], _ =>
      rw [precedencePass_one] at h
      cases h; cases h2
      simpa using h1
    | [a, b], _ =>
      rw [precedencePass_two] at h
      cases h
      have := h1.append (h2.mono fun _ _ => .lift)
      simpa using this
    | a :: b :: c :: l, hl =>
      simp only [List.take_succ_cons, List.take_zero, List.drop_succ_cons, List.drop_zero] at h1 h2
      by_cases ht : precTest S a b c = true
      · obtain ⟨x, o, y, rfl, rfl, rfl, ho⟩ := precTest_true ht
        rw [precedencePass_merge _ _ _ _ _ _ ho] at h
        rw [flat_operator_iff] at h2
        obtain ⟨v1, rfl, h2⟩ := h2
        rw [flat_operand_iff] at h2
        obtain ⟨v2, v3, rfl, h2, h3⟩ := h2
        rw [flat_append_iff] at h1
        obtain ⟨u1, u2, rfl, h4, h5⟩ := h1
        rw [flat_operand_iff] at h5
        obtain ⟨u3, u4, rfl, h5, h6⟩ := h5
        cases h6
        have := ih _ _ _ (u1 ++ (u3 ++ ⟨.binary o.value, o.position⟩ :: v2)) v3
          (by simp at hl ⊢; omega) ?_ (by simpa using h3) h
        · simpa using this
        · simp only [List.take_succ_cons, List.take_zero]
          apply h4.append
          have := Flat.operand (ts := []) (Expr.op (p := o.position) h5 (hS _ ho) h2) .nil
          simpa using this
      · have ht : precTest S a b c = false := by simpa using ht
        rw [precedencePass_push _ _ _ _ _ _ ht] at h
        rw [← List.singleton_append (l := c :: l), flat_append_iff] at h2
        obtain ⟨v1, v2, rfl, h2, h3⟩ := h2
        rw [← List.append_assoc]
        apply ih _ _ _ (us ++ v1) v2 (by simp at hl ⊢; omega) ?_ (by simpa using h3) h
        simp only [List.take_succ_cons, List.take_zero]
        exact h1.append (h2.mono fun _ _ => .lift)

theorem precedencePass_flat' {S : List BinOp} {k : Nat} (hS : ∀ o ∈ S, level o = k + 1)
    {l out : List OOO} {ts : List PTok} (h1 : Flat (Expr k) ts l)
    (h : precedencePass S l [] = .ok out) : Flat (Expr (k + 1)) ts out := by
  cases l with
  | nil =>
    rw [precedencePass_nil] at h; cases h; cases h1; exact .nil
  | cons a l =>
    rw [← List.singleton_append, flat_append_iff] at h1
    obtain ⟨us, vs, rfl, h2, h3⟩ := h1
    exact precedencePass_flat hS (a :: l).length (a :: l) [] out us vs (Nat.le_refl _)
      (by simpa using h2.mono fun _ _ => .lift) (by simpa using h3) h

/-- Reduction never panics. -/
theorem reduceItems_total (l : List OOO) :
    (∃ r, reduceItems l = .ok r) ∨ (∃ e, reduceItems l = .err e) := by
  -- give the items arbitrary tokens, so that `negatePass_flat` applies
  have hneg : ∀ (n : Nat) (rev temp : List OOO), rev.length ≤ n →
      ∃ out, negatePass rev temp = .ok out := by
    intro n
    induction n with
    | zero =>
      intro rev temp hl
      have : rev = [] := List.length_eq_zero_iff.1 (by omega)
      subst this
      exact ⟨temp, negatePass_nil _⟩
    | succ n ih =>
      intro rev temp hl
      match rev, hl with
      | [], _ => exact ⟨temp, negatePass_nil _⟩
      | [a], _ => exact ⟨_, negatePass_one _ _⟩
      | a :: b :: l, hl =>
        by_cases ht : negTest a b l = true
        · obtain ⟨nd, p, rfl, rfl, hr⟩ := negTest_true ht
          rw [negatePass_merge _ _ _ _ hr]
          exact ih _ _ (by simp at hl ⊢; omega)
        · rw [negatePass_push _ _ _ _ (by simpa using ht)]
          exact ih _ _ (by simp at hl ⊢; omega)
  obtain ⟨l1, h1⟩ := hneg _ l.reverse [] (Nat.le_refl _)
  obtain ⟨l2, h2, h3⟩ := precedencePasses_reduced l1
  unfold reduceItems
  rw [h1]
  simp only [Outcome.bind_ok]
  rw [h2]
  simp only [Outcome.bind_ok]
  exact rootOf_total h3

theorem rootOf_ok {l : List OOO} {r} (h : rootOf l = .ok r) :
    (l = [] ∧ r = none) ∨ ∃ n, l = [.operand n] ∧ r = some n := by
  unfold rootOf at h
  split at h <;> simp at h
  · exact .inl ⟨rfl, h.symm⟩
  · exact .inr ⟨_, rfl, h.symm⟩

theorem flat_nil {S : List PTok → Node → Prop} {ts} : Flat S ts [] ↔ ts = [] := by
  constructor
  · intro h; cases h; rfl
  · rintro rfl; exact .nil

/-- Reduction is sound: the tree built derives from the tokens of the items. -/
theorem reduceItems_sound {l : List OOO} {ts : List PTok} (hl : Flat Atom ts l) {r}
    (h : reduceItems l = .ok r) : (r = none ∧ ts = []) ∨ ∃ n, r = some n ∧ Expr 4 ts n := by
  obtain ⟨l1, h1, f1⟩ := negatePass_flat l.reverse.length l.reverse [] ts [] (Nat.le_refl _)
    (by simpa using hl.mono fun _ _ => .atom) .nil
  simp only [List.append_nil] at f1
  have f1' : Flat (Expr 0) ts l1 := f1.mono fun _ _ => .signed
  unfold reduceItems at h
  rw [h1] at h
  simp only [Outcome.bind_ok] at h
  unfold orderedBinaryOperators at h
  simp only [precedencePasses] at h
  obtain ⟨l2, h2⟩ : ∃ out, precedencePass [.exponent] l1 [] = .ok out :=
    (precedencePass_reduced _ _ l1 [] (Nat.le_refl _)).imp fun _ h => h.1
  obtain ⟨l3, h3⟩ : ∃ out, precedencePass [.modulus] l2 [] = .ok out :=
    (precedencePass_reduced _ _ l2 [] (Nat.le_refl _)).imp fun _ h => h.1
  obtain ⟨l4, h4⟩ : ∃ out, precedencePass [.multiply, .divide] l3 [] = .ok out :=
    (precedencePass_reduced _ _ l3 [] (Nat.le_refl _)).imp fun _ h => h.1
  obtain ⟨l5, h5⟩ : ∃ out, precedencePass [.add, .subtract] l4 [] = .ok out :=
    (precedencePass_reduced _ _ l4 [] (Nat.le_refl _)).imp fun _ h => h.1
  have f2 := precedencePass_flat' (k := 0) (by simp [level]) f1' h2
  have f3 := precedencePass_flat' (k := 1) (by simp [level]) f2 h3
  have f4 := precedencePass_flat' (k := 2) (by simp [level]) f3 h4
  have f5 := precedencePass_flat' (k := 3) (by simp [level]) f4 h5
  simp only [h2, h3, h4, h5, Outcome.bind_ok] at h
  rcases rootOf_ok h with ⟨rfl, rfl⟩ | ⟨n, rfl, rfl⟩
  · left
    exact ⟨rfl, flat_nil.1 f5⟩
  · right
    rw [flat_operand_iff] at f5
    obtain ⟨us, vs, rfl, h6, h7⟩ := f5
    cases h7
    exact ⟨n, rfl, by simpa using h6⟩

/-! ## Completeness of the reduction -/

/-- A chain: an operand followed by operators with operands. -/
abbrev Chain := Node × List (Positioned BinOp × Node)

/-- The items of a chain. -/
def chainItems (c : Chain) : List OOO :=
  .operand c.1 :: c.2.flatMap fun x => [.operator x.1, .operand x.2]

/-- The effect of a precedence pass on a chain. -/
def passChain (S : List BinOp) : Node → List (Positioned BinOp × Node) → Chain
  | h, [] => (h, [])
  | h, (o, a) :: t =>
    if o.value ∈ S then passChain S (.binary o.value o.position h a) t
    else (h, (o, (passChain S a t).1) :: (passChain S a t).2)

theorem precedencePass_chain (S : List BinOp) (t : List (Positioned BinOp × Node)) :
    ∀ (h : Node) (temp : List OOO), precedencePass S (chainItems (h, t)) temp =
      .ok (temp ++ chainItems (passChain S h t)) := by
  induction t with
  | nil => intro h temp; simp [chainItems, passChain, precedencePass_one]
  | cons x t ih =>
    intro h temp
    obtain ⟨o, a⟩ := x
    have e : chainItems (h, (o, a) :: t) = .operand h :: .operator o :: chainItems (a, t) := rfl
    rw [e]
    have e2 : ∀ h', chainItems (h', t) = .operand h' :: (chainItems (a, t)).tail := fun h' => rfl
    rw [e2 a]
    by_cases ho : o.value ∈ S
    · rw [precedencePass_merge _ _ _ _ _ _ ho, ← e2, ih, passChain, if_pos ho]
    · have ht : precTest S (.operand h) (.operator o) (.operand a) = false := by
        simp [precTest, OOO.isOperand, OOO.inOperatorSlice, ho]
      rw [precedencePass_push _ _ _ _ _ _ ht]
      have ht' : ∀ c l temp, precedencePass S (.operator o :: .operand c :: l) temp =
          precedencePass S (.operand c :: l) (temp ++ [.operator o]) := by
        intro c l temp
        cases l with
        | nil => rw [precedencePass_two, precedencePass_one]; simp
        | cons y l => rw [precedencePass_push]; simp [precTest, OOO.isOperand]
      rw [ht', ← e2, ih, passChain, if_neg ho]
      simp [chainItems]

theorem passChain_append {S : List BinOp} {o : Positioned BinOp} (ho : o.value ∉ S)
    (t : List (Positioned BinOp × Node)) (h2 : Node) (t2 : List (Positioned BinOp × Node)) :
    ∀ h, passChain S h (t ++ (o, h2) :: t2) =
      ((passChain S h t).1, (passChain S h t).2 ++ (o, (passChain S h2 t2).1) ::
        (passChain S h2 t2).2) := by
  induction t with
  | nil => intro h; simp [passChain, ho]
  | cons x t ih =>
    intro h
    obtain ⟨o', a⟩ := x
    by_cases ho' : o'.value ∈ S
    · simp [passChain, ho', ih]
    · simp [passChain, ho', ih]

theorem passChain_last {S : List BinOp} {o : Positioned BinOp} (ho : o.value ∈ S) (b : Node)
    (t : List (Positioned BinOp × Node)) :
    ∀ h n, passChain S h t = (n, []) →
      passChain S h (t ++ [(o, b)]) = (.binary o.value o.position n b, []) := by
  induction t with
  | nil => intro h n e; simp [passChain] at e; simp [passChain, ho, e]
  | cons x t ih =>
    intro h n e
    obtain ⟨o', a⟩ := x
    by_cases ho' : o'.value ∈ S
    · simp only [passChain, ho', if_true, List.cons_append] at e ⊢
      exact ih _ _ e
    · simp [passChain, ho'] at e

/-- The operators of a level. -/
def levelOps : Nat → List BinOp
  | 1 => [.exponent]
  | 2 => [.modulus]
  | 3 => [.multiply, .divide]
  | 4 => [.add, .subtract]
  | _ => []

theorem mem_levelOps {o : BinOp} {k : Nat} : o ∈ levelOps k ↔ level o = k := by
  unfold levelOps
  split <;> cases o <;> simp [level, eq_comm] <;> assumption

/-- The passes of the levels 1..k. -/
def passesTo : Nat → Chain → Chain
  | 0, c => c
  | k + 1, c => passChain (levelOps (k + 1)) (passesTo k c).1 (passesTo k c).2

theorem passesTo_append {k : Nat} {o : Positioned BinOp} (ho : k < level o.value) (c : Chain)
    (c2 : Chain) :
    passesTo k (c.1, c.2 ++ (o, c2.1) :: c2.2) =
      ((passesTo k c).1, (passesTo k c).2 ++ (o, (passesTo k c2).1) :: (passesTo k c2).2) := by
  induction k with
  | zero => rfl
  | succ k ih =>
    have h1 : o.value ∉ levelOps (k + 1) := by rw [mem_levelOps]; omega
    simp only [passesTo]
    rw [ih (by omega)]
    simp only
    rw [passChain_append h1]

/-- A raw chain has minus signs in front of each operand. -/
structure RawOperand where
  minuses : List Position
  node : Node

/-- The items of an operand with minus signs. -/
def RawOperand.items (r : RawOperand) : List OOO :=
  r.minuses.map (fun p => .operator ⟨.subtract, p⟩) ++ [.operand r.node]

/-- The operand with its minus signs applied, innermost last. -/
def RawOperand.negated (r : RawOperand) : Node :=
  r.minuses.foldr (fun p n => .unary .negate p n) r.node

/-- A raw chain. -/
abbrev RawChain := RawOperand × List (Positioned BinOp × RawOperand)

def RawChain.items (c : RawChain) : List OOO :=
  c.1.items ++ c.2.flatMap fun x => .operator x.1 :: x.2.items

def RawChain.negated (c : RawChain) : Chain :=
  (c.1.negated, c.2.map fun x => (x.1, x.2.negated))

theorem negatePass_operand (ms : List Position) (nd : Node) (R temp : List OOO)
    (hR : R = [] ∨ ∃ o b R', R = OOO.operator o :: .operand b :: R') :
    negatePass ((RawOperand.mk ms nd).items.reverse ++ R) temp =
      negatePass (.operand (RawOperand.mk ms nd).negated :: R) temp := by
  simp only [RawOperand.items, RawOperand.negated]
  induction ms using List.reverseRecOn generalizing nd with
  | nil => simp
  | append_singleton ms p ih =>
    simp only [List.map_append, List.map_cons, List.map_nil, List.append_assoc,
      List.reverse_append, List.reverse_cons, List.reverse_nil, List.nil_append,
      List.cons_append, List.foldr_append, List.foldr_cons, List.foldr_nil] at ih ⊢
    rw [negatePass_merge]
    · exact ih _
    · rcases List.eq_nil_or_concat ms with rfl | ⟨ms', q, rfl⟩
      · rcases hR with rfl | ⟨o, b, R', rfl⟩
        · left; simp
        · right; exact ⟨o, _, by simp; rfl⟩
      · right; exact ⟨⟨.subtract, q⟩, _, by simp; rfl⟩

theorem negatePass_chain (c : RawChain) : ∀ (temp : List OOO),
    negatePass (RawChain.items c).reverse temp = .ok (chainItems (RawChain.negated c) ++ temp) := by
  obtain ⟨h, t⟩ := c
  induction t using List.reverseRecOn with
  | nil =>
    intro temp
    have := negatePass_operand h.minuses h.node [] temp (.inl rfl)
    simp only [List.append_nil] at this
    simp only [RawChain.items, List.flatMap_nil, List.append_nil]
    rw [this, negatePass_one]
    simp [chainItems, RawChain.negated]
  | append_singleton t x ih =>
    intro temp
    obtain ⟨o, r⟩ := x
    have e : (RawChain.items (h, t ++ [(o, r)])).reverse =
        r.items.reverse ++ (.operator o :: (RawChain.items (h, t)).reverse) := by
      simp [RawChain.items]
    obtain ⟨b, R', hb⟩ : ∃ b R', (RawChain.items (h, t)).reverse = .operand b :: R' := by
      rcases List.eq_nil_or_concat t with rfl | ⟨t', y, rfl⟩
      · exact ⟨h.node, _, by simp [RawChain.items, RawOperand.items]; rfl⟩
      · exact ⟨y.2.node, _, by simp [RawChain.items, RawOperand.items]; rfl⟩
    rw [e]
    have := negatePass_operand r.minuses r.node (.operator o :: (RawChain.items (h, t)).reverse)
      temp (.inr ⟨o, b, R', by rw [hb]⟩)
    rw [this]
    have h1 : ∀ (n : Node) temp, negatePass (.operand n :: .operator o ::
        (RawChain.items (h, t)).reverse) temp =
        negatePass (RawChain.items (h, t)).reverse (.operator o :: .operand n :: temp) := by
      intro n temp
      rw [negatePass_push _ _ _ _ (by simp [negTest, hb, OOO.isOperator]), hb,
        negatePass_push _ _ _ _ (by simp [negTest, OOO.isOperand])]
    rw [h1, ih]
    simp [chainItems, RawChain.negated]

theorem reduceItems_chain {c : RawChain} {n : Node}
    (h : passesTo 4 (RawChain.negated c) = (n, [])) :
    reduceItems (RawChain.items c) = .ok (some n) := by
  unfold reduceItems orderedBinaryOperators
  simp only [precedencePasses]
  rw [negatePass_chain]
  simp only [List.append_nil, Outcome.bind_ok]
  have hp : ∀ S (c : Chain), precedencePass S (chainItems c) [] =
      .ok (chainItems (passChain S c.1 c.2)) := by
    intro S c
    have := precedencePass_chain S c.2 c.1 []
    simpa using this
  simp only [hp, Outcome.bind_ok]
  have : passesTo 4 (RawChain.negated c) = _ := h
  simp only [passesTo, levelOps] at this
  rw [this]
  rfl

end Bcalc
