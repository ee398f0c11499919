import Verif.Proof.Parser

/-! # Every derivation is found by the parser -/

namespace Bcalc
open Spec

/-- The tokens are read as one operand. -/
def ReadsOperand (us : List PTok) (n : Node) : Prop :=
  ∃ f, ∀ rest, readOperandOrOperator f (us ++ rest) = .ok (.operand n, rest)

/-- The tokens are read as one signed operand, and are minus signs and an operand. -/
def ReadsSigned (ts : List PTok) (n : Node) : Prop :=
  (∃ r : RawOperand, Flat ReadsOperand ts r.items ∧ n = r.negated) ∧
  ∃ f, ∀ rest, readOperand f (ts ++ rest) = .ok (.operand n, rest)

/-- The tokens are those of a chain that reduces to the tree. -/
def ReadsExpr (k : Nat) (ts : List PTok) (n : Node) : Prop :=
  ∃ c : RawChain, Flat ReadsOperand ts (RawChain.items c) ∧
    passesTo k (RawChain.negated c) = (n, [])

def ReadsArguments (ts : List PTok) (ns : List Node) : Prop :=
  ∃ f, ∀ rest pp mc q, readArguments f (ts ++ ⟨.closeParen, q⟩ :: rest) pp mc = .ok (ns, q, rest)

theorem ooo_mono {f g input r} (hfg : f ≤ g) (h : readOperandOrOperator f input = .ok r) :
    readOperandOrOperator g input = .ok r :=
  mono_le (r := fun f => readOperandOrOperator f input) (fun f => (mono f).ooo input) hfg h (by simp)
theorem operand_mono {f g input r} (hfg : f ≤ g) (h : readOperand f input = .ok r) :
    readOperand g input = .ok r :=
  mono_le (r := fun f => readOperand f input) (fun f => (mono f).operand input) hfg h (by simp)
theorem items_mono {f g input r} (hfg : f ≤ g) (h : readItems f input = .ok r) :
    readItems g input = .ok r :=
  mono_le (r := fun f => readItems f input) (fun f => (mono f).items input) hfg h (by simp)
theorem expression_mono {f g input r} (hfg : f ≤ g) (h : readExpression f input = .ok r) :
    readExpression g input = .ok r :=
  mono_le (r := fun f => readExpression f input) (fun f => (mono f).expression input) hfg h (by simp)
theorem arguments_mono {f g input pp mc r} (hfg : f ≤ g) (h : readArguments f input pp mc = .ok r) :
    readArguments g input pp mc = .ok r :=
  mono_le (r := fun f => readArguments f input pp mc) (fun f => (mono f).arguments input pp mc) hfg h
    (by simp)

theorem readsItems {ts l} (h : Flat ReadsOperand ts l) :
    ∃ f, ∀ e rest, EndOk e rest → readItems f (ts ++ endToks e ++ rest) = .ok (l, e, rest) := by
  induction h with
  | nil =>
    refine ⟨2, ?_⟩
    intro e rest he
    rw [readItems, readOperandOrOperator.eq_def]
    cases e with
    | comma p => simp [endToks]
    | closeParen p => simp [endToks]
    | inputEmpty => simp [he rfl, endToks]
  | @operator o p ts l _ ih =>
    obtain ⟨f, hf⟩ := ih
    refine ⟨f + 2, ?_⟩
    intro e rest he
    rw [readItems, readOperandOrOperator.eq_def]
    simp only [List.cons_append, Outcome.bind_ok]
    rw [items_mono (Nat.le_succ f) (hf e rest he)]
    rfl
  | @operand us n ts l h1 _ ih =>
    obtain ⟨f, hf⟩ := ih
    obtain ⟨g, hg⟩ := h1
    refine ⟨max f g + 1, ?_⟩
    intro e rest he
    rw [readItems]
    rw [List.append_assoc, List.append_assoc,
      ooo_mono (Nat.le_max_right f g) (hg (ts ++ (endToks e ++ rest)))]
    simp only [Outcome.bind_ok]
    rw [← List.append_assoc, items_mono (Nat.le_max_left f g) (hf e rest he)]
    rfl

theorem readsExpression {ts n} (h : ReadsExpr 4 ts n) :
    ∃ f, ∀ e rest, EndOk e rest →
      readExpression f (ts ++ endToks e ++ rest) = .ok (some n, e, rest) := by
  obtain ⟨c, h1, h2⟩ := h
  obtain ⟨f, hf⟩ := readsItems h1
  refine ⟨f + 1, ?_⟩
  intro e rest he
  rw [readExpression, hf e rest he]
  simp [reduceItems_chain h2]

mutual

theorem expr_complete : ∀ {k ts n}, Expr k ts n → ReadsExpr k ts n
  | _, _, _, .signed h => by
    obtain ⟨⟨r, h1, rfl⟩, _⟩ := signed_complete h
    exact ⟨(r, []), by simpa [RawChain.items] using h1, rfl⟩
  | _, _, _, .lift h => by
    obtain ⟨c, h1, h2⟩ := expr_complete h
    exact ⟨c, h1, by simp [passesTo, h2, passChain]⟩
  | _, _, _, .op (k := k) (o := o) (p := p) h1 ho h2 => by
    obtain ⟨c1, a1, b1⟩ := expr_complete h1
    obtain ⟨c2, a2, b2⟩ := expr_complete h2
    refine ⟨(c1.1, c1.2 ++ (⟨o, p⟩, c2.1) :: c2.2), ?_, ?_⟩
    · have : RawChain.items (c1.1, c1.2 ++ (⟨o, p⟩, c2.1) :: c2.2) =
          RawChain.items c1 ++ .operator ⟨o, p⟩ :: RawChain.items c2 := by
        simp [RawChain.items]
      rw [this]
      exact a1.append (.operator a2)
    · have e : RawChain.negated (c1.1, c1.2 ++ (⟨o, p⟩, c2.1) :: c2.2) =
          ((RawChain.negated c1).1, (RawChain.negated c1).2 ++
            (⟨o, p⟩, (RawChain.negated c2).1) :: (RawChain.negated c2).2) := by
        simp [RawChain.negated]
      rw [e]
      simp only [passesTo]
      rw [passesTo_append (o := ⟨o, p⟩) (by simp [ho]) (RawChain.negated c1) (RawChain.negated c2)]
      simp only [b2]
      have hm : o ∈ levelOps (k + 1) := mem_levelOps.2 ho
      simp only [passesTo] at b1
      exact passChain_last (o := ⟨o, p⟩) hm _ _ _ _ b1

theorem signed_complete : ∀ {ts n}, Signed ts n → ReadsSigned ts n
  | _, _, .minus (p := p) h => by
    obtain ⟨⟨r, h1, rfl⟩, f, hf⟩ := signed_complete h
    refine ⟨⟨⟨p :: r.minuses, r.node⟩, ?_, rfl⟩, f + 2, ?_⟩
    · exact .operator h1
    · intro rest
      rw [readOperand, readOperandOrOperator.eq_def]
      simp only [List.cons_append, Outcome.bind_ok, if_true]
      rw [readUnaryNode, hf rest]
      rfl
  | _, _, .atom (n := n) h => by
    have hr := atom_complete h
    obtain ⟨f, hf⟩ := hr
    refine ⟨⟨⟨[], n⟩, ?_, rfl⟩, f + 1, ?_⟩
    · have := Flat.operand (ts := []) (S := ReadsOperand) ⟨f, hf⟩ .nil
      simpa [RawOperand.items] using this
    · intro rest
      rw [readOperand, hf rest]
      rfl

theorem atom_complete : ∀ {ts n}, Atom ts n → ReadsOperand ts n
  | _, _, .number => ⟨1, fun rest => by rw [readOperandOrOperator.eq_def]; rfl⟩
  | _, _, .variable => ⟨1, fun rest => by rw [readOperandOrOperator.eq_def]; rfl⟩
  | _, _, .paren (ts := ts) (q := q) h => by
    obtain ⟨f, hf⟩ := readsExpression (expr_complete h)
    refine ⟨f + 2, ?_⟩
    intro rest
    rw [readOperandOrOperator.eq_def]
    have := hf (.closeParen q) rest (by simp [EndOk])
    simp only [endToks] at this
    simp only [List.cons_append]
    rw [readParenthesizedNode, this]
    rfl
  | _, _, .unary h => by
    obtain ⟨_, f, hf⟩ := signed_complete h
    refine ⟨f + 2, ?_⟩
    intro rest
    rw [readOperandOrOperator.eq_def]
    simp only [List.cons_append]
    rw [readUnaryNode, hf rest]
    rfl
  | _, _, .functionBare (ts := ts) h hno => by
    obtain ⟨_, f, hf⟩ := signed_complete h
    have hlen := signed_length h
    refine ⟨f + 2, ?_⟩
    intro rest
    rw [readOperandOrOperator.eq_def]
    simp only [List.cons_append]
    rw [readFunctionNode.eq_def]
    simp only
    obtain ⟨t, us, rfl⟩ := List.exists_cons_of_ne_nil (List.length_pos_iff.1 hlen)
    split
    · rename_i h; simp at h
    · rename_i h; simp at h; exact absurd ⟨_, _, by rw [h.1]⟩ hno
    · rename_i h; rw [← h, hf rest]; rfl
  | _, _, .functionEmpty (r := r) => by
    refine ⟨6, ?_⟩
    intro rest
    rw [readOperandOrOperator.eq_def]
    simp only [List.cons_append, List.nil_append]
    rw [readFunctionNode.eq_def]
    simp only
    rw [readArguments, readExpression]
    rw [readItems, readOperandOrOperator.eq_def]
    simp [reduceItems, precedencePasses, orderedBinaryOperators, negatePass_nil,
      precedencePass_nil, rootOf]
  | _, _, .function (q := q) (r := r) h => by
    obtain ⟨f, hf⟩ := arguments_complete h
    refine ⟨f + 2, ?_⟩
    intro rest
    rw [readOperandOrOperator.eq_def]
    simp only [List.cons_append, List.append_assoc, List.nil_append]
    rw [readFunctionNode.eq_def]
    simp only
    rw [hf rest q none r]
    rfl

theorem arguments_complete : ∀ {ts ns}, Arguments ts ns → ReadsArguments ts ns
  | _, _, .one h => by
    obtain ⟨f, hf⟩ := readsExpression (expr_complete h)
    refine ⟨f + 1, ?_⟩
    intro rest pp mc q
    have := hf (.closeParen q) rest (by simp [EndOk])
    simp only [endToks, List.append_assoc, List.cons_append, List.nil_append] at this
    rw [readArguments, this]
    rfl
  | _, _, .more (p := p) (us := us) h h' => by
    obtain ⟨f, hf⟩ := readsExpression (expr_complete h)
    obtain ⟨g, hg⟩ := arguments_complete h'
    refine ⟨max f g + 1, ?_⟩
    intro rest pp mc q
    have := hf (.comma p) (us ++ ⟨.closeParen, q⟩ :: rest) (by simp [EndOk])
    simp only [endToks, List.append_assoc, List.cons_append, List.nil_append] at this
    rw [readArguments, List.append_assoc, List.cons_append,
      expression_mono (Nat.le_max_left f g) this]
    simp only [Outcome.bind_ok]
    rw [arguments_mono (Nat.le_max_right f g) (hg rest pp (some p) q)]
    rfl

end

/-! ## The whole parser -/

theorem readExpression_iff (input : List PTok) (n : Node) :
    (∃ rest, readExpression (parseFuel input) input = .ok (some n, .inputEmpty, rest)) ↔
      Expr 4 input n := by
  constructor
  · rintro ⟨rest, h⟩
    have hs := (sound (parseFuel input)).expression input
    rw [h] at hs
    obtain ⟨ts, h1, h2, h3⟩ := hs
    have := h2 rfl
    subst this
    simp [endToks] at h1
    rcases h3 with ⟨h3, _⟩ | ⟨m, h3, h4⟩
    · cases h3
    · simp at h3; rw [h1, h3]; exact h4
  · intro h
    refine ⟨[], ?_⟩
    obtain ⟨f, hf⟩ := readsExpression (expr_complete h)
    have h1 := hf .inputEmpty [] (fun _ => rfl)
    simp [endToks] at h1
    have hne := (finishes input.length).expression input (parseFuel input) (Nat.le_refl _)
      (by unfold parseFuel; omega)
    rcases Nat.le_total f (parseFuel input) with hle | hle
    · exact expression_mono hle h1
    · have := mono_le (r := fun f => readExpression f input)
        (fun f => (mono f).expression input) hle rfl hne
      rw [← this]; exact h1

theorem finishTree_ok {rv x t} (h : finishTree rv x = .ok t) :
    ∃ n rest, x = (some n, .inputEmpty, rest) ∧ t = ⟨rv, n⟩ := by
  unfold finishTree at h
  split at h <;> simp at h
  exact ⟨_, _, rfl, h.symm⟩

theorem parse_expression_iff (rv) (input : List PTok) (t : SyntaxTree) :
    (readExpression (parseFuel input) input >>= finishTree rv) = .ok t ↔
      Expr 4 input t.root ∧ t.resultVar = rv := by
  constructor
  · intro h
    cases hr : readExpression (parseFuel input) input with
    | ok x =>
      rw [hr] at h
      obtain ⟨n, rest, rfl, rfl⟩ := finishTree_ok h
      exact ⟨(readExpression_iff input n).1 ⟨rest, hr⟩, rfl⟩
    | err e => rw [hr] at h; simp at h
    | panic k => rw [hr] at h; simp at h
    | diverge => rw [hr] at h; simp at h
  · rintro ⟨h, rfl⟩
    obtain ⟨rest, hr⟩ := (readExpression_iff input t.root).2 h
    rw [hr]
    rfl

/-! ## Tokens that occur in derivations -/

mutual
theorem expr_noAssign : ∀ {k ts n}, Expr k ts n → ∀ t ∈ ts, t.value ≠ .assign
  | _, _, _, .signed h => signed_noAssign h
  | _, _, _, .lift h => expr_noAssign h
  | _, _, _, .op h1 _ h2 => by
    have a := expr_noAssign h1
    have b := expr_noAssign h2
    intro t ht
    simp at ht
    rcases ht with ht | rfl | ht
    · exact a t ht
    · simp
    · exact b t ht
theorem signed_noAssign : ∀ {ts n}, Signed ts n → ∀ t ∈ ts, t.value ≠ .assign
  | _, _, .minus h => by
    have a := signed_noAssign h
    intro t ht
    simp at ht
    rcases ht with rfl | ht
    · simp
    · exact a t ht
  | _, _, .atom h => atom_noAssign h
theorem atom_noAssign : ∀ {ts n}, Atom ts n → ∀ t ∈ ts, t.value ≠ .assign
  | _, _, .number => by simp
  | _, _, .variable => by simp
  | _, _, .paren h => by
    have a := expr_noAssign h
    intro t ht
    simp at ht
    rcases ht with rfl | ht | rfl
    · simp
    · exact a t ht
    · simp
  | _, _, .unary h => by
    have a := signed_noAssign h
    intro t ht
    simp at ht
    rcases ht with rfl | ht
    · simp
    · exact a t ht
  | _, _, .functionBare h _ => by
    have a := signed_noAssign h
    intro t ht
    simp at ht
    rcases ht with rfl | ht
    · simp
    · exact a t ht
  | _, _, .functionEmpty => by simp
  | _, _, .function h => by
    have a := arguments_noAssign h
    intro t ht
    simp at ht
    rcases ht with rfl | rfl | ht | rfl
    · simp
    · simp
    · exact a t ht
    · simp
theorem arguments_noAssign : ∀ {ts ns}, Arguments ts ns → ∀ t ∈ ts, t.value ≠ .assign
  | _, _, .one h => expr_noAssign h
  | _, _, .more h h' => by
    have a := expr_noAssign h
    have b := arguments_noAssign h'
    intro t ht
    simp at ht
    rcases ht with ht | rfl | ht
    · exact a t ht
    · simp
    · exact b t ht
end

theorem parse_iff (input : List PTok) (t : SyntaxTree) :
    SyntaxTree.new input = .ok t ↔ Input input t.resultVar t.root := by
  unfold SyntaxTree.new
  split
  · rename_i x p q ts
    rw [parse_expression_iff]
    constructor
    · rintro ⟨h, h'⟩; rw [h']; exact .assignment h
    · intro h
      generalize hg : t.resultVar = rv at h
      generalize hi : (⟨Token.variable x, p⟩ : PTok) :: ⟨.assign, q⟩ :: ts = input at h
      cases h with
      | expression h =>
        subst hi
        exact absurd rfl (expr_noAssign h ⟨.assign, q⟩ (by simp))
      | assignment h =>
        simp at hi
        obtain ⟨⟨rfl, rfl⟩, rfl, rfl⟩ := hi
        exact ⟨h, rfl⟩
  · rename_i hno
    rw [parse_expression_iff]
    constructor
    · rintro ⟨h, h'⟩; rw [h']; exact .expression h
    · intro h
      generalize hg : t.resultVar = rv at h
      cases h with
      | expression h => exact ⟨h, rfl⟩
      | assignment h => exact absurd rfl (hno _ _ _ _)

end Bcalc
