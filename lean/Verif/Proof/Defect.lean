import Verif.Spec.Defect
import Verif.Proof.ParserSpan
import Verif.Props.Parser

/-! # Every error of the parser names a defect -/

namespace Bcalc
open Spec

/-- The list begins with a word with which an operand may begin. -/
def Begins (us : List PTok) : Prop := ∃ t vs, us = t :: vs ∧ beginsOperand t.value = true

/-- The words of an operand, or of operands joined by operators. -/
structure Piece (us : List PTok) (n : Node) : Prop where
  last : ∃ t vs, us = vs ++ [t] ∧ endsOperand t.value = true
  spans : Ordered us → Spans us n.position

theorem atom_begins {us n} (h : Atom us n) : Begins us := by
  cases h <;> exact ⟨_, _, rfl, rfl⟩

mutual
theorem expr_ends : ∀ {k ts n}, Expr k ts n → ∃ t vs, ts = vs ++ [t] ∧ endsOperand t.value = true
  | _, _, _, .signed h => signed_ends h
  | _, _, _, .lift h => expr_ends h
  | _, _, _, .op (ts := ts) (o := o) (p := p) _ _ h2 => by
    obtain ⟨t, vs, rfl, ht⟩ := expr_ends h2
    exact ⟨t, ts ++ ⟨.binary o, p⟩ :: vs, by simp, ht⟩
theorem signed_ends : ∀ {ts n}, Signed ts n → ∃ t vs, ts = vs ++ [t] ∧ endsOperand t.value = true
  | _, _, .minus (p := p) h => by
    obtain ⟨t, vs, rfl, ht⟩ := signed_ends h
    exact ⟨t, ⟨.binary .subtract, p⟩ :: vs, by simp, ht⟩
  | _, _, .atom h => atom_ends h
theorem atom_ends : ∀ {ts n}, Atom ts n → ∃ t vs, ts = vs ++ [t] ∧ endsOperand t.value = true
  | _, _, .number => ⟨_, [], rfl, rfl⟩
  | _, _, .variable => ⟨_, [], rfl, rfl⟩
  | _, _, .paren (ts := ts) (p := p) (q := q) _ => ⟨⟨.closeParen, q⟩, ⟨.openParen, p⟩ :: ts, by simp, rfl⟩
  | _, _, .unary (o := o) (p := p) h => by
    obtain ⟨t, vs, rfl, ht⟩ := signed_ends h
    exact ⟨t, ⟨.unary o, p⟩ :: vs, by simp, ht⟩
  | _, _, .functionBare (f := f) (p := p) h _ => by
    obtain ⟨t, vs, rfl, ht⟩ := signed_ends h
    exact ⟨t, ⟨.function f, p⟩ :: vs, by simp, ht⟩
  | _, _, .functionEmpty (f := f) (p := p) (q := q) (r := r) =>
    ⟨⟨.closeParen, r⟩, [⟨.function f, p⟩, ⟨.openParen, q⟩], by simp, rfl⟩
  | _, _, .function (f := f) (p := p) (q := q) (r := r) (ts := ts) _ =>
    ⟨⟨.closeParen, r⟩, ⟨.function f, p⟩ :: ⟨.openParen, q⟩ :: ts, by simp, rfl⟩
end

theorem atom_piece {us n} (h : Atom us n) : Piece us n := ⟨atom_ends h, atom_spans h⟩

theorem piece_ne_nil {us n} (h : Piece us n) : us ≠ [] := by
  obtain ⟨t, vs, rfl, _⟩ := h.last
  simp

theorem Piece.negate {us n} (h : Piece us n) (p : Position) :
    Piece (⟨.binary .subtract, p⟩ :: us) (.unary .negate p n) := by
  obtain ⟨t, vs, rfl, ht⟩ := h.last
  exact ⟨⟨t, ⟨.binary .subtract, p⟩ :: vs, by simp, ht⟩,
    fun ho => spans_cons (h.spans (List.pairwise_cons.1 ho).2) ho⟩

theorem Piece.join {us vs n m} (h : Piece us n) (h' : Piece vs m) (o : BinOp) (p : Position) :
    Piece (us ++ ⟨.binary o, p⟩ :: vs) (.binary o p n m) := by
  refine ⟨?_, fun ho => ?_⟩
  · obtain ⟨t, ws, rfl, ht⟩ := h'.last
    exact ⟨t, us ++ ⟨.binary o, p⟩ :: ws, by simp, ht⟩
  · obtain ⟨o1, o2, o3⟩ := ordered_append ho
    have hj := spans_join (h.spans o1) (h'.spans (List.pairwise_cons.1 o2).2) [⟨.binary o, p⟩] ho
    exact spans_inner hj ho (spans_bounds hj ho (t := ⟨.binary o, p⟩) (by simp))

/-- The items begin with an operand. -/
def HeadOperand : List OOO → Prop
  | .operand _ :: _ => True
  | _ => False

/-- The items with their words, once the signs are recognised.  The flag says that an operand may come next
(at the start or after an operator). -/
inductive Items : Bool → List PTok → List OOO → Prop
  | nil {b} : Items b [] []
  | operator {b o p ts l} : Items true ts l → (b = true → o = .subtract → ¬ HeadOperand l) →
      Items b (⟨.binary o, p⟩ :: ts) (.operator ⟨o, p⟩ :: l)
  | operand {b us n ts l} : Piece us n → (b = false → Begins us) → Items false ts l →
      Items b (us ++ ts) (.operand n :: l)

/-- May an operand come next, after these items (the last first)? -/
def nextOperand : List OOO → Bool
  | [] => true
  | .operator _ :: _ => true
  | .operand _ :: _ => false

/-- The words of the items not yet treated by the negation pass. -/
inductive RevOk : List OOO → List PTok → Prop
  | nil : RevOk [] []
  | operator {o p R us} : Flat Atom us R.reverse → RevOk (.operator ⟨o, p⟩ :: R) (us ++ [⟨.binary o, p⟩])
  | operand {n R us vs} : Flat Atom us R.reverse → Piece vs n → Begins vs ∨ nextOperand R = true →
      RevOk (.operand n :: R) (us ++ vs)

theorem flat_rev {R : List OOO} {us : List PTok} (h : Flat Atom us R.reverse) : RevOk R us := by
  cases R with
  | nil => cases h; exact .nil
  | cons x R =>
    rw [List.reverse_cons] at h
    obtain ⟨vs, ws, rfl, h1, h2⟩ := flat_append_iff.1 h
    cases x with
    | operator o =>
      obtain ⟨ys, rfl, h3⟩ := flat_operator_iff.1 h2
      cases h3
      obtain ⟨o, p⟩ := o
      exact .operator h1
    | operand n =>
      obtain ⟨ys, zs, rfl, h3, h4⟩ := flat_operand_iff.1 h2
      cases h4
      rw [List.append_nil]
      exact .operand h1 (atom_piece h3) (.inl (atom_begins h3))

theorem negTest_of (n p R) (h : nextOperand R = true) :
    negTest (.operand n) (.operator ⟨.subtract, p⟩) R = true := by
  cases R with
  | nil => rfl
  | cons x R =>
    cases x with
    | operand m => cases h
    | operator o => rfl

/-- Pushing an item. -/
theorem items_push {x R us temp vs} (h : RevOk (x :: R) us) (ht : Items (nextOperand (x :: R)) vs temp)
    (hs : ∀ p, x = .operator ⟨.subtract, p⟩ → HeadOperand temp → nextOperand R = false) :
    ∃ us1 us2, us = us1 ++ us2 ∧ RevOk R us1 ∧ Items (nextOperand R) (us2 ++ vs) (x :: temp) := by
  cases h with
  | @operator o p _ us1 h1 =>
    refine ⟨us1, _, rfl, flat_rev h1, .operator ht ?_⟩
    rintro h2 rfl h3
    rw [hs p rfl h3] at h2
    cases h2
  | @operand n _ us1 us2 h1 h2 h3 =>
    refine ⟨us1, us2, rfl, flat_rev h1, .operand h2 ?_ ht⟩
    intro h4
    rcases h3 with h3 | h3
    · exact h3
    · rw [h4] at h3; cases h3

theorem negatePass_items (k : Nat) : ∀ (rev temp : List OOO) (us vs : List PTok), rev.length ≤ k →
    RevOk rev us → Items (nextOperand rev) vs temp →
    (∀ p R, rev = .operator ⟨.subtract, p⟩ :: R → HeadOperand temp → nextOperand R = false) →
    ∃ out, negatePass rev temp = .ok out ∧ Items true (us ++ vs) out := by
  induction k with
  | zero =>
    intro rev temp us vs hl h ht hs
    have : rev = [] := List.length_eq_zero_iff.1 (by omega)
    subst this
    cases h
    exact ⟨_, negatePass_nil _, ht⟩
  | succ k ih =>
    intro rev temp us vs hl h ht hs
    cases rev with
    | nil =>
      cases h
      exact ⟨_, negatePass_nil _, ht⟩
    | cons x R =>
      cases R with
      | nil =>
        obtain ⟨us1, us2, rfl, h1, h2⟩ := items_push h ht (fun p hp => hs p [] (by rw [hp]))
        cases h1
        exact ⟨_, negatePass_one _ _, h2⟩
      | cons prev R =>
        cases hn : negTest x prev R with
        | true =>
          obtain ⟨n, p, rfl, rfl, hR⟩ := negTest_true hn
          rw [negatePass_merge n p R temp hR]
          cases h with
          | @operand _ _ us1 us2 h1 h2 h3 =>
            rw [List.reverse_cons] at h1
            obtain ⟨ws, ys, rfl, h4, h5⟩ := flat_append_iff.1 h1
            obtain ⟨zs, rfl, h6⟩ := flat_operator_iff.1 h5
            cases h6
            have hnext : nextOperand R = true := by
              rcases hR with rfl | ⟨o, l, rfl⟩ <;> rfl
            obtain ⟨out, ho, hi⟩ := ih (.operand (.unary .negate p n) :: R) temp
              (ws ++ (⟨.binary .subtract, p⟩ :: us2)) vs (by simp at hl ⊢; omega)
              (.operand h4 (h2.negate p) (.inr hnext)) ht (by intro q R' h; cases h)
            exact ⟨out, ho, by simpa using hi⟩
        | false =>
          rw [negatePass_push _ _ _ _ hn]
          obtain ⟨us1, us2, rfl, h1, h2⟩ := items_push h ht (fun p hp => hs p _ (by rw [hp]))
          obtain ⟨out, ho, hi⟩ := ih (prev :: R) (x :: temp) us1 (us2 ++ vs) (by simp at hl ⊢; omega) h1 h2 (by
            intro p R' hp hx
            cases hp
            cases x with
            | operator o => cases hx
            | operand n =>
              cases hR : nextOperand R with
              | false => rfl
              | true => rw [negTest_of n p R hR] at hn; cases hn)
          exact ⟨out, ho, by simpa using hi⟩

theorem headOperand_merge {temp l : List OOO} {n m : Node} {l' : List OOO}
    (h : HeadOperand (temp ++ .operand m :: l')) : HeadOperand (temp ++ .operand n :: l) := by
  cases temp with
  | nil => trivial
  | cons x temp => cases x with
    | operand _ => trivial
    | operator _ => cases h

theorem items_merge (temp : List OOO) : ∀ {b ts n o m l}, Items b ts (temp ++ .operand n :: .operator o :: .operand m :: l) →
    Items b ts (temp ++ .operand (.binary o.value o.position n m) :: l) := by
  induction temp with
  | nil =>
    intro b ts n o m l h
    cases h with
    | operand h1 h2 h3 =>
      cases h3 with
      | @operator _ o p _ _ h4 h5 =>
        cases h4 with
        | @operand _ vs _ ts' _ h6 h7 h8 =>
          have := Items.operand (b := b) (h1.join h6 o p) (fun hb => by
            obtain ⟨t, ws, rfl, ht⟩ := h2 hb
            exact ⟨t, _, List.cons_append, ht⟩) h8
          simpa using this
  | cons x temp ih =>
    intro b ts n o m l h
    cases h with
    | operator h1 h2 => exact .operator (ih h1) (fun hb ho hh => h2 hb ho (headOperand_merge hh))
    | operand h1 h2 h3 => exact .operand h1 h2 (ih h3)

theorem precedencePass_items (S : List BinOp) (k : Nat) : ∀ (l temp out : List OOO) (ts : List PTok), l.length ≤ k →
    Items true ts (temp ++ l) → precedencePass S l temp = .ok out → Items true ts out := by
  induction k with
  | zero =>
    intro l temp out ts hl h ho
    have : l = [] := List.length_eq_zero_iff.1 (by omega)
    subst this
    rw [precedencePass_nil] at ho
    cases ho
    simpa using h
  | succ k ih =>
    intro l temp out ts hl h ho
    match l, hl, h, ho with
    | [], hl, h, ho =>
      rw [precedencePass_nil] at ho
      cases ho
      simpa using h
    | [a], hl, h, ho =>
      rw [precedencePass_one] at ho
      cases ho
      exact h
    | [a, b], hl, h, ho =>
      rw [precedencePass_two] at ho
      cases ho
      exact h
    | a :: b :: c :: l, hl, h, ho =>
      cases ht : precTest S a b c with
      | true =>
        obtain ⟨n, o, m, rfl, rfl, rfl, hS⟩ := precTest_true ht
        rw [precedencePass_merge S n o m l temp hS] at ho
        exact ih _ _ _ _ (by simp at hl ⊢; omega) (items_merge temp h) ho
      | false =>
        rw [precedencePass_push S a b c l temp ht] at ho
        exact ih _ _ _ _ (by simp at hl ⊢; omega) (by simpa using h) ho

theorem precedencePasses_items (Ss : List (List BinOp)) : ∀ {l out : List OOO} {ts : List PTok},
    Items true ts l → precedencePasses Ss l = .ok out → Items true ts out := by
  induction Ss with
  | nil =>
    intro l out ts h ho
    simp only [precedencePasses] at ho
    cases ho
    exact h
  | cons S Ss ih =>
    intro l out ts h ho
    simp only [precedencePasses] at ho
    cases hp : precedencePass S l [] with
    | ok l' =>
      rw [hp] at ho
      exact ih (precedencePass_items S l.length l [] l' ts (Nat.le_refl _) h hp) ho
    | err e => rw [hp] at ho; cases ho
    | panic e => rw [hp] at ho; cases ho
    | diverge => rw [hp] at ho; cases ho

/-- What follows the expression: nothing, or a word with which no operand begins, and which is no sign. -/
def Stops (post : List PTok) : Prop :=
  ∀ t rest, post = t :: rest → beginsOperand t.value = false ∧ t.value ≠ .binary .subtract

theorem stops_after {post : List PTok} (h : Stops post) : NoOperandAfter post := by
  intro qs t rest he
  cases qs with
  | nil => exact (h t rest he).1
  | cons q qs => exact absurd rfl (h _ _ he).2

theorem items_after : ∀ {ts l post}, Items true ts l → ¬ HeadOperand l → Stops post → NoOperandAfter (ts ++ post) := by
  intro ts
  induction ts with
  | nil => intro l post _ _ h; exact stops_after h
  | cons x ts ih =>
    intro l post h hl hp
    generalize hx : x :: ts = xs at h
    cases h with
    | nil => cases hx
    | operand => exact absurd trivial hl
    | operator h1 h2 =>
      cases hx
      intro qs t rest he
      cases qs with
      | nil =>
        simp only [minuses, List.map_nil, List.nil_append, List.cons_append, List.cons.injEq] at he
        rw [← he.1]; rfl
      | cons q qs =>
        simp only [minuses, List.map_cons, List.cons_append, List.cons.injEq, Positioned.mk.injEq, Token.binary.injEq] at he
        exact ih h1 (h2 rfl he.1.1) hp qs t rest he.2

theorem operatorText_eq (o : BinOp) : operatorText o = (Token.binary o).display := by cases o <;> rfl

theorem prefixText_eq (o : UnOp) : prefixText o = (Token.unary o).display := by cases o <;> rfl

theorem functionText_eq (f : FnName) : functionText f = f.display := by cases f <;> rfl

theorem defect_binary {T pre post : List PTok} {o : BinOp} {p : Position} (h : T = pre ++ ⟨.binary o, p⟩ :: post)
    (h' : (o ≠ .subtract ∧ NoOperandBefore pre) ∨ NoOperandAfter post) :
    Defect T (SyntaxError.missingOperand (.binary o)).display p := by
  have := Defect.binary h h'
  rw [operatorText_eq] at this
  exact this

theorem fromBetween_gap {p q : Position} (h : p.start + p.width ≤ q.start) :
    (Position.fromBetween p q).start = p.start + p.width ∧
      (Position.fromBetween p q).start + (Position.fromBetween p q).width = q.start := by
  have hs : sortNat [p.start, p.start + p.width, q.start, q.start + q.width] =
      [p.start, p.start + p.width, q.start, q.start + q.width] := by
    simp only [sortNat, insertSorted]
    rw [if_pos (by omega)]
    simp only [insertSorted]
    rw [if_pos h]
    simp only [insertSorted]
    rw [if_pos (by omega)]
  unfold Position.fromBetween
  rw [hs]
  refine ⟨rfl, ?_⟩
  change p.start + p.width + (q.start - (p.start + p.width)) = q.start
  omega

theorem rootOf_defect {T pre ts post : List PTok} {l : List OOO} {e : Positioned SyntaxError} (h : Items true ts l)
    (he : rootOf l = .err e) (hT : T = pre ++ (ts ++ post)) (hb : NoOperandBefore pre) (hp : Stops post)
    (ho : Ordered T) : Defect T e.value.display e.position := by
  unfold rootOf at he
  split at he
  case h_1 => cases he
  case h_2 => cases he
  case h_3 a op =>
    simp only [Outcome.err.injEq] at he
    subst he
    cases h with
    | @operand _ us _ ts' _ h1 h2 h3 =>
      cases h3 with
      | operator h4 h5 =>
        cases h4
        exact defect_binary (p := _) (pre := pre ++ us) (by simp only [Positioned.map]; rw [hT]; simp) (.inr (stops_after hp))
  case h_4 a op op' l' =>
    simp only [Outcome.err.injEq] at he
    subst he
    cases h with
    | @operand _ us _ ts' _ h1 h2 h3 =>
      cases h3 with
      | @operator _ o p ts' _ h4 h5 =>
        exact defect_binary (pre := pre ++ us) (post := ts' ++ post) (by simp only [Positioned.map]; rw [hT]; simp)
          (.inr (items_after h4 (fun h => by cases h) hp))
  case h_5 op l' =>
    simp only [Outcome.err.injEq] at he
    subst he
    cases h with
    | @operator _ o p ts' _ h4 h5 =>
      refine defect_binary (pre := pre) (post := ts' ++ post) (by simp only [Positioned.map]; rw [hT]; simp) ?_
      by_cases hs : o = .subtract
      · exact .inr (items_after h4 (h5 rfl hs) hp)
      · exact .inl ⟨hs, hb⟩
  case h_6 a b l' =>
    simp only [Outcome.err.injEq] at he
    subst he
    cases h with
    | @operand _ us _ ts' _ h1 h2 h3 =>
      cases h3 with
      | @operand _ vs _ ts'' _ h4 h5 h6 =>
        obtain ⟨x, us', rfl, hx⟩ := h1.last
        obtain ⟨y, vs', rfl, hy⟩ := h5 rfl
        have hT' : T = (pre ++ us') ++ x :: y :: (vs' ++ ts'' ++ post) := by rw [hT]; simp
        rw [hT] at ho
        obtain ⟨_, o1, _⟩ := ordered_append ho
        simp only [List.append_assoc] at o1
        obtain ⟨oa, o1, _⟩ := ordered_append (ts := us') (by simpa using o1)
        have o2 : Ordered ([x] ++ (y :: vs')) := by
          have : Ordered (([x] ++ (y :: vs')) ++ (ts'' ++ post)) := by simpa using o1
          exact (ordered_append this).1
        have oa' : Ordered (us' ++ [x]) := by
          rw [hT'] at *
          have : Ordered ((pre ++ (us' ++ [x])) ++ (y :: vs' ++ ts'' ++ post)) := by
            simpa using (show Ordered _ from by simpa using ho)
          exact (ordered_append (ordered_append this).1).2.1
        obtain ⟨a1, b1, s1, s2, s3, s4⟩ := h1.spans oa'
        obtain ⟨a2, b2, s1', s2', s3', s4'⟩ := h4.spans (ordered_append o2).2.1
        simp at s2 s1'
        subst s2 s1'
        have hxy : x.position.start + x.position.width ≤ y.position.start :=
          (ordered_append o2).2.2 x (by simp) y (by simp)
        obtain ⟨g1, g2⟩ := fromBetween_gap (p := a.position) (q := b.position) (by omega)
        exact .gap hT' hx hy (by simp only [Positioned.newBetween]; omega)
          (by simp only [Positioned.newBetween]; omega)
  case h_7 => cases he

theorem reduceItems_defect {T pre ts post : List PTok} {l : List OOO} {e : Positioned SyntaxError}
    (h : Flat Atom ts l) (he : reduceItems l = .err e) (hT : T = pre ++ (ts ++ post)) (hb : NoOperandBefore pre)
    (hp : Stops post) (ho : Ordered T) : Defect T e.value.display e.position := by
  obtain ⟨l1, h1, i1⟩ := negatePass_items l.reverse.length l.reverse [] ts [] (Nat.le_refl _)
    (flat_rev (by simpa using h)) .nil (by intro p R _ h; cases h)
  rw [List.append_nil] at i1
  unfold reduceItems at he
  rw [h1] at he
  change (precedencePasses orderedBinaryOperators l1 >>= fun ooos => rootOf ooos) = .err e at he
  obtain ⟨l2, h2, _⟩ := precedencePasses_reduced l1
  rw [h2] at he
  exact rootOf_defect (precedencePasses_items _ i1 h2) he hT hb hp ho

/-! ## The reading functions -/

theorem Outcome.Post.both {ε α : Type} {D : ε → Prop} {Q : α → Prop} {o : Outcome ε α}
    (h : o.Post (fun _ => True) Q) (h' : o.Post D fun _ => True) : o.Post D Q := by
  cases o with
  | ok a => exact h
  | err e => exact h'
  | panic k => exact h
  | diverge => trivial

/-- The error names a defect. -/
abbrev Named (T : List PTok) (e : Positioned SyntaxError) : Prop := Defect T e.value.display e.position

/-- From the `n`th word on, `=` does not follow a variable at the beginning. -/
def NoTarget (T : List PTok) (n : Nat) : Prop :=
  ∀ pre p post, T = pre ++ ⟨.assign, p⟩ :: post → n ≤ pre.length → ¬ ∃ x q, pre = [⟨.variable x, q⟩]

theorem afterFunction_snoc {us : List PTok} {t : PTok} : AfterFunction (us ++ [t]) ↔ ∃ f p, t = ⟨.function f, p⟩ := by
  constructor
  · rintro ⟨vs, f, p, h⟩
    have := (List.append_inj' h rfl).2
    simp at this
    exact ⟨f, p, this⟩
  · rintro ⟨f, p, rfl⟩
    exact ⟨us, f, p, rfl⟩

theorem noOperandBefore_snoc {us : List PTok} {t : PTok} :
    NoOperandBefore (us ++ [t]) ↔ endsOperand t.value = false := by
  unfold NoOperandBefore
  simp

/-- What the end of an expression leaves. -/
theorem end_stops {e : ExprEnd} {rest : List PTok} (h : EndOk e rest) : Stops (endToks e ++ rest) := by
  intro t rest' he
  cases e with
  | comma p => simp [endToks] at he; rw [← he.1]; simp [beginsOperand]
  | closeParen p => simp [endToks] at he; rw [← he.1]; simp [beginsOperand]
  | inputEmpty => rw [h rfl] at he; simp [endToks] at he

/-- Every error of the reading functions names a defect, at a given fuel. -/
structure Faulty (T : List PTok) (n f : Nat) : Prop where
  items : ∀ pre input, T = pre ++ input → n ≤ pre.length → ¬ AfterFunction pre →
    (readItems f input).Post (Named T) fun _ => True
  expression : ∀ pre input, T = pre ++ input → n ≤ pre.length → ¬ AfterFunction pre → NoOperandBefore pre →
    (readExpression f input).Post (Named T) fun _ => True
  ooo : ∀ pre input, T = pre ++ input → n ≤ pre.length → (AfterFunction pre → ¬ StartsWithOpen input) →
    (readOperandOrOperator f input).Post (Named T) fun _ => True
  operand : ∀ pre input, T = pre ++ input → n ≤ pre.length → (AfterFunction pre → ¬ StartsWithOpen input) →
    NoOperandBefore pre → (readOperand f input).Post (Named T) fun _ => True
  unary : ∀ pre t op p input, T = pre ++ ⟨t, p⟩ :: input → n ≤ pre.length →
    (t = .unary op ∨ (t = .binary .subtract ∧ op = .negate)) →
    (readUnaryNode f input op p).Post (Named T) fun _ => True
  paren : ∀ pre p input, T = pre ++ ⟨.openParen, p⟩ :: input → n ≤ pre.length → ¬ AfterFunction pre →
    (readParenthesizedNode f input p).Post (Named T) fun _ => True
  function : ∀ pre g p input, T = pre ++ ⟨.function g, p⟩ :: input → n ≤ pre.length →
    (readFunctionNode f input g p).Post (Named T) fun _ => True
  arguments : ∀ pre pp mid mc input, T = pre ++ ⟨.openParen, pp⟩ :: (mid ++ input) → n ≤ pre.length →
    AfterFunction pre → Balanced mid →
    ((mc = none ∧ mid = []) ∨ ∃ c mid', mc = some c ∧ mid = mid' ++ [⟨.comma, c⟩]) →
    (readArguments f input pp mc).Post (Named T) fun _ => True

theorem faulty {T : List PTok} {n : Nat} (ho : Ordered T) (hn : NoTarget T n) (f : Nat) : Faulty T n f := by
  induction f with
  | zero =>
    constructor <;> intros <;>
      simp [readItems, readExpression, readOperandOrOperator, readOperand, readUnaryNode,
        readParenthesizedNode, readFunctionNode, readArguments, Outcome.Post]
  | succ f ih =>
    constructor
    · -- readItems
      intro pre input hT hl hf
      unfold readItems
      refine (((sound f).ooo input).both (ih.ooo pre input hT hl (fun h => absurd h hf))).bind ?_
      rintro ⟨r, rest⟩ h
      cases r with
      | operand m =>
        obtain ⟨ts, rfl, h1⟩ := h
        obtain ⟨t, vs, rfl, ht⟩ := atom_ends h1
        refine (ih.items (pre ++ (vs ++ [t])) rest (by rw [hT]; simp) (by simp; omega) ?_).bind ?_
        · rw [← List.append_assoc, afterFunction_snoc]
          rintro ⟨g, p, rfl⟩
          cases ht
        · intros; trivial
      | operator o =>
        subst h
        refine (ih.items (pre ++ [⟨.binary o.value, o.position⟩]) rest (by rw [hT]; simp) (by simp; omega) ?_).bind ?_
        · rw [afterFunction_snoc]
          rintro ⟨g, p, h⟩
          cases h
        · intros; trivial
      | stop e => trivial
    · -- readExpression
      intro pre input hT hl hf hb
      unfold readExpression
      refine (((sound f).items input).both (ih.items pre input hT hl hf)).bind ?_
      rintro ⟨l, e, rest⟩ ⟨ts, rfl, h2, h3⟩
      simp only
      cases hr : reduceItems l with
      | ok r => trivial
      | err e' => exact reduceItems_defect h3 hr (by rw [hT]; simp) hb (end_stops h2) ho
      | panic k => rcases reduceItems_total l with ⟨r, h⟩ | ⟨r, h⟩ <;> rw [h] at hr <;> cases hr
      | diverge => trivial
    · -- readOperandOrOperator
      intro pre input hT hl hf
      unfold readOperandOrOperator
      cases input with
      | nil => trivial
      | cons t input =>
        obtain ⟨token, p⟩ := t
        cases token with
        | «variable» x => trivial
        | assign => exact .assign hT (hn _ _ _ hT hl)
        | comma => trivial
        | number v => trivial
        | openParen =>
          refine (ih.paren pre p input hT hl (fun h => hf h ⟨p, input, rfl⟩)).bind ?_
          intros; trivial
        | closeParen => trivial
        | binary o => trivial
        | unary o =>
          refine (ih.unary pre _ o p input hT hl (.inl rfl)).bind ?_
          intros; trivial
        | function g =>
          refine (ih.function pre g p input hT hl).bind ?_
          intros; trivial
    · -- readOperand
      intro pre input hT hl hf hb
      unfold readOperand
      refine (((sound f).ooo input).both (ih.ooo pre input hT hl hf)).bind ?_
      rintro ⟨r, rest⟩ h
      cases r with
      | operand m => trivial
      | operator o =>
        subst h
        simp only
        split
        · rename_i ho
          refine (ih.unary pre _ .negate o.position rest hT hl (.inr ⟨by rw [ho], rfl⟩)).bind ?_
          intros; trivial
        · rename_i ho
          have := Defect.operator hT ho hb
          rw [operatorText_eq] at this
          exact this
      | stop e => trivial
    · -- readUnaryNode
      intro pre t op p input hT hl ht
      unfold readUnaryNode
      refine (((sound f).operand input).both (ih.operand (pre ++ [⟨t, p⟩]) input (by rw [hT]; simp) (by simp; omega)
        (fun h => ?_) ?_)).bind ?_
      · obtain ⟨g, q, h⟩ := afterFunction_snoc.1 h
        cases h
        rcases ht with ht | ⟨ht, _⟩ <;> cases ht
      · rw [noOperandBefore_snoc]
        rcases ht with rfl | ⟨rfl, _⟩ <;> rfl
      · rintro ⟨r, rest⟩ h
        cases r with
        | operand m => trivial
        | stop e =>
          obtain ⟨rfl, h1⟩ := h
          have := Defect.prefix hT ht (stops_after (end_stops h1))
          rw [prefixText_eq] at this
          exact this
    · -- readParenthesizedNode
      intro pre p input hT hl hf
      unfold readParenthesizedNode
      have hT' : T = (pre ++ [⟨.openParen, p⟩]) ++ input := by rw [hT]; simp
      refine (((sound f).expression input).both (ih.expression _ input hT' (by simp; omega) (fun h => ?_) ?_)).bind ?_
      · obtain ⟨g, q, h⟩ := afterFunction_snoc.1 h
        cases h
      · rw [noOperandBefore_snoc]; rfl
      · rintro ⟨r, e, rest⟩ ⟨ts, rfl, h1, h2⟩
        have hbal : Balanced ts := by
          rcases h2 with ⟨_, rfl⟩ | ⟨m, _, h2⟩
          · exact balanced_nil
          · exact expr_balanced h2
        cases e with
        | comma q =>
          have : Named T ⟨.unexpectedToken .comma, q⟩ :=
            .comma (pre := pre ++ ⟨.openParen, p⟩ :: ts) (post := rest) (by rw [hT]; simp [endToks])
              (.inr ⟨pre, p, ts, rfl, hbal, hf⟩)
          cases r <;> exact this
        | closeParen q =>
          rcases h2 with ⟨rfl, rfl⟩ | ⟨m, rfl, h2⟩
          · have hT2 : T = pre ++ ⟨.openParen, p⟩ :: ⟨.closeParen, q⟩ :: rest := by rw [hT]; simp [endToks]
            rw [hT2] at ho
            have := (List.pairwise_cons.1 (ordered_append ho).2.1).1 ⟨.closeParen, q⟩ (by simp)
            simp only at this
            refine Defect.empty hT2 hf ?_ ?_
            · simp only [Positioned.newSpan, Position.fromSpan]; omega
            · simp only [Positioned.newSpan, Position.fromSpan]; omega
          · trivial
        | inputEmpty =>
          have : Named T ⟨.mismatchedOpenParen, p⟩ :=
            .opened (pre := pre) (post := ts) (by rw [hT, h1 rfl]; simp [endToks]) hbal
          cases r <;> exact this
    · -- readFunctionNode
      intro pre g p input hT hl
      unfold readFunctionNode
      have nothing : ∀ post, T = pre ++ ⟨.function g, p⟩ :: post → Stops post →
          Named T ⟨.functionWithoutParensOrArgument g, p⟩ := by
        intro post hT' hs
        have := Defect.function hT' (stops_after hs)
        rw [functionText_eq] at this
        exact this
      split
      · exact nothing [] hT (by intro t rest h; cases h)
      · rename_i pp input'
        refine (ih.arguments (pre ++ [⟨.function g, p⟩]) pp [] none input' (by rw [hT]; simp) (by simp; omega)
          (afterFunction_snoc.2 ⟨g, p, rfl⟩) balanced_nil (.inl ⟨rfl, rfl⟩)).bind ?_
        intros; trivial
      · rename_i t input' hnp
        refine (((sound f).operand _).both (ih.operand (pre ++ [⟨.function g, p⟩]) (t :: input') (by rw [hT]; simp)
          (by simp; omega) (fun _ h => ?_) ?_)).bind ?_
        · obtain ⟨q, us, h⟩ := h
          cases h
          exact hnp q rfl
        · rw [noOperandBefore_snoc]; rfl
        · rintro ⟨r, rest⟩ h
          cases r with
          | operand m => trivial
          | stop e =>
            obtain ⟨h0, h1⟩ := h
            exact nothing _ hT (by rw [h0]; exact end_stops h1)
    · -- readArguments
      intro pre pp mid mc input hT hl hf hmid hmc
      unfold readArguments
      have hT' : T = (pre ++ ⟨.openParen, pp⟩ :: mid) ++ input := by rw [hT]; simp
      have hlast : ∃ us t, pre ++ ⟨.openParen, pp⟩ :: mid = us ++ [t] ∧ (t = ⟨.openParen, pp⟩ ∨ ∃ c, t = ⟨.comma, c⟩) := by
        rcases hmc with ⟨_, rfl⟩ | ⟨c, mid', _, rfl⟩
        · exact ⟨pre, _, rfl, .inl rfl⟩
        · exact ⟨pre ++ ⟨.openParen, pp⟩ :: mid', _, by simp, .inr ⟨c, rfl⟩⟩
      refine (((sound f).expression input).both (ih.expression _ input hT' (by simp; omega) (fun h => ?_) ?_)).bind ?_
      · obtain ⟨us, t, he, ht⟩ := hlast
        rw [he] at h
        obtain ⟨g, q, h⟩ := afterFunction_snoc.1 h
        rcases ht with rfl | ⟨c, rfl⟩ <;> cases h
      · obtain ⟨us, t, he, ht⟩ := hlast
        rw [he, noOperandBefore_snoc]
        rcases ht with rfl | ⟨c, rfl⟩ <;> rfl
      · rintro ⟨r, e, rest⟩ ⟨ts, rfl, h1, h2⟩
        rcases h2 with ⟨rfl, rfl⟩ | ⟨m, rfl, h2⟩
        · rcases hmc with ⟨rfl, rfl⟩ | ⟨c, mid', rfl, rfl⟩
          · cases e with
            | comma q => exact Defect.commaFirst (pre := pre) (q := pp) (post := rest) (by rw [hT]; simp [endToks]) hf
            | closeParen q => trivial
            | inputEmpty =>
              exact Defect.opened (pre := pre) (post := []) (by rw [hT, h1 rfl]; simp [endToks]) balanced_nil
          · exact Defect.commaLast (pre := pre ++ ⟨.openParen, pp⟩ :: mid') (post := endToks e ++ rest)
              (by rw [hT]; simp) (stops_after (end_stops h1))
        · cases e with
          | comma q =>
            refine (ih.arguments pre pp (mid ++ (ts ++ [⟨.comma, q⟩])) (some q) rest (by rw [hT]; simp [endToks]) hl hf
              (balanced_append hmid (balanced_append (expr_balanced h2) (balanced_other (by simp) (by simp))))
              (.inr ⟨q, mid ++ ts, rfl, by simp⟩)).bind ?_
            intros; trivial
          | closeParen q => trivial
          | inputEmpty =>
            exact Defect.opened (pre := pre) (post := mid ++ ts) (by rw [hT, h1 rfl]; simp [endToks])
              (balanced_append hmid (expr_balanced h2))

theorem noTarget_zero {T : List PTok} (h : ¬ ∃ x p q us, T = ⟨.variable x, p⟩ :: ⟨.assign, q⟩ :: us) : NoTarget T 0 := by
  rintro pre p post rfl _ ⟨x, q, rfl⟩
  exact h ⟨x, q, p, post, rfl⟩

theorem noTarget_two {T : List PTok} : NoTarget T 2 := by
  rintro pre p post _ hl ⟨x, q, rfl⟩
  simp at hl

theorem new_defect {T : List PTok} (ho : Ordered T) {e : Positioned SyntaxError} (h : SyntaxTree.new T = .err e) :
    Defect T e.value.display e.position := by
  -- the part before the expression
  have main : ∀ (pre us : List PTok) rv, T = pre ++ us → NoTarget T pre.length → ¬ AfterFunction pre →
      NoOperandBefore pre → Balanced pre → (pre = [] ∨ ∃ x p q, pre = [⟨.variable x, p⟩, ⟨.assign, q⟩]) →
      (readExpression (parseFuel us) us >>= finishTree rv) = .err e → Defect T e.value.display e.position := by
    intro pre us rv hT hn hf hb hbal hpre h
    have := ((sound (parseFuel us)).expression us).both
      ((faulty ho hn (parseFuel us)).expression pre us hT (Nat.le_refl _) hf hb)
    cases hr : readExpression (parseFuel us) us with
    | ok x =>
      rw [hr] at this h
      obtain ⟨r, ee, rest⟩ := x
      obtain ⟨ts, h3, h4, h5⟩ := this
      change finishTree rv (r, ee, rest) = .err e at h
      have hbts : Balanced ts := by
        rcases h5 with ⟨_, rfl⟩ | ⟨m, _, h5⟩
        · exact balanced_nil
        · exact expr_balanced h5
      cases ee with
      | comma p =>
        simp only [finishTree, Outcome.err.injEq] at h; subst h
        exact .comma (pre := pre ++ ts) (post := rest) (by rw [hT, h3]; simp [endToks]) (.inl (balanced_append hbal hbts))
      | closeParen p =>
        simp only [finishTree, Outcome.err.injEq] at h; subst h
        exact .closed (pre := pre ++ ts) (post := rest) (by rw [hT, h3]; simp [endToks]) (balanced_append hbal hbts)
      | inputEmpty =>
        cases r with
        | some n => cases h
        | none =>
          simp only [finishTree, Outcome.err.injEq] at h; subst h
          rcases h5 with ⟨_, rfl⟩ | ⟨m, h5, _⟩
          · rw [h4 rfl] at h3
            refine .nothing ?_
            simp only [endToks, List.append_nil] at h3
            subst h3
            rw [List.append_nil] at hT
            rw [hT]
            exact hpre
          · cases h5
    | err e' =>
      rw [hr] at h this
      simp only [bind, Outcome.bind, Outcome.err.injEq] at h
      subst h
      exact this
    | panic k => rw [hr] at h; cases h
    | diverge => rw [hr] at h; cases h
  by_cases ht : ∃ x p q us, T = ⟨.variable x, p⟩ :: ⟨.assign, q⟩ :: us
  · obtain ⟨x, p, q, us, rfl⟩ := ht
    refine main [⟨.variable x, p⟩, ⟨.assign, q⟩] us (some ⟨x, p⟩) rfl noTarget_two ?_ ?_ ?_ (.inr ⟨x, p, q, rfl⟩) ?_
    · rw [show [(⟨.variable x, p⟩ : PTok), ⟨.assign, q⟩] = [⟨.variable x, p⟩] ++ [⟨.assign, q⟩] from rfl, afterFunction_snoc]
      rintro ⟨f, r, h⟩
      cases h
    · rw [show [(⟨.variable x, p⟩ : PTok), ⟨.assign, q⟩] = [⟨.variable x, p⟩] ++ [⟨.assign, q⟩] from rfl, noOperandBefore_snoc]
      rfl
    · exact balanced_cons (by simp) (by simp) (balanced_other (by simp) (by simp))
    · exact h
  · refine main [] T none rfl (noTarget_zero ht) ?_ ?_ balanced_nil (.inl rfl) ?_
    · rintro ⟨us, f, p, h⟩
      simp at h
    · intro t h; simp at h
    · unfold SyntaxTree.new at h
      split at h
      · exact absurd ⟨_, _, _, _, rfl⟩ ht
      · exact h

end Bcalc
