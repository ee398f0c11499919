import Verif.Proof.Defect
import Mathlib.Data.List.Chain

/-! # No defect in an acceptable input -/

namespace Bcalc
open Spec

/-- An operand may begin here, perhaps after a sign. -/
def Opening (t : PTok) : Prop := beginsOperand t.value = true ∨ t.value = .binary .subtract

/-- Which word may follow which in an acceptable input. -/
def MayFollow (x y : PTok) : Prop :=
  (endsOperand x.value = true ∧ ((∃ o, y.value = .binary o) ∨ y.value = .comma ∨ y.value = .closeParen ∨ y.value = .assign)) ∨
  (endsOperand x.value = false ∧ (Opening y ∨ (x.value = .openParen ∧ y.value = .closeParen)))

/-- The words of a part of an acceptable input. -/
structure Tidy (ts : List PTok) : Prop where
  chain : ts.IsChain MayFollow
  first : ∃ t us, ts = t :: us ∧ Opening t
  last : ∃ t us, ts = us ++ [t] ∧ endsOperand t.value = true

theorem tidy_cons {t : PTok} {ts} (h : Tidy ts) (ht : Opening t) (he : endsOperand t.value = false) : Tidy (t :: ts) := by
  obtain ⟨x, us, rfl, hx⟩ := h.first
  obtain ⟨y, vs, hy, hy'⟩ := h.last
  refine ⟨List.isChain_cons_cons.2 ⟨.inr ⟨he, .inl hx⟩, h.chain⟩, ⟨_, _, rfl, ht⟩, ⟨y, t :: vs, ?_, hy'⟩⟩
  rw [hy]; rfl

theorem tidy_join {t : PTok} {ts us} (h : Tidy ts) (h' : Tidy us) (ht : (∃ o, t.value = .binary o) ∨ t.value = .comma) :
    Tidy (ts ++ t :: us) := by
  have hc := h.chain
  obtain ⟨x, ws, rfl, hx⟩ := h'.first
  obtain ⟨y, vs, rfl, hy⟩ := h.last
  obtain ⟨a, as, ha, ha'⟩ := h.first
  obtain ⟨b, bs, hb, hb'⟩ := h'.last
  have he : endsOperand t.value = false := by rcases ht with ⟨o, ho⟩ | ho <;> rw [ho] <;> rfl
  refine ⟨?_, ⟨a, as ++ t :: x :: ws, by rw [ha]; simp, ha'⟩, ⟨b, vs ++ [y] ++ t :: bs, by rw [hb]; simp, hb'⟩⟩
  rw [List.append_assoc, List.singleton_append, List.isChain_append_cons_cons]
  refine ⟨hc, .inl ⟨hy, ?_⟩, List.isChain_cons_cons.2 ⟨.inr ⟨he, .inl hx⟩, h'.chain⟩⟩
  rcases ht with ht | ht
  · exact .inl ht
  · exact .inr (.inl ht)

theorem tidy_wrap {ts} (p q : Position) (h : Tidy ts) : Tidy (⟨.openParen, p⟩ :: (ts ++ [⟨.closeParen, q⟩])) := by
  have hc := h.chain
  obtain ⟨a, as, rfl, ha⟩ := h.first
  obtain ⟨b, bs, hb, hb'⟩ := h.last
  refine ⟨?_, ⟨_, _, rfl, .inl rfl⟩, ⟨⟨.closeParen, q⟩, ⟨.openParen, p⟩ :: (a :: as), by simp, rfl⟩⟩
  rw [List.cons_append, List.isChain_cons_cons]
  refine ⟨.inr ⟨rfl, .inl ha⟩, ?_⟩
  rw [← List.cons_append, hb, List.append_assoc, List.singleton_append, List.isChain_append_cons_cons]
  rw [hb] at hc
  exact ⟨hc, .inl ⟨hb', .inr (.inr (.inl rfl))⟩, List.isChain_singleton _⟩

mutual
theorem expr_tidy : ∀ {k ts n}, Expr k ts n → Tidy ts
  | _, _, _, .signed h => signed_tidy h
  | _, _, _, .lift h => expr_tidy h
  | _, _, _, .op h1 _ h2 => tidy_join (expr_tidy h1) (expr_tidy h2) (.inl ⟨_, rfl⟩)
theorem signed_tidy : ∀ {ts n}, Signed ts n → Tidy ts
  | _, _, .minus h => tidy_cons (signed_tidy h) (.inr rfl) rfl
  | _, _, .atom h => atom_tidy h
theorem atom_tidy : ∀ {ts n}, Atom ts n → Tidy ts
  | _, _, .number => ⟨List.isChain_singleton _, ⟨_, [], rfl, .inl rfl⟩, ⟨_, [], rfl, rfl⟩⟩
  | _, _, .variable => ⟨List.isChain_singleton _, ⟨_, [], rfl, .inl rfl⟩, ⟨_, [], rfl, rfl⟩⟩
  | _, _, .paren h => tidy_wrap _ _ (expr_tidy h)
  | _, _, .unary h => tidy_cons (signed_tidy h) (.inl rfl) rfl
  | _, _, .functionBare h _ => tidy_cons (signed_tidy h) (.inl rfl) rfl
  | _, _, .functionEmpty (f := f) (p := p) (q := q) (r := r) =>
    tidy_cons (ts := [⟨.openParen, q⟩, ⟨.closeParen, r⟩])
      ⟨List.isChain_cons_cons.2 ⟨.inr ⟨rfl, .inr ⟨rfl, rfl⟩⟩, List.isChain_singleton _⟩, ⟨_, _, rfl, .inl rfl⟩,
        ⟨⟨.closeParen, r⟩, [⟨.openParen, q⟩], rfl, rfl⟩⟩ (.inl rfl) rfl
  | _, _, .function h => tidy_cons (tidy_wrap _ _ (arguments_tidy h)) (.inl rfl) rfl
theorem arguments_tidy : ∀ {ts ns}, Arguments ts ns → Tidy ts
  | _, _, .one h => expr_tidy h
  | _, _, .more h h' => tidy_join (expr_tidy h) (arguments_tidy h') (.inr rfl)
end

theorem input_tidy {ts target n} (h : Input ts target n) : Tidy ts := by
  cases h with
  | expression h => exact expr_tidy h
  | @assignment x p q us _ h =>
    have ht := expr_tidy h
    obtain ⟨a, as, rfl, ha⟩ := ht.first
    obtain ⟨b, bs, hb, hb'⟩ := ht.last
    refine ⟨?_, ⟨_, _, rfl, .inl rfl⟩, ⟨b, ⟨.variable x, p⟩ :: ⟨.assign, q⟩ :: bs, by rw [hb]; rfl, hb'⟩⟩
    rw [List.isChain_cons_cons, List.isChain_cons_cons]
    exact ⟨.inl ⟨rfl, .inr (.inr (.inr rfl))⟩, .inr ⟨rfl, .inl ha⟩, ht.chain⟩

/-- Two words next to each other. -/
theorem tidy_follow {ts pre post : List PTok} {x y : PTok} (h : Tidy ts) (e : ts = pre ++ x :: y :: post) : MayFollow x y :=
  List.isChain_iff_forall_rel_of_append_cons_cons.1 h.chain e

/-- A binary operator that is no sign follows an operand. -/
theorem tidy_before {ts pre post : List PTok} {o : BinOp} {p : Position} (h : Tidy ts)
    (e : ts = pre ++ ⟨.binary o, p⟩ :: post) (ho : o ≠ .subtract) : ¬ NoOperandBefore pre := by
  intro hb
  rcases List.eq_nil_or_concat pre with rfl | ⟨us, x, rfl⟩
  · obtain ⟨t, vs, rfl, ht⟩ := h.first
    cases e
    rcases ht with ht | ht
    · cases ht
    · cases ht; exact ho rfl
  · rw [List.concat_eq_append] at hb e
    have hx := noOperandBefore_snoc.1 hb
    rcases tidy_follow h (pre := us) (x := x) (y := ⟨.binary o, p⟩) (post := post) (by rw [e]; simp) with ⟨h1, _⟩ | ⟨_, h2 | ⟨_, h2⟩⟩
    · rw [hx] at h1; cases h1
    · rcases h2 with h2 | h2
      · cases h2
      · cases h2; exact ho rfl
    · cases h2

/-- After a word that needs an operand, there is one. -/
theorem tidy_after : ∀ (post : List PTok) {ts pre : List PTok} {x : PTok}, Tidy ts → ts = pre ++ x :: post →
    endsOperand x.value = false → x.value ≠ .openParen → ¬ NoOperandAfter post := by
  intro post
  induction post with
  | nil =>
    intro ts pre x h e hx _ _
    obtain ⟨t, us, ht, ht'⟩ := h.last
    rw [ht] at e
    have := (List.append_inj' e rfl).2
    cases this
    rw [hx] at ht'; cases ht'
  | cons y post ih =>
    intro ts pre x h e hx hne hn
    rcases tidy_follow h e with ⟨h1, _⟩ | ⟨_, h2 | ⟨h2, _⟩⟩
    · rw [hx] at h1; cases h1
    · rcases h2 with h2 | h2
      · rw [hn [] y post rfl] at h2; cases h2
      · refine ih h (pre := pre ++ [x]) (x := y) (by rw [e]; simp) (by rw [h2]; rfl) (by rw [h2]; simp) ?_
        intro qs t rest he
        refine hn (y.position :: qs) t rest ?_
        obtain ⟨v, q⟩ := y
        cases h2
        rw [he]; rfl
    · exact hne h2

/-- `()` only after a function. -/
def EmptyOk (ts : List PTok) : Prop :=
  ∀ pre q r post, ts = pre ++ ⟨.openParen, q⟩ :: ⟨.closeParen, r⟩ :: post → AfterFunction pre

theorem afterFunction_append {us vs : List PTok} (h : AfterFunction vs) : AfterFunction (us ++ vs) := by
  obtain ⟨ws, f, p, rfl⟩ := h
  exact ⟨us ++ ws, f, p, by simp⟩

theorem emptyOk_append {ts us : List PTok} (h : EmptyOk ts) (h' : EmptyOk us)
    (hm : ∀ vs p, ts = vs ++ [⟨.openParen, p⟩] → ∀ q ws, us ≠ ⟨.closeParen, q⟩ :: ws) : EmptyOk (ts ++ us) := by
  intro pre q r post e
  rcases List.append_eq_append_iff.1 e with ⟨x, rfl, e2⟩ | ⟨x, rfl, e2⟩
  · exact afterFunction_append (h' x q r post e2)
  · cases x with
    | nil => simpa using afterFunction_append (us := pre) (h' [] q r post (by simpa using e2.symm))
    | cons y x =>
      cases x with
      | nil =>
        simp only [List.cons_append, List.nil_append, List.cons.injEq] at e2
        obtain ⟨rfl, e2⟩ := e2
        exact absurd e2.symm (hm pre q rfl r post)
      | cons z x =>
        simp only [List.cons_append, List.cons.injEq] at e2
        obtain ⟨rfl, rfl, e2⟩ := e2
        exact h pre q r x rfl

theorem emptyOk_one {t : PTok} : EmptyOk [t] := by
  intro pre q r post e
  have := congrArg List.length e
  simp at this
  omega

theorem emptyOk_cons {t : PTok} {ts : List PTok} (h : EmptyOk ts)
    (hm : t.value ≠ .openParen ∨ ∀ q ws, ts ≠ ⟨.closeParen, q⟩ :: ws) : EmptyOk (t :: ts) := by
  refine emptyOk_append (ts := [t]) emptyOk_one h ?_
  intro vs p e q ws e'
  have : vs = [] := by
    have := congrArg List.length e
    simp at this
    exact this
  subst this
  cases e
  rcases hm with hm | hm
  · exact hm rfl
  · exact hm q ws e'

theorem emptyOk_join {t : PTok} {ts us : List PTok} (h : EmptyOk ts) (h' : EmptyOk us) (ht : t.value ≠ .openParen)
    (ht' : t.value ≠ .closeParen) : EmptyOk (ts ++ t :: us) := by
  refine emptyOk_append h (emptyOk_cons h' (.inl ht)) ?_
  intro vs p e q ws e'
  cases e'
  exact ht' rfl

theorem tidy_not_close {ts : List PTok} (h : Tidy ts) : ∀ q ws, ts ≠ ⟨.closeParen, q⟩ :: ws := by
  rintro q ws rfl
  obtain ⟨t, us, e, ht⟩ := h.first
  cases e
  rcases ht with ht | ht <;> cases ht

theorem emptyOk_wrap {ts : List PTok} (p q : Position) (h : EmptyOk ts) (ht : Tidy ts) :
    EmptyOk (⟨.openParen, p⟩ :: (ts ++ [⟨.closeParen, q⟩])) := by
  refine emptyOk_cons (emptyOk_append h emptyOk_one ?_) (.inr ?_)
  · intro vs r e
    obtain ⟨t, us, e', ht'⟩ := ht.last
    rw [e] at e'
    have := (List.append_inj' e' rfl).2
    cases this
    cases ht'
  · obtain ⟨t, us, rfl, ht'⟩ := ht.first
    rintro r ws e
    cases e
    rcases ht' with ht' | ht' <;> cases ht'

mutual
theorem expr_empty : ∀ {k ts n}, Expr k ts n → EmptyOk ts
  | _, _, _, .signed h => signed_empty h
  | _, _, _, .lift h => expr_empty h
  | _, _, _, .op h1 _ h2 => emptyOk_join (expr_empty h1) (expr_empty h2) (by simp) (by simp)
theorem signed_empty : ∀ {ts n}, Signed ts n → EmptyOk ts
  | _, _, .minus h => emptyOk_cons (signed_empty h) (.inl (by simp))
  | _, _, .atom h => atom_empty h
theorem atom_empty : ∀ {ts n}, Atom ts n → EmptyOk ts
  | _, _, .number => emptyOk_one
  | _, _, .variable => emptyOk_one
  | _, _, .paren h => emptyOk_wrap _ _ (expr_empty h) (expr_tidy h)
  | _, _, .unary h => emptyOk_cons (signed_empty h) (.inl (by simp))
  | _, _, .functionBare h _ => emptyOk_cons (signed_empty h) (.inl (by simp))
  | _, _, .functionEmpty (f := f) (p := p) (q := q) (r := r) => by
    intro pre q' r' post e
    cases pre with
    | nil => cases e
    | cons a pre =>
      cases pre with
      | nil =>
        simp only [List.cons_append, List.nil_append, List.cons.injEq] at e
        rw [← e.1]
        exact ⟨[], f, p, rfl⟩
      | cons b pre =>
        have := congrArg List.length e
        simp at this
        omega
  | _, _, .function h => emptyOk_cons (emptyOk_wrap _ _ (arguments_empty h) (arguments_tidy h)) (.inl (by simp))
theorem arguments_empty : ∀ {ts ns}, Arguments ts ns → EmptyOk ts
  | _, _, .one h => expr_empty h
  | _, _, .more h h' => emptyOk_join (expr_empty h) (arguments_empty h') (by simp) (by simp)
end

theorem input_empty {ts target n} (h : Input ts target n) : EmptyOk ts := by
  cases h with
  | expression h => exact expr_empty h
  | assignment h => exact emptyOk_cons (emptyOk_cons (expr_empty h) (.inl (by simp))) (.inl (by simp))

theorem input_balanced {ts target n} (h : Input ts target n) : Balanced ts := by
  cases h with
  | expression h => exact expr_balanced h
  | assignment h =>
    exact balanced_cons (by simp) (by simp) (balanced_cons (by simp) (by simp) (expr_balanced h))

/-- A list that ends with an open parenthesis and balanced words is not balanced. -/
theorem open_unbalanced {us vs : List PTok} {q : Position} (hv : Balanced vs) : ¬ Balanced (us ++ ⟨.openParen, q⟩ :: vs) := by
  intro h
  have h1 := h.1
  have h2 := h.2 us ⟨_, rfl⟩
  have e1 : opens [(⟨.openParen, q⟩ : PTok)] = 1 := by simp [opens]
  have e2 : closes [(⟨.openParen, q⟩ : PTok)] = 0 := by simp [closes]
  rw [show us ++ (⟨.openParen, q⟩ : PTok) :: vs = us ++ ([⟨.openParen, q⟩] ++ vs) from by simp,
    opens_append, opens_append, closes_append, closes_append, e1, e2, hv.1] at h1
  omega

/-- The words before a comma inside the parentheses of a function. -/
def InArguments (pre : List PTok) : Prop :=
  ∃ us f p q vs, pre = us ++ ⟨.function f, p⟩ :: ⟨.openParen, q⟩ :: vs ∧ Balanced vs

theorem inArguments_append {us vs : List PTok} (h : InArguments vs) : InArguments (us ++ vs) := by
  obtain ⟨ws, f, p, q, ys, rfl, hb⟩ := h
  exact ⟨us ++ ws, f, p, q, ys, by simp, hb⟩

/-- All commas are inside the parentheses of functions. -/
def CommasOk (ts : List PTok) : Prop := ∀ pre p post, ts = pre ++ ⟨.comma, p⟩ :: post → InArguments pre

theorem commasOk_append {ts us : List PTok} (h : CommasOk ts) (h' : CommasOk us) : CommasOk (ts ++ us) := by
  intro pre p post e
  rcases List.append_eq_append_iff.1 e with ⟨x, rfl, e2⟩ | ⟨x, rfl, e2⟩
  · exact inArguments_append (h' x p post e2)
  · cases x with
    | nil => simpa using inArguments_append (us := pre) (h' [] p post (by simpa using e2.symm))
    | cons y x =>
      simp only [List.cons_append, List.cons.injEq] at e2
      obtain ⟨rfl, e2⟩ := e2
      exact h pre p x rfl

theorem commasOk_one {t : PTok} (h : t.value ≠ .comma) : CommasOk [t] := by
  intro pre p post e
  have : pre = [] := by
    have := congrArg List.length e
    simp at this
    exact List.length_eq_zero_iff.1 (by omega)
  subst this
  cases e
  exact absurd rfl h

theorem commasOk_cons {t : PTok} {ts} (h : CommasOk ts) (ht : t.value ≠ .comma) : CommasOk (t :: ts) :=
  commasOk_append (ts := [t]) (commasOk_one ht) h

/-- Commas of an argument list. -/
def CommasIn (ts : List PTok) : Prop := ∀ pre p post, ts = pre ++ ⟨.comma, p⟩ :: post → InArguments pre ∨ Balanced pre

theorem commasIn_function {ts : List PTok} {f : FnName} {p q r : Position} (h : CommasIn ts) :
    CommasOk (⟨.function f, p⟩ :: ⟨.openParen, q⟩ :: (ts ++ [⟨.closeParen, r⟩])) := by
  intro pre c post e
  cases pre with
  | nil => cases e
  | cons a pre =>
    cases pre with
    | nil => cases e
    | cons b pre =>
      simp only [List.cons_append, List.cons.injEq] at e
      obtain ⟨rfl, rfl, e⟩ := e
      have : ∃ post', ts = pre ++ ⟨.comma, c⟩ :: post' := by
        rcases List.append_eq_append_iff.1 e with ⟨x, rfl, e2⟩ | ⟨x, rfl, e2⟩
        · cases x with
          | nil => cases e2
          | cons y x =>
            have := congrArg List.length e2
            simp at this
        · cases x with
          | nil => cases e2
          | cons y x =>
            simp only [List.cons_append, List.cons.injEq] at e2
            obtain ⟨rfl, e2⟩ := e2
            exact ⟨x, rfl⟩
      obtain ⟨post', h'⟩ := this
      rcases h pre c post' h' with h1 | h1
      · exact inArguments_append (us := [_, _]) h1
      · exact ⟨[], f, p, q, pre, rfl, h1⟩

mutual
theorem expr_commas : ∀ {k ts n}, Expr k ts n → CommasOk ts
  | _, _, _, .signed h => signed_commas h
  | _, _, _, .lift h => expr_commas h
  | _, _, _, .op h1 _ h2 => commasOk_append (expr_commas h1) (commasOk_cons (expr_commas h2) (by simp))
theorem signed_commas : ∀ {ts n}, Signed ts n → CommasOk ts
  | _, _, .minus h => commasOk_cons (signed_commas h) (by simp)
  | _, _, .atom h => atom_commas h
theorem atom_commas : ∀ {ts n}, Atom ts n → CommasOk ts
  | _, _, .number => commasOk_one (by simp)
  | _, _, .variable => commasOk_one (by simp)
  | _, _, .paren h => commasOk_cons (commasOk_append (expr_commas h) (commasOk_one (by simp))) (by simp)
  | _, _, .unary h => commasOk_cons (signed_commas h) (by simp)
  | _, _, .functionBare h _ => commasOk_cons (signed_commas h) (by simp)
  | _, _, .functionEmpty =>
    commasOk_cons (commasOk_cons (commasOk_one (by simp)) (by simp)) (by simp)
  | _, _, .function h => commasIn_function (arguments_commas h)
theorem arguments_commas : ∀ {ts ns}, Arguments ts ns → CommasIn ts
  | _, _, .one h => fun pre p post e => .inl (expr_commas h pre p post e)
  | _, _, .more (ts := ts) (us := us) (p := q) h h' => by
    intro pre p post e
    rcases List.append_eq_append_iff.1 e with ⟨x, rfl, e2⟩ | ⟨x, rfl, e2⟩
    · cases x with
      | nil =>
        rw [List.append_nil]
        exact .inr (expr_balanced h)
      | cons y x =>
        simp only [List.cons_append, List.cons.injEq] at e2
        obtain ⟨rfl, e2⟩ := e2
        rcases arguments_commas h' x p post e2 with h1 | h1
        · have h2 := inArguments_append (us := ts ++ [⟨.comma, q⟩]) h1
          rw [List.append_assoc] at h2
          exact .inl h2
        · exact .inr (balanced_append (expr_balanced h) (balanced_cons (by simp) (by simp) h1))
    · cases x with
      | nil => exact .inr (by simpa using expr_balanced h)
      | cons y x =>
        simp only [List.cons_append, List.cons.injEq] at e2
        obtain ⟨rfl, e2⟩ := e2
        exact .inl (expr_commas h pre p x rfl)
end

theorem input_commas {ts target n} (h : Input ts target n) : CommasOk ts := by
  cases h with
  | expression h => exact expr_commas h
  | assignment h => exact commasOk_cons (commasOk_cons (expr_commas h) (by simp)) (by simp)

theorem inArguments_outside {pre : List PTok} (h : InArguments pre) : ¬ OutsideArguments pre := by
  obtain ⟨us, f, p, q, vs, rfl, hv⟩ := h
  rintro (h | ⟨us', q', vs', e, hv', hf⟩)
  · rw [show us ++ (⟨.function f, p⟩ : PTok) :: ⟨.openParen, q⟩ :: vs = (us ++ [⟨.function f, p⟩]) ++ ⟨.openParen, q⟩ :: vs
      from by simp] at h
    exact open_unbalanced hv h
  · have e' : (us ++ [(⟨.function f, p⟩ : PTok)]) ++ ⟨.openParen, q⟩ :: vs = us' ++ ⟨.openParen, q'⟩ :: vs' := by
      rw [← e]; simp
    rcases List.append_eq_append_iff.1 e' with ⟨x, rfl, e2⟩ | ⟨x, e1, e2⟩
    · cases x with
      | nil => rw [List.append_nil] at hf; exact hf ⟨us, f, p, rfl⟩
      | cons y x =>
        simp only [List.cons_append, List.cons.injEq] at e2
        obtain ⟨rfl, rfl⟩ := e2
        exact open_unbalanced hv' hv
    · cases x with
      | nil => rw [List.append_nil] at e1; rw [← e1] at hf; exact hf ⟨us, f, p, rfl⟩
      | cons y x =>
        simp only [List.cons_append, List.cons.injEq] at e2
        obtain ⟨rfl, rfl⟩ := e2
        exact open_unbalanced hv hv'

theorem defect_real {ts : List PTok} {text : Str} {p : Position} (h : Defect ts text p) :
    ∀ target n, ¬ Input ts target n := by
  intro target n hin
  have ht := input_tidy hin
  cases h with
  | nothing h =>
    rcases h with rfl | ⟨x, q, r, rfl⟩
    · obtain ⟨t, us, e, _⟩ := ht.first
      cases e
    · obtain ⟨t, us, e, he⟩ := ht.last
      have := (List.append_inj' (s₁ := [_]) (t₁ := [_]) e rfl).2
      cases this
      cases he
  | @assign pre p post e h =>
    cases hin with
    | expression hx => exact expr_noAssign hx ⟨.assign, p⟩ (by rw [e]; simp) rfl
    | @assignment x q r us _ hx =>
      cases pre with
      | nil => cases e
      | cons a pre =>
        cases pre with
        | nil =>
          simp only [List.cons_append, List.nil_append, List.cons.injEq] at e
          exact h ⟨x, q, by rw [e.1]⟩
        | cons b pre =>
          simp only [List.cons_append, List.cons.injEq] at e
          exact expr_noAssign hx ⟨.assign, p⟩ (by rw [e.2.2]; simp) rfl
  | comma e h => exact inArguments_outside (input_commas hin _ _ _ e) h
  | operator e ho h => exact tidy_before ht e ho h
  | opened e h =>
    have := input_balanced hin
    rw [e] at this
    exact open_unbalanced h this
  | @closed pre p post e h =>
    have h2 := (input_balanced hin).2 (pre ++ [⟨.closeParen, p⟩]) ⟨post, by rw [e]; simp⟩
    have e3 : opens [(⟨.closeParen, p⟩ : PTok)] = 0 := by simp [opens]
    have e4 : closes [(⟨.closeParen, p⟩ : PTok)] = 1 := by simp [closes]
    rw [opens_append, closes_append, e3, e4, h.1] at h2
    omega
  | empty e h => exact h (input_empty hin _ _ _ _ e)
  | binary e h =>
    rcases h with ⟨ho, h⟩ | h
    · exact tidy_before ht e ho h
    · exact tidy_after _ ht e rfl (by simp) h
  | «prefix» e h1 h =>
    refine tidy_after _ ht e ?_ ?_ h
    · rcases h1 with rfl | ⟨rfl, _⟩ <;> rfl
    · rcases h1 with rfl | ⟨rfl, _⟩ <;> simp
  | commaFirst e _ =>
    rcases tidy_follow ht e with ⟨h1, _⟩ | ⟨_, h2 | ⟨_, h2⟩⟩
    · cases h1
    · rcases h2 with h2 | h2 <;> cases h2
    · cases h2
  | commaLast e h => exact tidy_after _ ht e rfl (by simp) h
  | function e h => exact tidy_after _ ht e rfl (by simp) h
  | @gap pre x y post p e h1 h2 =>
    rcases tidy_follow ht e with ⟨_, ⟨o, h3⟩ | h3 | h3 | h3⟩ | ⟨h3, _⟩
    · rw [h3] at h2; cases h2
    · rw [h3] at h2; cases h2
    · rw [h3] at h2; cases h2
    · rw [h3] at h2; cases h2
    · rw [h1] at h3; cases h3

end Bcalc
