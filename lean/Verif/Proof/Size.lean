import Verif.Spec.Size
import Verif.Proof.Eval2
import Verif.Proof.Display

namespace Bcalc
open Spec

/-! ## Numerators and denominators -/

theorem Spec.AtMost.mono {A B : Nat} {v : Rat} (h : AtMost A v) (hl : A ≤ B) : AtMost B v := ⟨h.1.trans hl, h.2.trans hl⟩

theorem Spec.AtMost.one_le {B : Nat} {v : Rat} (h : AtMost B v) : 1 ≤ B := le_trans v.den_pos h.2

/-- A fraction that can be reduced gets shorter. -/
theorem atMost_div {a b : Int} {B : Nat} (hb : b ≠ 0) (h1 : a.natAbs ≤ B) (h2 : b.natAbs ≤ B) :
    AtMost B ((a : Rat) / (b : Rat)) := by
  rw [← Rat.divInt_eq_div]
  refine ⟨?_, ?_⟩
  · by_cases ha : a = 0
    · subst ha; simp
    · exact (Nat.le_of_dvd (Int.natAbs_pos.2 ha) (Int.natAbs_dvd_natAbs.2 (Rat.num_dvd a hb))).trans h1
  · have h := Int.natAbs_dvd_natAbs.2 (Rat.den_dvd a b)
    rw [Int.natAbs_natCast] at h
    exact (Nat.le_of_dvd (Int.natAbs_pos.2 hb) h).trans h2

theorem den_ne (v : Rat) : (v.den : Rat) ≠ 0 := by exact_mod_cast v.den_nz

theorem eq_num_den (v : Rat) : v = (v.num : Rat) / (v.den : Rat) := (Rat.num_div_den v).symm

theorem atMost_add {A B : Nat} {a b : Rat} (ha : AtMost A a) (hb : AtMost B b) : AtMost (2 * A * B) (a + b) := by
  have he : a + b = ((a.num * b.den + b.num * a.den : Int) : Rat) / ((a.den * b.den : Int) : Rat) := by
    conv_lhs => rw [eq_num_den a, eq_num_den b]
    have := den_ne a
    have := den_ne b
    push_cast
    field_simp
  rw [he]
  refine atMost_div (by exact_mod_cast Nat.mul_ne_zero a.den_nz b.den_nz) ?_ ?_
  · refine (Int.natAbs_add_le _ _).trans ?_
    rw [Int.natAbs_mul, Int.natAbs_mul, Int.natAbs_natCast, Int.natAbs_natCast]
    have h1 := Nat.mul_le_mul ha.1 hb.2
    have h2 := Nat.mul_le_mul hb.1 ha.2
    calc _ ≤ A * B + B * A := Nat.add_le_add h1 h2
      _ = 2 * A * B := by ring
  · rw [Int.natAbs_mul, Int.natAbs_natCast, Int.natAbs_natCast]
    have h1 := Nat.mul_le_mul ha.2 hb.2
    calc _ ≤ A * B := h1
      _ ≤ 2 * A * B := by rw [Nat.mul_assoc]; omega

theorem atMost_neg {A : Nat} {a : Rat} (h : AtMost A a) : AtMost A (-a) := by
  refine ⟨?_, ?_⟩
  · rw [Rat.neg_num, Int.natAbs_neg]; exact h.1
  · rw [Rat.neg_den]; exact h.2

theorem atMost_abs {A : Nat} {a : Rat} (h : AtMost A a) : AtMost A |a| := by
  rcases abs_choice a with e | e <;> rw [e]
  · exact h
  · exact atMost_neg h

theorem atMost_sub {A B : Nat} {a b : Rat} (ha : AtMost A a) (hb : AtMost B b) : AtMost (2 * A * B) (a - b) := by
  rw [sub_eq_add_neg]
  exact atMost_add ha (atMost_neg hb)

theorem atMost_mul {A B : Nat} {a b : Rat} (ha : AtMost A a) (hb : AtMost B b) : AtMost (A * B) (a * b) := by
  have he : a * b = ((a.num * b.num : Int) : Rat) / ((a.den * b.den : Int) : Rat) := by
    conv_lhs => rw [eq_num_den a, eq_num_den b]
    push_cast
    rw [div_mul_div_comm]
  rw [he]
  refine atMost_div (by exact_mod_cast Nat.mul_ne_zero a.den_nz b.den_nz) ?_ ?_
  · rw [Int.natAbs_mul]; exact Nat.mul_le_mul ha.1 hb.1
  · rw [Int.natAbs_mul, Int.natAbs_natCast, Int.natAbs_natCast]; exact Nat.mul_le_mul ha.2 hb.2

theorem atMost_quot {A B : Nat} {a b : Rat} (ha : AtMost A a) (hb : AtMost B b) (h0 : b ≠ 0) : AtMost (A * B) (a / b) := by
  have hn : b.num ≠ 0 := Rat.num_ne_zero.2 h0
  have he : a / b = ((a.num * b.den : Int) : Rat) / ((a.den * b.num : Int) : Rat) := by
    conv_lhs => rw [eq_num_den a, eq_num_den b]
    push_cast
    rw [div_div_div_eq]
  rw [he]
  refine atMost_div (mul_ne_zero (by exact_mod_cast a.den_nz) hn) ?_ ?_
  · rw [Int.natAbs_mul, Int.natAbs_natCast]; exact Nat.mul_le_mul ha.1 hb.2
  · rw [Int.natAbs_mul, Int.natAbs_natCast]; exact Nat.mul_le_mul ha.2 hb.1

theorem remainder_le {a b v : Rat} (h : Remainder a b v) : |v| ≤ |a| := by
  obtain ⟨⟨z, hz⟩, h2, h3⟩ := h
  by_contra hlt
  rw [not_le] at hlt
  have hz0 : z ≠ 0 := by
    rintro rfl
    simp at hz
    rw [hz] at hlt
    exact lt_irrefl _ hlt
  have h4 : |b| ≤ |a - v| := by
    have : a - v = b * z := by rw [hz]; ring
    rw [this, abs_mul]
    have h1 : (1 : Rat) ≤ |(z : Rat)| := by
      have := Int.one_le_abs hz0
      exact_mod_cast this
    nlinarith [abs_nonneg b]
  have h5 : |a - v| = |v| - |a| := by
    rcases le_total 0 a with ha | ha
    · rcases le_total 0 v with hv | hv
      · rw [abs_of_nonneg ha, abs_of_nonneg hv] at *
        rw [abs_of_nonpos (by linarith)]; ring
      · rw [abs_of_nonneg ha, abs_of_nonpos hv] at *
        have : v < 0 := by
          rcases lt_or_eq_of_le hv with h | h
          · exact h
          · subst h; simp at hlt; linarith
        have : a = 0 := by nlinarith
        subst this
        rw [abs_of_nonneg (by linarith)]; ring
    · rcases le_total 0 v with hv | hv
      · rw [abs_of_nonpos ha, abs_of_nonneg hv] at *
        have : 0 < v := by linarith
        have : a = 0 := by nlinarith
        subst this
        rw [abs_of_nonpos (by linarith)]; ring
      · rw [abs_of_nonpos ha, abs_of_nonpos hv] at *
        rw [abs_of_nonneg (by linarith)]; ring
  have := abs_nonneg a
  linarith

theorem atMost_rem {A B : Nat} {a b v : Rat} (ha : AtMost A a) (hb : AtMost B b) (h : Remainder a b v) :
    AtMost (A * B) v := by
  have hle := remainder_le h
  obtain ⟨⟨z, hz⟩, _, _⟩ := h
  have hA : (0 : Rat) < a.den := by exact_mod_cast a.den_pos
  have hB : (0 : Rat) < b.den := by exact_mod_cast b.den_pos
  have he : v = ((a.num * b.den - b.num * z * a.den : Int) : Rat) / ((a.den * b.den : Int) : Rat) := by
    have : v = a - b * z := by rw [hz]; ring
    rw [this]
    conv_lhs => rw [eq_num_den a, eq_num_den b]
    push_cast
    field_simp
  have hnum : (a.num * b.den - b.num * z * a.den : Int).natAbs ≤ A * B := by
    have h1 : |((a.num * b.den - b.num * z * a.den : Int) : Rat)| ≤ |((a.num * b.den : Int) : Rat)| := by
      have e1 : ((a.num * b.den - b.num * z * a.den : Int) : Rat) = v * (a.den * b.den) := by
        rw [he]; push_cast; field_simp
      have e2 : ((a.num * b.den : Int) : Rat) = a * (a.den * b.den) := by
        push_cast
        rw [← mul_assoc, Rat.mul_den_eq_num]
      rw [e1, e2, abs_mul, abs_mul a]
      exact mul_le_mul_of_nonneg_right hle (abs_nonneg _)
    have h2 : (a.num * b.den - b.num * z * a.den : Int).natAbs ≤ (a.num * b.den : Int).natAbs := by
      rw [← Int.cast_abs, ← Int.cast_abs, Int.cast_le, Int.abs_eq_natAbs, Int.abs_eq_natAbs] at h1
      exact_mod_cast h1
    rw [Int.natAbs_mul, Int.natAbs_natCast] at h2
    exact h2.trans (Nat.mul_le_mul ha.1 hb.2)
  rw [he]
  refine atMost_div (by exact_mod_cast Nat.mul_ne_zero a.den_nz b.den_nz) hnum ?_
  rw [Int.natAbs_mul, Int.natAbs_natCast, Int.natAbs_natCast]
  exact Nat.mul_le_mul ha.2 hb.2

/-! ## The weight of an expression -/

/-- The larger of numerator and denominator. -/
def height (v : Rat) : Nat := max v.num.natAbs v.den

theorem atMost_height (v : Rat) : AtMost (height v) v := ⟨le_max_left _ _, le_max_right _ _⟩

theorem height_pos (v : Rat) : 1 ≤ height v := le_trans v.den_pos (le_max_right _ _)

theorem height_le {v : Rat} {B : Nat} (h : AtMost B v) : height v ≤ B := max_le h.1 h.2

mutual
def weight (B : Nat) : Node → Nat
  | .number v _ => height v
  | .variable _ _ => B
  | .paren _ _ n => weight B n
  | .unary _ _ n => weight B n
  | .binary _ _ n n' => 2 * weight B n * weight B n'
  | .function _ _ ns _ => weightAll B ns
def weightAll (B : Nat) : List Node → Nat
  | [] => 1
  | n :: ns => weight B n * weightAll B ns
end

mutual
theorem weight_pos {B : Nat} (hB : 1 ≤ B) : ∀ n : Node, 1 ≤ weight B n
  | .number v _ => by unfold weight; exact height_pos v
  | .variable _ _ => by unfold weight; exact hB
  | .paren _ _ n => by unfold weight; exact weight_pos hB n
  | .unary _ _ n => by unfold weight; exact weight_pos hB n
  | .binary _ _ n n' => by
    unfold weight
    have h1 := weight_pos hB n
    have h2 := weight_pos hB n'
    have := Nat.mul_le_mul h1 h2
    rw [Nat.mul_assoc]; omega
  | .function _ _ ns _ => by unfold weight; exact weightAll_pos hB ns
theorem weightAll_pos {B : Nat} (hB : 1 ≤ B) : ∀ ns : List Node, 1 ≤ weightAll B ns
  | [] => by unfold weightAll; exact le_refl 1
  | n :: ns => by
    unfold weightAll
    exact Nat.mul_le_mul (weight_pos hB n) (weightAll_pos hB ns)
end

theorem weightAll_mem {B : Nat} (hB : 1 ≤ B) {n : Node} : ∀ {ns : List Node}, n ∈ ns → weight B n ≤ weightAll B ns
  | [], h => by simp at h
  | k :: ns, h => by
    unfold weightAll
    rcases List.mem_cons.1 h with rfl | h
    · exact Nat.le_mul_of_pos_right _ (weightAll_pos hB ns)
    · exact (weightAll_mem hB h).trans (Nat.le_mul_of_pos_left _ (weight_pos hB k))

theorem weight_part {B : Nat} (hB : 1 ≤ B) {s n : Node} (h : Part s n) : weight B s ≤ weight B n := by
  induction h with
  | here => exact le_refl _
  | paren _ ih => rw [weight.eq_def B (.paren ..)]; exact ih
  | unary _ ih => rw [weight.eq_def B (.unary ..)]; exact ih
  | @left o p n n' _ ih =>
    rw [weight.eq_def B (.binary ..)]
    simp only
    have h2 := weight_pos hB n'
    calc _ ≤ weight B n := ih
      _ ≤ weight B n * (2 * weight B n') := Nat.le_mul_of_pos_right _ (by omega)
      _ = _ := by ring
  | @right o p n n' _ ih =>
    rw [weight.eq_def B (.binary ..)]
    simp only
    have h2 := weight_pos hB n
    calc _ ≤ weight B n' := ih
      _ ≤ (2 * weight B n) * weight B n' := Nat.le_mul_of_pos_left _ (by omega)
  | argument hm _ ih =>
    rw [weight.eq_def B (.function ..)]
    simp only
    exact ih.trans (weightAll_mem hB hm)

/-- No powers and no roots. -/
def Rational (n : Node) : Prop :=
  (∀ p a b, ¬ Part (.binary .exponent p a b) n) ∧ ∀ p a, ¬ Part (.unary .squareRoot p a) n

theorem Rational.sub {n s : Node} (h : Rational n) (hs : ∀ t, Part t s → Part t n) : Rational s :=
  ⟨fun p a b hp => h.1 p a b (hs _ hp), fun p a hp => h.2 p a (hs _ hp)⟩

/-- The variables that occur have values of at most that size. -/
def VarsWithin (ρ : Valuation) (B : Nat) (n : Node) : Prop :=
  ∀ x p q, Part (.variable x p) n → ρ x = some q → AtMost B q

theorem VarsWithin.sub {ρ : Valuation} {B : Nat} {n s : Node} (h : VarsWithin ρ B n) (hs : ∀ t, Part t s → Part t n) :
    VarsWithin ρ B s := fun x p q hp => h x p q (hs _ hp)

mutual
theorem value_weight {ε : Rat} {ρ : Valuation} {B : Nat} (hB : 1 ≤ B)  :
    ∀ {n v}, Value ε ρ n v → Rational n → VarsWithin ρ B n → AtMost (weight B n) v
  | _, _, .number, _, _ => by unfold weight; exact atMost_height _
  | _, _, .variable h, _, w => by unfold weight; exact w _ _ _ .here h
  | _, _, .paren h, k, w => by unfold weight; exact value_weight hB h (k.sub fun _ => .paren) (w.sub fun _ => .paren)
  | _, _, .negate h, k, w => by rw [weight]; exact atMost_neg (value_weight hB h (k.sub fun _ => .unary) (w.sub fun _ => .unary))
  | _, _, .abs h, k, w => by rw [weight]; exact atMost_abs (value_weight hB h (k.sub fun _ => .unary) (w.sub fun _ => .unary))
  | _, _, .sqrt _ _, k, w => absurd .here (k.2 _ _)
  | _, _, .add h h', k, w => by
    rw [weight]; exact atMost_add (value_weight hB h (k.sub fun _ => .left) (w.sub fun _ => .left)) (value_weight hB h' (k.sub fun _ => .right) (w.sub fun _ => .right))
  | _, _, .subtract h h', k, w => by
    rw [weight]; exact atMost_sub (value_weight hB h (k.sub fun _ => .left) (w.sub fun _ => .left)) (value_weight hB h' (k.sub fun _ => .right) (w.sub fun _ => .right))
  | _, _, .multiply h h', k, w => by
    rw [weight]
    exact (atMost_mul (value_weight hB h (k.sub fun _ => .left) (w.sub fun _ => .left)) (value_weight hB h' (k.sub fun _ => .right) (w.sub fun _ => .right))).mono
      (by rw [Nat.mul_assoc]; omega)
  | _, _, .divide h h' h0, k, w => by
    rw [weight]
    exact (atMost_quot (value_weight hB h (k.sub fun _ => .left) (w.sub fun _ => .left)) (value_weight hB h' (k.sub fun _ => .right) (w.sub fun _ => .right)) h0).mono
      (by rw [Nat.mul_assoc]; omega)
  | _, _, .modulus h h' _ hr, k, w => by
    rw [weight]
    exact (atMost_rem (value_weight hB h (k.sub fun _ => .left) (w.sub fun _ => .left)) (value_weight hB h' (k.sub fun _ => .right) (w.sub fun _ => .right)) hr).mono
      (by rw [Nat.mul_assoc]; omega)
  | _, _, .power _ _ _, k, w => absurd .here (k.1 _ _ _)
  | _, _, .max h h1 _, k, w => by
    rw [weight]; exact values_weight hB h (fun n hn => k.sub fun _ => .argument hn) (fun n hn => w.sub fun _ => .argument hn) _ h1
  | _, _, .min h h1 _, k, w => by
    rw [weight]; exact values_weight hB h (fun n hn => k.sub fun _ => .argument hn) (fun n hn => w.sub fun _ => .argument hn) _ h1
theorem values_weight {ε : Rat} {ρ : Valuation} {B : Nat} (hB : 1 ≤ B)  :
    ∀ {ns vs}, Values ε ρ ns vs → (∀ n ∈ ns, Rational n) → (∀ n ∈ ns, VarsWithin ρ B n) → ∀ v ∈ vs, AtMost (weightAll B ns) v
  | _, _, .nil, _, _, v, hv => by simp at hv
  | n :: ns, _, .cons h h', k, w, v, hv => by
    unfold weightAll
    rcases List.mem_cons.1 hv with e | hv
    · rw [e]
      exact (value_weight hB h (k _ (by simp)) (w _ (by simp))).mono (Nat.le_mul_of_pos_right _ (weightAll_pos hB ns))
    · exact (values_weight hB h' (fun n hn => k n (by simp [hn])) (fun n hn => w n (by simp [hn])) v hv).mono (Nat.le_mul_of_pos_left _ (weight_pos hB n))
end

/-! ## The weight of the tokens -/

def tokenWeight (B : Nat) : Token → Nat
  | .number v => height v
  | .variable _ => B
  | .binary _ => 2
  | _ => 1

def tokensWeight (B : Nat) (ts : List PTok) : Nat := (ts.map fun t => tokenWeight B t.value).prod

theorem tokensWeight_cons (B : Nat) (t : PTok) (ts : List PTok) :
    tokensWeight B (t :: ts) = tokenWeight B t.value * tokensWeight B ts := by simp [tokensWeight]

theorem tokensWeight_append (B : Nat) (ts us : List PTok) :
    tokensWeight B (ts ++ us) = tokensWeight B ts * tokensWeight B us := by simp [tokensWeight]

theorem tokensWeight_nil (B : Nat) : tokensWeight B [] = 1 := rfl

mutual
theorem expr_weight {B : Nat} : ∀ {k ts n}, Expr k ts n → weight B n ≤ tokensWeight B ts
  | _, _, _, .signed h => signed_weight h
  | _, _, _, .lift h => expr_weight h
  | _, _, _, .op h _ h' => by
    rw [weight, tokensWeight_append, tokensWeight_cons]
    have := Nat.mul_le_mul (expr_weight (B := B) h) (expr_weight (B := B) h')
    simp only [tokenWeight]
    calc _ = 2 * (weight B _ * weight B _) := by ring
      _ ≤ 2 * (tokensWeight B _ * tokensWeight B _) := Nat.mul_le_mul_left _ this
      _ = _ := by ring
theorem signed_weight {B : Nat} : ∀ {ts n}, Signed ts n → weight B n ≤ tokensWeight B ts
  | _, _, .minus h => by
    rw [weight, tokensWeight_cons]
    simp only [tokenWeight]
    have := signed_weight (B := B) h
    omega
  | _, _, .atom h => atom_weight h
theorem atom_weight {B : Nat} : ∀ {ts n}, Atom ts n → weight B n ≤ tokensWeight B ts
  | _, _, .number => by unfold weight; simp [tokensWeight, tokenWeight]
  | _, _, .variable => by unfold weight; simp [tokensWeight, tokenWeight]
  | _, _, .paren h => by
    rw [weight, tokensWeight_cons, tokensWeight_append, tokensWeight_cons, tokensWeight_nil]
    simpa [tokenWeight] using expr_weight (B := B) h
  | _, _, .unary h => by
    rw [weight, tokensWeight_cons]
    simpa [tokenWeight] using signed_weight (B := B) h
  | _, _, .functionBare h _ => by
    rw [weight, tokensWeight_cons, weightAll, weightAll]
    simpa [tokenWeight] using signed_weight (B := B) h
  | _, _, .functionEmpty => by
    rw [weight, weightAll]
    simp [tokensWeight, tokenWeight]
  | _, _, .function h => by
    rw [weight, tokensWeight_cons, tokensWeight_cons, tokensWeight_append, tokensWeight_cons, tokensWeight_nil]
    simpa [tokenWeight] using arguments_weight (B := B) h
theorem arguments_weight {B : Nat} : ∀ {ts ns}, Arguments ts ns → weightAll B ns ≤ tokensWeight B ts
  | _, _, .one h => by
    rw [weightAll, weightAll, Nat.mul_one]; exact expr_weight h
  | _, _, .more h h' => by
    rw [weightAll, tokensWeight_append, tokensWeight_cons]
    simpa [tokenWeight] using Nat.mul_le_mul (expr_weight (B := B) h) (arguments_weight (B := B) h')
end

mutual
theorem expr_nodes : ∀ {k ts n}, Expr k ts n → nodes n ≤ ts.length
  | _, _, _, .signed h => signed_nodes h
  | _, _, _, .lift h => expr_nodes h
  | _, _, _, .op h _ h' => by
    rw [nodes, List.length_append, List.length_cons]
    have := expr_nodes h
    have := expr_nodes h'
    omega
theorem signed_nodes : ∀ {ts n}, Signed ts n → nodes n ≤ ts.length
  | _, _, .minus h => by
    rw [nodes, List.length_cons]
    have := signed_nodes h
    omega
  | _, _, .atom h => atom_nodes h
theorem atom_nodes : ∀ {ts n}, Atom ts n → nodes n ≤ ts.length
  | _, _, .number => by simp [nodes]
  | _, _, .variable => by simp [nodes]
  | _, _, .paren h => by
    rw [nodes, List.length_cons, List.length_append]
    have := expr_nodes h
    simp; omega
  | _, _, .unary h => by
    rw [nodes, List.length_cons]
    have := signed_nodes h
    omega
  | _, _, .functionBare h _ => by
    rw [nodes, List.length_cons, nodesAll, nodesAll]
    have := signed_nodes h
    omega
  | _, _, .functionEmpty => by simp [nodes, nodesAll]
  | _, _, .function h => by
    rw [nodes, List.length_cons, List.length_cons, List.length_append]
    have := arguments_nodes h
    omega
theorem arguments_nodes : ∀ {ts ns}, Arguments ts ns → nodesAll ns ≤ ts.length
  | _, _, .one h => by
    rw [nodesAll, nodesAll]; exact expr_nodes h
  | _, _, .more h h' => by
    rw [nodesAll, List.length_append, List.length_cons]
    have := expr_nodes h
    have := arguments_nodes h'
    omega
end

mutual
theorem expr_part : ∀ {k ts n s}, Expr k ts n → Part s n →
    (∀ p a b, s = .binary .exponent p a b → ∃ q, ⟨.binary .exponent, q⟩ ∈ ts) ∧
    (∀ p a, s = .unary .squareRoot p a → ∃ q, ⟨.unary .squareRoot, q⟩ ∈ ts)
  | _, _, _, _, .signed h, hs => signed_part h hs
  | _, _, _, _, .lift h, hs => expr_part h hs
  | _, _, _, s, .op (ts := ts) (o := o) (us := us) h _ h', hs => by
    cases hs with
    | here =>
      refine ⟨?_, ?_⟩
      · intro p a b e
        simp only [Node.binary.injEq] at e
        exact ⟨_, by rw [← e.1]; exact List.mem_append_right _ (List.mem_cons_self ..)⟩
      · intro p a e; cases e
    | left hs =>
      obtain ⟨h1, h2⟩ := expr_part h hs
      exact ⟨fun p a b e => by obtain ⟨q, hq⟩ := h1 p a b e; exact ⟨q, by simp [hq]⟩,
        fun p a e => by obtain ⟨q, hq⟩ := h2 p a e; exact ⟨q, by simp [hq]⟩⟩
    | right hs =>
      obtain ⟨h1, h2⟩ := expr_part h' hs
      exact ⟨fun p a b e => by obtain ⟨q, hq⟩ := h1 p a b e; exact ⟨q, by simp [hq]⟩,
        fun p a e => by obtain ⟨q, hq⟩ := h2 p a e; exact ⟨q, by simp [hq]⟩⟩
theorem signed_part : ∀ {ts n s}, Signed ts n → Part s n →
    (∀ p a b, s = .binary .exponent p a b → ∃ q, ⟨.binary .exponent, q⟩ ∈ ts) ∧
    (∀ p a, s = .unary .squareRoot p a → ∃ q, ⟨.unary .squareRoot, q⟩ ∈ ts)
  | _, _, _, .minus h, hs => by
    cases hs with
    | here => exact ⟨fun _ _ _ e => (by cases e), fun _ _ e => (by cases e)⟩
    | unary hs =>
      obtain ⟨h1, h2⟩ := signed_part h hs
      exact ⟨fun p a b e => by obtain ⟨q, hq⟩ := h1 p a b e; exact ⟨q, by simp [hq]⟩,
        fun p a e => by obtain ⟨q, hq⟩ := h2 p a e; exact ⟨q, by simp [hq]⟩⟩
  | _, _, _, .atom h, hs => atom_part h hs
theorem atom_part : ∀ {ts n s}, Atom ts n → Part s n →
    (∀ p a b, s = .binary .exponent p a b → ∃ q, ⟨.binary .exponent, q⟩ ∈ ts) ∧
    (∀ p a, s = .unary .squareRoot p a → ∃ q, ⟨.unary .squareRoot, q⟩ ∈ ts)
  | _, _, _, .number, hs => by
    cases hs; exact ⟨fun _ _ _ e => (by cases e), fun _ _ e => (by cases e)⟩
  | _, _, _, .variable, hs => by
    cases hs; exact ⟨fun _ _ _ e => (by cases e), fun _ _ e => (by cases e)⟩
  | _, _, _, .paren h, hs => by
    cases hs with
    | here => exact ⟨fun _ _ _ e => (by cases e), fun _ _ e => (by cases e)⟩
    | paren hs =>
      obtain ⟨h1, h2⟩ := expr_part h hs
      exact ⟨fun p a b e => by obtain ⟨q, hq⟩ := h1 p a b e; exact ⟨q, by simp [hq]⟩,
        fun p a e => by obtain ⟨q, hq⟩ := h2 p a e; exact ⟨q, by simp [hq]⟩⟩
  | _, _, _, .unary h, hs => by
    cases hs with
    | here =>
      refine ⟨fun _ _ _ e => (by cases e), fun p a e => ?_⟩
      simp only [Node.unary.injEq] at e
      exact ⟨_, by rw [← e.1]; exact List.mem_cons_self ..⟩
    | unary hs =>
      obtain ⟨h1, h2⟩ := signed_part h hs
      exact ⟨fun p a b e => by obtain ⟨q, hq⟩ := h1 p a b e; exact ⟨q, by simp [hq]⟩,
        fun p a e => by obtain ⟨q, hq⟩ := h2 p a e; exact ⟨q, by simp [hq]⟩⟩
  | _, _, _, .functionBare h _, hs => by
    cases hs with
    | here => exact ⟨fun _ _ _ e => (by cases e), fun _ _ e => (by cases e)⟩
    | argument hm hs =>
      rw [List.mem_singleton] at hm
      rw [hm] at hs
      obtain ⟨h1, h2⟩ := signed_part h hs
      exact ⟨fun p a b e => by obtain ⟨q, hq⟩ := h1 p a b e; exact ⟨q, by simp [hq]⟩,
        fun p a e => by obtain ⟨q, hq⟩ := h2 p a e; exact ⟨q, by simp [hq]⟩⟩
  | _, _, _, .functionEmpty, hs => by
    cases hs with
    | here => exact ⟨fun _ _ _ e => (by cases e), fun _ _ e => (by cases e)⟩
    | argument hm hs => simp at hm
  | _, _, _, .function h, hs => by
    cases hs with
    | here => exact ⟨fun _ _ _ e => (by cases e), fun _ _ e => (by cases e)⟩
    | argument hm hs =>
      obtain ⟨h1, h2⟩ := arguments_part h hm hs
      exact ⟨fun p a b e => by obtain ⟨q, hq⟩ := h1 p a b e; exact ⟨q, by simp [hq]⟩,
        fun p a e => by obtain ⟨q, hq⟩ := h2 p a e; exact ⟨q, by simp [hq]⟩⟩
theorem arguments_part : ∀ {ts ns n s}, Arguments ts ns → n ∈ ns → Part s n →
    (∀ p a b, s = .binary .exponent p a b → ∃ q, ⟨.binary .exponent, q⟩ ∈ ts) ∧
    (∀ p a, s = .unary .squareRoot p a → ∃ q, ⟨.unary .squareRoot, q⟩ ∈ ts)
  | _, _, _, _, .one h, hm, hs => by
    rw [List.mem_singleton] at hm
    rw [hm] at hs
    exact expr_part h hs
  | _, _, _, _, .more h h', hm, hs => by
    rcases List.mem_cons.1 hm with e | hm
    · rw [e] at hs
      obtain ⟨h1, h2⟩ := expr_part h hs
      exact ⟨fun p a b e => by obtain ⟨q, hq⟩ := h1 p a b e; exact ⟨q, by simp [hq]⟩,
        fun p a e => by obtain ⟨q, hq⟩ := h2 p a e; exact ⟨q, by simp [hq]⟩⟩
    · obtain ⟨h1, h2⟩ := arguments_part h' hm hs
      exact ⟨fun p a b e => by obtain ⟨q, hq⟩ := h1 p a b e; exact ⟨q, by simp [hq]⟩,
        fun p a e => by obtain ⟨q, hq⟩ := h2 p a e; exact ⟨q, by simp [hq]⟩⟩
end

theorem expr_rational {k : Nat} {ts : List PTok} {n : Node} (h : Expr k ts n) (hn : NoPowers ts) : Rational n :=
  ⟨fun p a b hp => by obtain ⟨q, hq⟩ := (expr_part h hp).1 p a b rfl; exact (hn _ hq).1 rfl,
    fun p a hp => by obtain ⟨q, hq⟩ := (expr_part h hp).2 p a rfl; exact (hn _ hq).2 rfl⟩

/-! ## The weight of the line -/

theorem value_le {radix : Nat} : ∀ (ds : List Nat), (∀ d ∈ ds, d < radix) → ∀ acc : Nat,
    ds.foldl (fun acc d => acc * radix + d) acc + 1 ≤ (acc + 1) * radix ^ ds.length
  | [], _, acc => by simp
  | d :: ds, h, acc => by
    rw [List.foldl_cons, List.length_cons, pow_succ]
    refine (value_le ds (fun d hd => h d (by simp [hd])) _).trans ?_
    have hd := h d (by simp)
    have : acc * radix + d + 1 ≤ (acc + 1) * radix := by
      rw [Nat.add_mul]; omega
    calc _ ≤ ((acc + 1) * radix) * radix ^ ds.length := Nat.mul_le_mul_right _ this
      _ = _ := by ring

theorem digits_lt {radix : Nat} {s : Str} {ds : List Nat} (h : Digits radix s ds) : (∀ d ∈ ds, d < radix) ∧ ds.length = s.length := by
  unfold Digits at h
  refine ⟨fun d hd => ?_, h.length_eq.symm⟩
  induction h with
  | nil => simp at hd
  | cons hab _ ih =>
    rcases List.mem_cons.1 hd with rfl | hd
    · exact hab.2
    · exact ih hd

theorem numeral_height {radix : Nat} (h2 : 2 ≤ radix) {w : Str} {v : Rat} (h : Numeral radix w v) :
    height v ≤ radix ^ w.length := by
  have hlen : (noUnderscores w).length ≤ w.length := List.length_filter_le _ _
  have hone : ∀ k, 1 ≤ radix ^ k := fun k => Nat.one_le_pow _ _ (by omega)
  refine height_le ?_
  cases h with
  | @whole ds hd hne =>
    obtain ⟨h3, h4⟩ := digits_lt hd
    have h5 := value_le ds h3 0
    have h6 : value radix ds ≤ radix ^ w.length := by
      have : radix ^ ds.length ≤ radix ^ w.length := Nat.pow_le_pow_right (by omega) (by omega)
      unfold value
      omega
    refine ⟨?_, ?_⟩
    · simpa using h6
    · simpa using hone _
  | @point ip fp ds he hd hne =>
    obtain ⟨h3, h4⟩ := digits_lt hd
    have h5 := value_le ds h3 0
    rw [List.length_append] at h4
    have hlen2 : (noUnderscores w).length = ip.length + fp.length + 1 := by rw [he]; simp; omega
    have hp : ∀ k, k ≤ w.length → radix ^ k ≤ radix ^ w.length := fun k hk => Nat.pow_le_pow_right (by omega) hk
    have := hp ds.length (by omega)
    have := hp fp.length (by omega)
    have he : ((value radix ds : Nat) : Rat) / (radix : Rat) ^ fp.length =
        (((value radix ds : Nat) : Int) : Rat) / (((radix ^ fp.length : Nat) : Int) : Rat) := by push_cast; rfl
    rw [he]
    refine atMost_div (by have := hone fp.length; omega) ?_ ?_
    · rw [Int.natAbs_natCast]; unfold value; omega
    · rw [Int.natAbs_natCast]; omega

theorem lexes_weight {radix : Nat} (h2 : 2 ≤ radix) (B : Nat) {pos : Nat} {line : Str} {ts : List PTok}
    (h : Lexes radix pos line ts) : tokensWeight B ts ≤ B ^ uses ts * radix ^ line.length := by
  have hone : ∀ k, 1 ≤ radix ^ k := fun k => Nat.one_le_pow _ _ (by omega)
  induction h with
  | done => simp [tokensWeight, uses]
  | @blank pos c rest ts _ _ ih =>
    rw [List.length_cons, pow_succ]
    refine ih.trans (Nat.mul_le_mul_left _ (Nat.le_mul_of_pos_right _ (by omega)))
  | @symbol pos c t rest ts hs _ ih =>
    rw [tokensWeight_cons, List.length_cons, pow_succ]
    have hw : tokenWeight B t ≤ radix := by
      cases hs <;> simp only [tokenWeight] <;> omega
    have hu : uses (⟨t, ⟨pos, 1⟩⟩ :: ts) = uses ts := by
      cases hs <;> simp [uses]
    rw [hu]
    calc _ ≤ radix * (B ^ uses ts * radix ^ rest.length) := Nat.mul_le_mul hw ih
      _ = _ := by ring
  | @word pos w t rest ts hne hall hb hw _ ih =>
    rw [tokensWeight_cons, List.length_append, pow_add]
    have key : tokenWeight B t * B ^ uses ts ≤ B ^ uses (⟨t, ⟨pos, w.length⟩⟩ :: ts) * radix ^ w.length := by
      cases hw with
      | «variable» he =>
        have : uses (⟨.variable w, ⟨pos, w.length⟩⟩ :: ts) = uses ts + 1 := by simp [uses]
        rw [this, pow_succ]
        simp only [tokenWeight]
        calc _ = B ^ uses ts * B := by ring
          _ ≤ _ := Nat.le_mul_of_pos_right _ (hone _)
      | number hn =>
        have : ∀ v, uses (⟨.number v, ⟨pos, w.length⟩⟩ :: ts) = uses ts := by simp [uses]
        rw [this]
        simp only [tokenWeight]
        rw [Nat.mul_comm]
        exact Nat.mul_le_mul_left _ (numeral_height h2 hn)
      | _ =>
        simp only [tokenWeight, Nat.one_mul]
        have : ∀ t : Token, (∀ x, t ≠ .variable x) → ∀ p, uses (⟨t, p⟩ :: ts) = uses ts := by
          intro t ht p
          cases t <;> simp [uses] at *
        rw [this _ (by intro x h; cases h)]
        exact Nat.le_mul_of_pos_right _ (hone _)
    calc _ ≤ tokenWeight B t * (B ^ uses ts * radix ^ rest.length) := Nat.mul_le_mul_left _ ih
      _ = (tokenWeight B t * B ^ uses ts) * radix ^ rest.length := by ring
      _ ≤ _ := Nat.mul_le_mul_right _ key
      _ = _ := by ring

theorem lexes_length {radix : Nat} {pos : Nat} {line : Str} {ts : List PTok} (h : Lexes radix pos line ts) :
    ts.length ≤ line.length := by
  induction h with
  | done => simp
  | blank _ _ ih => simp; omega
  | symbol _ _ ih => simp; omega
  | @word pos w t rest ts hne _ _ _ _ ih =>
    have := List.length_pos_iff.2 hne
    simp; omega

end Bcalc
