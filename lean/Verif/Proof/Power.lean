import Verif.Proof.Roots
import Verif.Spec.Denote
import Mathlib.Algebra.Order.Field.Power

/-! # Remainders and powers -/

namespace Bcalc
open Spec

/-! ## Remainder -/

theorem remainder_unique {a b v w : Rat} (hv : Remainder a b v) (hw : Remainder a b w) : v = w := by
  obtain ⟨⟨z, hz⟩, h1, h2⟩ := hv
  obtain ⟨⟨y, hy⟩, h3, h4⟩ := hw
  -- the difference is a multiple of `b` and smaller than `b`
  have hd : v - w = b * ((y - z : Int) : Rat) := by push_cast; linarith
  have hlt : |v - w| < |b| := by
    rcases lt_trichotomy a 0 with ha | ha | ha
    · have hv0 : v ≤ 0 := by by_contra h; nlinarith
      have hw0 : w ≤ 0 := by by_contra h; nlinarith
      rw [abs_of_nonpos hv0] at h1
      rw [abs_of_nonpos hw0] at h3
      rw [abs_lt]
      constructor <;> linarith
    · subst ha
      have zero : ∀ (z : Int) (v : Rat), 0 = b * z + v → |v| < |b| → v = 0 := by
        intro z v hz h1
        have : v = b * ((-z : Int) : Rat) := by push_cast; linarith
        rw [this, abs_mul] at h1
        have hb : 0 < |b| := lt_of_le_of_lt (by positivity) h1
        have : |((-z : Int) : Rat)| < 1 := by
          by_contra hc
          nlinarith [not_lt.1 hc]
        rw [← Int.cast_abs] at this
        have h3 : |(-z : Int)| < 1 := by exact_mod_cast this
        have : (-z : Int) = 0 := Int.abs_lt_one_iff.1 h3
        have hz0 : z = 0 := by omega
        subst hz0
        simp at hz
        exact hz.symm
      rw [zero z v hz h1, zero y w hy h3]
      have := lt_of_le_of_lt (abs_nonneg v) h1
      simpa using this
    · have hv0 : 0 ≤ v := by by_contra h; nlinarith
      have hw0 : 0 ≤ w := by by_contra h; nlinarith
      rw [abs_of_nonneg hv0] at h1
      rw [abs_of_nonneg hw0] at h3
      rw [abs_lt]
      constructor <;> linarith
  rw [hd, abs_mul] at hlt
  have hb : 0 < |b| := lt_of_le_of_lt (by positivity) hlt
  have : |((y - z : Int) : Rat)| < 1 := by
    by_contra hc
    nlinarith [not_lt.1 hc]
  rw [← Int.cast_abs] at this
  have h3 : |(y - z : Int)| < 1 := by exact_mod_cast this
  have : (y - z : Int) = 0 := Int.abs_lt_one_iff.1 h3
  rw [this] at hd
  simp at hd
  linarith

theorem tmod_remainder {A B : Int} {L : Nat} (hL : 0 < L) (hB : B ≠ 0) {a b : Rat}
    (ha : a = (A : Rat) / L) (hb : b = (B : Rat) / L) :
    Remainder a b (Rat.divInt (Int.tmod A B) L) := by
  have hLq : (0 : Rat) < L := by exact_mod_cast hL
  have hv : Rat.divInt (Int.tmod A B) L = ((Int.tmod A B : Int) : Rat) / L := by
    rw [Rat.divInt_eq_div]; simp
  rw [hv]
  refine ⟨⟨Int.tdiv A B, ?_⟩, ?_, ?_⟩
  · have := Int.mul_tdiv_add_tmod A B
    have hq : (B : Rat) * (Int.tdiv A B : Int) + (Int.tmod A B : Int) = A := by exact_mod_cast this
    rw [ha, hb, ← hq]
    field_simp
  · rw [hb, abs_div, abs_div, abs_of_pos hLq]
    apply div_lt_div_of_pos_right _ hLq
    have h1 : |Int.tmod A B| < |B| := by
      have := Int.tmod_lt_of_pos A (abs_pos.2 hB)
      have h2 := Int.lt_tmod_of_pos A (abs_pos.2 hB)
      have h3 : Int.tmod A |B| = Int.tmod A B := by
        rcases abs_choice B with h | h <;> rw [h]
        exact Int.tmod_neg A B
      rw [h3] at this h2
      exact abs_lt.2 ⟨h2, this⟩
    exact_mod_cast h1
  · rw [ha, div_mul_div_comm]
    apply div_nonneg _ (by positivity)
    have h1 : 0 ≤ A * Int.tmod A B := by
      rcases le_total 0 A with h | h
      · exact mul_nonneg h (Int.tmod_nonneg B h)
      · have h2 : Int.tmod A B ≤ 0 := by
          have := Int.tmod_nonneg B (a := -A) (by omega)
          rw [Int.neg_tmod] at this
          omega
        exact mul_nonneg_of_nonpos_of_nonpos h h2
    exact_mod_cast h1

theorem ratRem_spec {ε : Type} (a b : Rat) (hb : b ≠ 0) :
    ∃ v, (ratRem a b : Outcome ε Rat) = .ok v ∧ Remainder a b v := by
  unfold ratRem
  have hbn : b.num ≠ 0 := by simpa using hb
  rw [if_neg hbn]
  split
  · rename_i h
    refine ⟨_, rfl, tmod_remainder b.den_pos hbn ?_ ?_⟩
    · rw [← h]; exact (Rat.num_div_den a).symm
    · exact (Rat.num_div_den b).symm
  · refine ⟨_, rfl, ?_⟩
    have hl : 0 < Nat.lcm a.den b.den := Nat.lcm_pos a.den_pos b.den_pos
    have e : ∀ (n d l : Nat) (z : Int), 0 < d → d ∣ l → 0 < l → 
        ((z * ((l / d : Nat) : Int) : Int) : Rat) / l = (z : Rat) / d := by
      intro n d l z hd hdl hl
      obtain ⟨k, rfl⟩ := hdl
      have hk : 0 < k := Nat.pos_of_mul_pos_left hl
      rw [Nat.mul_div_cancel_left _ hd]
      push_cast
      have : (d : Rat) ≠ 0 := by positivity
      have : (k : Rat) ≠ 0 := by positivity
      field_simp
    refine tmod_remainder hl ?_ ?_ ?_
    · refine mul_ne_zero hbn ?_
      have : Nat.lcm a.den b.den / b.den ≠ 0 := by
        have := Nat.div_pos (Nat.le_of_dvd hl (Nat.dvd_lcm_right a.den b.den)) b.den_pos
        omega
      exact_mod_cast this
    · rw [e 0 _ _ _ a.den_pos (Nat.dvd_lcm_left _ _) hl]; exact (Rat.num_div_den a).symm
    · rw [e 0 _ _ _ b.den_pos (Nat.dvd_lcm_right _ _) hl]; exact (Rat.num_div_den b).symm

theorem ratRem_zero {ε : Type} (a : Rat) : (ratRem a 0 : Outcome ε Rat) = .panic .divisionByZero := by
  unfold ratRem; simp

/-! ## Powers -/

/-- The tolerance for a number of digits. -/
def tolerance (radix p : Nat) : Rat := 1 / (radix : Rat) ^ p

theorem tolerance_pos {radix p : Nat} (h : 2 ≤ radix) : 0 < tolerance radix p := by
  unfold tolerance
  have : (0 : Rat) < radix := by exact_mod_cast (by omega : 0 < radix)
  positivity

theorem ratioNew_tolerance {ε : Type} {radix p : Nat} (h : 2 ≤ radix) :
    (ratioNew 1 ((radix : Int) ^ p) : Outcome ε Rat) = .ok (tolerance radix p) := by
  unfold ratioNew
  have : ((radix : Int) ^ p) ≠ 0 := by
    have : (radix : Int) ≠ 0 := by omega
    positivity
  rw [if_neg this, Rat.divInt_eq_div]
  unfold tolerance
  push_cast
  rfl

/-- `exponentiate` as a case distinction on the sign of the exponent and the tolerance. -/
theorem exponentiate_cases (m : Machine) (b e : Rat) (p radix : Nat) (h2 : 2 ≤ radix) :
    (b = 0 ∧ e < 0 ∧ exponentiate m b e p radix = .panic .divisionByZero) ∨
    ((b ≠ 0 ∨ 0 ≤ e) ∧ m.overflowChecks = true ∧ 255 ≤ p ∧
      exponentiate m b e p radix = .panic .arithmetic) ∨
    ((b ≠ 0 ∨ 0 ≤ e) ∧ (m.overflowChecks = true → p < 255) ∧
      exponentiate m b e p radix =
        rootPart m.fuel (b ^ e.num) e.den (tolerance radix ((p + 1) % 256))) := by
  rw [exponentiate_eq]
  have hpow : ∀ base : Rat, (if e < 0 then (ratInv b : Outcome MathError Rat) else .ok b) = .ok base →
      base ^ e.num.natAbs = b ^ e.num := by
    intro base h
    split at h
    · rename_i he
      unfold ratInv at h
      split at h
      · cases h
      · simp at h
        subst h
        have hn : e.num < 0 := Rat.num_neg.2 he
        rw [inv_pow, ← zpow_natCast, ← zpow_neg]
        congr 1
        omega
    · rename_i he
      simp at h
      subst h
      have hn : 0 ≤ e.num := Rat.num_nonneg.2 (not_lt.1 he)
      rw [← zpow_natCast]
      congr 1
      omega
  by_cases hz : b = 0 ∧ e < 0
  · left
    refine ⟨hz.1, hz.2, ?_⟩
    rw [if_pos hz.2]
    unfold ratInv
    rw [if_pos hz.1]
    rfl
  · have hdef : b ≠ 0 ∨ 0 ≤ e := by
      by_cases hb : b = 0
      · right; by_contra h; exact hz ⟨hb, not_le.1 h⟩
      · exact .inl hb
    have hbase : ∃ base, (if e < 0 then (ratInv b : Outcome MathError Rat) else .ok b) = .ok base := by
      split
      · rename_i he
        unfold ratInv
        rw [if_neg (fun hb => hz ⟨hb, he⟩)]
        exact ⟨_, rfl⟩
      · exact ⟨_, rfl⟩
    obtain ⟨base, hbase⟩ := hbase
    rw [hbase]
    simp only [Outcome.bind_ok]
    rw [hpow base hbase]
    unfold u8Add
    by_cases hp : p + 1 < 256
    · right; right
      refine ⟨hdef, fun _ => by omega, ?_⟩
      rw [if_pos hp]
      simp only [Outcome.bind_ok]
      rw [ratioNew_tolerance h2, Nat.mod_eq_of_lt hp]
      rfl
    · rw [if_neg hp]
      cases hc : m.overflowChecks with
      | true =>
        right; left
        exact ⟨hdef, rfl, by omega, rfl⟩
      | false =>
        right; right
        refine ⟨hdef, by simp, ?_⟩
        simp only [Bool.false_eq_true, if_false, Outcome.bind_ok]
        rw [ratioNew_tolerance h2]
        rfl

/-- A radicand for which the root search crashes. -/
def SmallRadicand (r : Rat) (d : Nat) : Prop := r ≠ 0 ∧ |r| < 1 ∧ (r < 0 → Odd d)

/-- All cases of the root part. -/
theorem rootPart_cases (r : Rat) (d : Nat) (ε : Rat) (hd : d ≠ 0) (hε : 0 < ε) :
    (d = 1 ∧ ∀ f, rootPart f r d ε = .ok r) ∨
    (2 ≤ d ∧ r < 0 ∧ Even d ∧ ∀ f, rootPart f r d ε = .err .imaginaryResult) ∨
    (2 ≤ d ∧ SmallRadicand r d ∧ (∀ f, 0 < f → rootPart f r d ε = .panic .divisionByZero) ∧
      rootPart 0 r d ε = .diverge) ∨
    (2 ≤ d ∧ (r = 0 ∨ 1 ≤ |r|) ∧ (r < 0 → Odd d) ∧
      ∃ F v, RootOf r d ε v ∧ ∀ f, F ≤ f → rootPart f r d ε = .ok v) := by
  rcases Nat.lt_or_ge d 2 with h1 | h1
  · left
    have : d = 1 := by omega
    exact ⟨this, fun f => by unfold rootPart; rw [if_pos this]⟩
  · right
    by_cases hi : r < 0 ∧ Even d
    · left
      exact ⟨h1, hi.1, hi.2, fun f => rootPart_imaginary hi.1 hi.2⟩
    · right
      have ho : r < 0 → Odd d := by
        intro h
        rcases Nat.even_or_odd d with h' | h'
        · exact absurd ⟨h, h'⟩ hi
        · exact h'
      by_cases hs : r ≠ 0 ∧ |r| < 1
      · left
        refine ⟨h1, ⟨hs.1, hs.2, ho⟩, fun f hf => rootPart_small h1 hs.1 hs.2 ho hf, ?_⟩
        -- without fuel
        by_contra hne
        have hm := rootPart_mono r d ε 0 1 (by omega) hne
        rw [rootPart_small h1 hs.1 hs.2 ho (by omega)] at hm
        unfold rootPart at hm
        simp only at hm
        split_ifs at hm <;> simp [newton] at hm
      · right
        have hr : r = 0 ∨ 1 ≤ |r| := by
          by_cases h : r = 0
          · exact .inl h
          · right; by_contra hc; exact hs ⟨h, not_le.1 hc⟩
        exact ⟨h1, hr, ho, rootPart_finishes h1 hε hr ho⟩

theorem powerValue_of_rootOf {ε b e v : Rat} (hdef : b ≠ 0 ∨ 0 ≤ e) (hd : 2 ≤ e.den)
    (ho : b ^ e.num < 0 → Odd e.den) (h : RootOf (b ^ e.num) e.den ε v) : PowerValue ε b e v :=
  ⟨hdef, ho, fun h1 => by omega, h.exact_root, fun ρ hρ => h.accurate ρ hρ.1 hρ.2, h.sign_neg,
    h.sign_pos, h.residual⟩

theorem powerValue_integer {ε b e : Rat} (hdef : b ≠ 0 ∨ 0 ≤ e) (hd : e.den = 1) :
    PowerValue ε b e (b ^ e.num) := by
  refine ⟨hdef, fun _ => by rw [hd]; decide, fun _ => rfl, ?_, ?_, id, id, by simp [hd]⟩
  · intro k hk _
    rw [hd, pow_one] at hk
    exact hk.symm
  · intro ρ hρ
    have := hρ.1
    rw [hd, pow_one] at this
    rw [hd, this]
    exact ⟨le_refl _, by simp, Or.inr (by simp)⟩

/-- A result of `exponentiate` is the value of the power. -/
theorem exponentiate_ok {m : Machine} {b e v : Rat} {p radix : Nat} (h2 : 2 ≤ radix)
    (h : exponentiate m b e p radix = .ok v) :
    PowerValue (tolerance radix ((p + 1) % 256)) b e v := by
  rcases exponentiate_cases m b e p radix h2 with ⟨_, _, hx⟩ | ⟨_, _, _, hx⟩ | ⟨hdef, _, hx⟩
  · rw [hx] at h; cases h
  · rw [hx] at h; cases h
  · rw [hx] at h
    rcases rootPart_cases (b ^ e.num) e.den (tolerance radix ((p + 1) % 256)) e.den_nz
      (tolerance_pos h2) with ⟨h1, hf⟩ | ⟨_, _, _, hf⟩ | ⟨_, _, hf, hf0⟩ | ⟨hd, _, ho, F, w, hw, hf⟩
    · rw [hf] at h
      simp at h
      rw [← h]
      exact powerValue_integer hdef h1
    · rw [hf] at h; cases h
    · rcases Nat.eq_zero_or_pos m.fuel with h0 | h0
      · rw [h0, hf0] at h; cases h
      · rw [hf _ h0] at h; cases h
    · have hm := rootPart_mono _ _ _ m.fuel (max m.fuel F) (le_max_left _ _) (by rw [h]; simp)
      rw [hf _ (le_max_right _ _), h] at hm
      simp at hm
      rw [← hm]
      exact powerValue_of_rootOf hdef hd ho hw

end Bcalc
