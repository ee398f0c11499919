import Verif.Spec.Near
import Verif.Proof.Sight
import Mathlib.Tactic.FieldSimp
import Mathlib.Tactic.LinearCombination
import Mathlib.Analysis.Real.Sqrt

/-! # Errors of computed values -/

namespace Bcalc
open Spec

theorem half_power {ε a v : Rat} (h : PowerValue ε a (1 / 2) v) :
    0 ≤ a ∧ (∀ ρ : ℝ, 0 ≤ ρ → ρ * ρ = a → Approximates 2 ε ρ v) ∧ ∀ k : Nat, (k : Rat) * k = a → v = k := by
  have hr := h.real
  have hx := h.exact_root
  have ha := h.accurate
  rw [half_den, half_num, zpow_one] at *
  refine ⟨?_, fun ρ h0 hρ => ha ρ ⟨by rw [sq]; exact hρ, fun _ => h0⟩, fun k hk => ?_⟩
  · by_contra hc
    exact absurd (hr (not_le.1 hc)) (by decide)
  · exact hx k (by rw [← hk]; push_cast; ring) (fun _ => by omega)

theorem meets_tolerance {d : Nat} {ε : Rat} {ρ : ℝ} {v : Rat} (h0 : 0 < ε) (h : Approximates d ε ρ v)
    (hd : (d : ℝ) * d * ((d : ℝ) - 1) * (ε : ℝ) ≤ 2) : |(v : ℝ) - ρ| ≤ ε := by
  rcases h.quadratic with h | h
  · exact h
  · have h1 : ((d : ℝ) - 1) * ((d : ℝ) * (ε : ℝ)) ^ 2 = ((d : ℝ) * d * ((d : ℝ) - 1) * (ε : ℝ)) * ε := by ring
    rw [h1] at h
    have h2 : (0 : ℝ) < ε := by exact_mod_cast h0
    nlinarith

theorem near_nonneg_aux {v : Rat} {x : ℝ} {δ : ℝ} (h : |(v : ℝ) - x| ≤ δ) : 0 ≤ δ := le_trans (abs_nonneg _) h

theorem near_zero {v : Rat} {x : ℝ} (h : |(v : ℝ) - x| ≤ 0) : (v : ℝ) = x := by
  have := abs_nonpos_iff.1 h; linarith

mutual

theorem value_near {ε : Rat} (h0 : 0 < ε) {ρ : Valuation} : ∀ {n : Node} {x δ : ℝ}, Near (ε : ℝ) ρ n x δ →
    ∀ {v : Rat}, Value ε ρ n v → |(v : ℝ) - x| ≤ δ
  | _, _, _, .number, _, .number => by simp
  | _, _, _, .variable h, _, .variable h' => by rw [h] at h'; cases h'; simp
  | _, _, _, .paren h, _, .paren h' => value_near h0 h h'
  | _, _, _, .more h hle, _, h' => le_trans (value_near h0 h h') hle
  | _, _, _, .negate h, _, .negate h' => by
    have := value_near h0 h h'
    push_cast
    rw [abs_sub_comm] at this
    rw [show ∀ a b : ℝ, -a - -b = b - a by intros; ring]
    exact this
  | _, _, _, .abs h, _, .abs h' => by
    have := value_near h0 h h'
    push_cast
    exact le_trans (abs_abs_sub_abs_le_abs_sub _ _) this
  | _, _, _, .sqrt (x := x) (ξ := ξ) (δ := δ) h hξ hx, _, .sqrt (a := a) (v := v) h' hv => by
    have := value_near h0 h h'
    obtain ⟨ha, hacc, _⟩ := half_power hv
    have ha' : (0 : ℝ) ≤ a := by exact_mod_cast ha
    have h1 := (hacc (Real.sqrt a) (Real.sqrt_nonneg _) (Real.mul_self_sqrt ha')).linear
    push_cast at h1
    have h2 : |Real.sqrt a - ξ| ≤ δ / ξ := by
      rw [le_div_iff₀ hξ]
      have h3 : |Real.sqrt a - ξ| * (Real.sqrt a + ξ) = |(a : ℝ) - x| := by
        have hp : 0 ≤ Real.sqrt a + ξ := add_nonneg (Real.sqrt_nonneg _) hξ.le
        rw [← abs_of_nonneg hp, ← abs_mul, ← hx]
        congr 1
        have := Real.mul_self_sqrt ha'
        linear_combination this
      have h4 : |Real.sqrt a - ξ| * ξ ≤ |Real.sqrt a - ξ| * (Real.sqrt a + ξ) :=
        mul_le_mul_of_nonneg_left (by linarith [Real.sqrt_nonneg (a : ℝ)]) (abs_nonneg _)
      linarith
    have := abs_sub_le (v : ℝ) (Real.sqrt a) ξ
    linarith
  | _, _, _, .square (k := k) h, _, .sqrt (a := a) h' hv => by
    have := near_zero (value_near h0 h h')
    obtain ⟨_, _, hk⟩ := half_power hv
    rw [hk k (by exact_mod_cast this.symm)]
    simp
  | _, _, _, .add h k, _, .add h' k' => by
    have h1 := value_near h0 h h'
    have h2 := value_near h0 k k'
    push_cast
    rw [show ∀ a b c d : ℝ, a + b - (c + d) = (a - c) + (b - d) by intros; ring]
    exact le_trans (abs_add_le _ _) (add_le_add h1 h2)
  | _, _, _, .subtract h k, _, .subtract h' k' => by
    have h1 := value_near h0 h h'
    have h2 := value_near h0 k k'
    push_cast
    rw [show ∀ a b c d : ℝ, a - b - (c - d) = (a - c) - (b - d) by intros; ring]
    exact le_trans (abs_sub _ _) (add_le_add h1 h2)
  | _, _, _, .multiply (x := x) (y := y) h k, _, .multiply (a := a) (b := b) h' k' => by
    have h1 := value_near h0 h h'
    have h2 := value_near h0 k k'
    push_cast
    have e : (a : ℝ) * b - x * y = x * (b - y) + y * (a - x) + (a - x) * (b - y) := by ring
    rw [e]
    refine le_trans (abs_add_three _ _ _) ?_
    rw [abs_mul, abs_mul, abs_mul]
    have := near_nonneg_aux h1
    gcongr
  | _, _, _, .divide (x := x) (y := y) (δ := δ) (δ' := δ') h k hy, _, .divide (a := a) (b := b) h' k' hb => by
    have h1 := value_near h0 h h'
    have h2 := value_near h0 k k'
    have h3 := near_nonneg_aux h2
    have hy0 : 0 < |y| := lt_of_le_of_lt h3 hy
    have hy1 : y ≠ 0 := abs_pos.1 hy0
    have hb1 : (b : ℝ) ≠ 0 := by exact_mod_cast hb
    have hb2 : |y| - δ' ≤ |(b : ℝ)| := by
      have := abs_sub_abs_le_abs_sub y (b : ℝ)
      rw [abs_sub_comm] at this
      linarith
    push_cast
    have e : (a : ℝ) / b - x / y = ((a - x) * y - x * (b - y)) / (y * b) := by field_simp; ring
    rw [e, abs_div, abs_mul y]
    have h4 : |((a : ℝ) - x) * y - x * (b - y)| ≤ |x| * δ' + |y| * δ := by
      refine le_trans (abs_sub _ _) ?_
      rw [abs_mul, abs_mul]
      have : |(a : ℝ) - x| * |y| ≤ δ * |y| := by gcongr
      have : |x| * |(b : ℝ) - y| ≤ |x| * δ' := by gcongr
      linarith
    have h5 : 0 < |y| - δ' := by linarith
    apply div_le_div₀
    · exact le_trans (abs_nonneg _) h4
    · exact h4
    · positivity
    · gcongr
  | _, _, _, .modulus h k hr, _, .modulus h' k' _ hr' => by
    have h1 := near_zero (value_near h0 h h')
    have h2 := near_zero (value_near h0 k k')
    have h1' := Rat.cast_injective h1
    have h2' := Rat.cast_injective h2
    subst h1' h2'
    rw [remainder_unique hr' hr]
    simp
  | _, _, _, .power (a := a) (k := i) h k _, _, .power (b := b) h' k' hv => by
    have h1 := near_zero (value_near h0 h h')
    have h2 := near_zero (value_near h0 k k')
    have h1' := Rat.cast_injective h1
    have h2' : b = (i : Rat) := by exact_mod_cast h2
    subst h1' h2'
    rw [hv.integer (by simp)]
    simp
  | _, _, _, .root h k _ hr hd, _, .power h' k' hv => by
    have h1' := Rat.cast_injective (near_zero (value_near h0 h h'))
    have h2' := Rat.cast_injective (near_zero (value_near h0 k k'))
    subst h1' h2'
    exact meets_tolerance h0 (hv.accurate _ hr) hd
  | _, _, _, .exact_root (k := i) h k _ hr, _, .power h' k' hv => by
    have h1' := Rat.cast_injective (near_zero (value_near h0 h h'))
    have h2' := Rat.cast_injective (near_zero (value_near h0 k k'))
    subst h1' h2'
    obtain ⟨hr1, hr2⟩ := hr
    rw [hv.exact_root i (by exact_mod_cast hr1) (fun h => by exact_mod_cast hr2 h)]
    simp
  | _, _, _, .max (xs := xs) (x := x) (δ := δ) h hx hle, _, .max (v := v) h' hv hle' => by
    obtain ⟨f1, f2⟩ := values_near h0 h h'
    obtain ⟨y, hy, hy'⟩ := f1 v hv
    obtain ⟨w, hw, hw'⟩ := f2 x hx
    have a1 := hle y hy
    have a2 : (w : ℝ) ≤ v := by exact_mod_cast hle' w hw
    rw [abs_le] at hy' hw' ⊢
    constructor <;> linarith
  | _, _, _, .min (xs := xs) (x := x) (δ := δ) h hx hle, _, .min (v := v) h' hv hle' => by
    obtain ⟨f1, f2⟩ := values_near h0 h h'
    obtain ⟨y, hy, hy'⟩ := f1 v hv
    obtain ⟨w, hw, hw'⟩ := f2 x hx
    have a1 := hle y hy
    have a2 : (v : ℝ) ≤ w := by exact_mod_cast hle' w hw
    rw [abs_le] at hy' hw' ⊢
    constructor <;> linarith

theorem values_near {ε : Rat} (h0 : 0 < ε) {ρ : Valuation} : ∀ {ns : List Node} {xs : List ℝ} {δ : ℝ},
    NearAll (ε : ℝ) ρ ns xs δ → ∀ {vs : List Rat}, Values ε ρ ns vs →
    (∀ v ∈ vs, ∃ x ∈ xs, |(v : ℝ) - x| ≤ δ) ∧ (∀ x ∈ xs, ∃ v ∈ vs, |(v : ℝ) - x| ≤ δ)
  | _, _, _, .nil, _, .nil => by simp
  | _, _, _, .cons h k, _, .cons h' k' => by
    have h1 := value_near h0 h h'
    obtain ⟨f1, f2⟩ := values_near h0 k k'
    constructor
    · intro v hv
      rcases List.mem_cons.1 hv with rfl | hv
      · exact ⟨_, List.mem_cons_self, h1⟩
      · obtain ⟨x, hx, hx'⟩ := f1 v hv
        exact ⟨x, List.mem_cons_of_mem _ hx, hx'⟩
    · intro x hx
      rcases List.mem_cons.1 hx with rfl | hx
      · exact ⟨_, List.mem_cons_self, h1⟩
      · obtain ⟨v, hv, hv'⟩ := f2 x hx
        exact ⟨v, List.mem_cons_of_mem _ hv, hv'⟩

end

end Bcalc
