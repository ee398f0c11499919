import Verif.Proof.Power
import Mathlib.Analysis.SpecialFunctions.Pow.Real

/-! # How many iterations a root takes -/

namespace Bcalc
open Spec

/-- The search ends next to the root. -/
theorem bisect_near {r : Rat} {d : Nat} (hd : d ≠ 0) (hr : 1 ≤ r) {ρ : ℝ} (hρ : 0 ≤ ρ) (hroot : ρ ^ d = (r : ℝ)) :
    1 ≤ bisect r d 0 (ratTrunc r) ∧ ((bisect r d 0 (ratTrunc r) : Int) : ℝ) - 1 < ρ ∧
      ρ < ((bisect r d 0 (ratTrunc r) : Int) : ℝ) + 1 := by
  have hfl : (1 : Int) ≤ ratTrunc r := by
    rw [ratTrunc_of_nonneg (by linarith), Int.le_floor]; exact_mod_cast hr
  have hpos := bisect_pos hd hfl hr
  obtain ⟨h1, h2, h3, h4⟩ := bisect_spec r d 0 (ratTrunc r) (by omega)
  generalize bisect r d 0 (ratTrunc r) = g at *
  refine ⟨hpos, ?_, ?_⟩
  · by_contra hc
    refine h4 (by omega) ?_
    have h5 : r ≤ ((g - 1 : Int) : Rat) ^ d := by
      have h6 : ρ ^ d ≤ ((g : ℝ) - 1) ^ d := pow_le_pow_left₀ hρ (not_lt.1 hc) d
      rw [hroot] at h6
      exact_mod_cast h6
    have := fMagnitude_above (r := r) hd (x := g - 1) (.inl (by omega)) h5
    simpa using this
  · by_contra hc
    have h5 : ((g + 1 : Int) : Rat) ^ d ≤ r := by
      have h6 : ((g : ℝ) + 1) ^ d ≤ ρ ^ d := pow_le_pow_left₀ (by exact_mod_cast (by omega : 0 ≤ g + 1)) (not_lt.1 hc) d
      rw [hroot] at h6
      exact_mod_cast h6
    by_cases hg : g = ratTrunc r
    · have h6 : r < (g + 1 : Int) := by
        rw [hg, ratTrunc_of_nonneg (by linarith)]
        push_cast
        exact Int.lt_floor_add_one r
      have h7 : ((g + 1 : Int) : Rat) ≤ ((g + 1 : Int) : Rat) ^ d :=
        le_self_pow₀ (by exact_mod_cast (by omega : 1 ≤ g + 1)) hd
      linarith
    · exact fMagnitude_below hd (.inl (by omega)) h5 (h3 hg)

section
variable {r : Rat} {d : Nat} {ε : Rat} {ρ : ℝ}

theorem step_real {x : Rat} (hd : d ≠ 0) (hx : 0 < x) : ((newtonStep r d x : Rat) : ℝ) =
    (x : ℝ) - ((x : ℝ) ^ d - r) / ((d : ℝ) * (x : ℝ) ^ (d - 1)) := by
  rw [step_eq hd hx.ne']; push_cast; rfl

/-- From above, the distance from the root shrinks by a part of the degree. -/
theorem step_linear {x : Rat} (hd : d ≠ 0) (hx : 0 < x) (hρ : 0 ≤ ρ) (hroot : ρ ^ d = (r : ℝ)) (hc : ρ ≤ (x : ℝ)) :
    ((newtonStep r d x : Rat) : ℝ) - ρ ≤ (1 - 1 / (d : ℝ)) * ((x : ℝ) - ρ) := by
  have hxR : (0 : ℝ) < x := by exact_mod_cast hx
  have hdR : (0 : ℝ) < d := by exact_mod_cast (by omega : 0 < d)
  have e : ∀ y : ℝ, y ^ d = y ^ (d - 1) * y := by
    intro y; rw [← pow_succ]; congr 1; omega
  have hp : 0 < (x : ℝ) ^ (d - 1) := by positivity
  have h1 : ρ ^ (d - 1) ≤ (x : ℝ) ^ (d - 1) := pow_le_pow_left₀ hρ hc _
  have h2 : (x : ℝ) ^ (d - 1) * (x - ρ) ≤ (x : ℝ) ^ d - r := by
    rw [← hroot, e, e ρ]
    nlinarith
  have h3 : (x - ρ) / d ≤ ((x : ℝ) ^ d - r) / ((d : ℝ) * (x : ℝ) ^ (d - 1)) := by
    rw [div_le_div_iff₀ hdR (by positivity)]
    nlinarith
  rw [step_real hd hx]
  have e2 : (1 - 1 / (d : ℝ)) * ((x : ℝ) - ρ) = x - ρ - (x - ρ) / d := by ring
  rw [e2]
  linarith

theorem above_root {x : Rat} (hd : d ≠ 0) (hx : 0 < x) (hr : 0 ≤ r) (hroot : ρ ^ d = (r : ℝ)) :
    ρ ≤ ((newtonStep r d x : Rat) : ℝ) := by
  obtain ⟨hge, hnn⟩ := step_ge hd hx hr
  have h1 : ρ ^ d ≤ ((newtonStep r d x : Rat) : ℝ) ^ d := by rw [hroot]; exact_mod_cast hge
  exact le_of_pow_le_pow_left₀ hd (by exact_mod_cast hnn) h1

/-- A step from a number from which the root is no farther than the tolerance is the last. -/
theorem newton_last {x : Rat} (hd : d ≠ 0) (hr : 0 < r) (hx : 0 < x) (hxr : r ≤ x ^ d) (hroot : ρ ^ d = (r : ℝ))
    (he : (x : ℝ) - ρ ≤ ε) (f : Nat) : ∃ v, newton r d ε (f + 1) x = .ok v := by
  rw [newton_succ hd hx.ne', if_pos]
  · exact ⟨_, rfl⟩
  · have h1 := step_le hd hx hxr
    have h2 := above_root (ρ := ρ) hd hx hr.le hroot
    rw [abs_of_nonpos (by linarith)]
    have h3 : ((-(newtonStep r d x - x) : Rat) : ℝ) ≤ ((ε : Rat) : ℝ) := by
      push_cast
      linarith
    exact Rat.cast_le.1 h3

/-- From above, with enough iterations for a distance that shrinks by a part of the degree. -/
theorem newton_linear (hd : d ≠ 0) (hr : 0 < r) (hρ : 0 ≤ ρ) (hroot : ρ ^ d = (r : ℝ)) :
    ∀ (f : Nat) (x : Rat) (E : ℝ), 0 < x → r ≤ x ^ d → (x : ℝ) - ρ ≤ E → E * (1 - 1 / (d : ℝ)) ^ f ≤ ε →
      ∃ v, newton r d ε (f + 1) x = .ok v := by
  intro f
  induction f with
  | zero =>
    intro x E hx hxr hE hε
    exact newton_last hd hr hx hxr hroot (by simpa using le_trans hE (by simpa using hε)) 0
  | succ f ih =>
    intro x E hx hxr hE hε
    rw [newton_succ hd hx.ne']
    split
    · exact ⟨_, rfl⟩
    · have hc : ρ ≤ (x : ℝ) := by
        have h1 : ρ ^ d ≤ (x : ℝ) ^ d := by rw [hroot]; exact_mod_cast hxr
        exact le_of_pow_le_pow_left₀ hd (by exact_mod_cast hx.le) h1
      have hd1 : (0 : ℝ) ≤ 1 - 1 / (d : ℝ) := by
        have : (1 : ℝ) ≤ d := by exact_mod_cast (by omega : 1 ≤ d)
        rw [sub_nonneg, div_le_one (by linarith)]
        exact this
      refine ih _ ((1 - 1 / (d : ℝ)) * E) (step_pos hd hx hr) (step_ge hd hx hr.le).1 ?_ ?_
      · exact le_trans (step_linear hd hx hρ hroot hc) (mul_le_mul_of_nonneg_left hE hd1)
      · rw [pow_succ] at hε
        calc (1 - 1 / (d : ℝ)) * E * (1 - 1 / (d : ℝ)) ^ f = E * ((1 - 1 / (d : ℝ)) ^ f * (1 - 1 / (d : ℝ))) := by ring
          _ ≤ _ := hε

/-- The first step, from a neighbour of the root. -/
theorem first_step {g : Int} (hd : d ≠ 0) (hρ : 0 ≤ ρ) (hroot : ρ ^ d = (r : ℝ)) (hg : 1 ≤ g) (h1 : (g : ℝ) - 1 < ρ)
    (h2 : ρ < (g : ℝ) + 1) : ((newtonStep r d (g : Rat) : Rat) : ℝ) - ρ ≤ 2 ^ (d - 1) := by
  have hgq : (0 : Rat) < g := by exact_mod_cast (by omega : 0 < g)
  have hgR : (1 : ℝ) ≤ g := by exact_mod_cast hg
  have hg0 : (0 : ℝ) < g := by linarith
  have hdR : (0 : ℝ) < d := by exact_mod_cast (by omega : 0 < d)
  have h2p : (1 : ℝ) ≤ 2 ^ (d - 1) := one_le_pow₀ (by norm_num)
  by_cases hc : ρ ≤ g
  · have := step_linear hd hgq hρ hroot (by exact_mod_cast hc)
    have hd1 : 1 - 1 / (d : ℝ) ≤ 1 := by
      have : (0 : ℝ) < 1 / d := by positivity
      linarith
    push_cast at this
    have h3 : (1 - 1 / (d : ℝ)) * ((g : ℝ) - ρ) ≤ 1 * ((g : ℝ) - ρ) := mul_le_mul_of_nonneg_right hd1 (by linarith)
    linarith
  · have hc' : (g : ℝ) ≤ ρ := by linarith
    rw [step_real hd hgq]
    push_cast
    have h3 : ρ ^ d - (g : ℝ) ^ d ≤ d * ρ ^ (d - 1) * (ρ - g) := by
      have := one_add_mul_sub_le_pow (a := (g : ℝ) / ρ) (n := d) (by
        have : 0 ≤ (g : ℝ) / ρ := by positivity
        linarith)
      have hρ0 : 0 < ρ := by linarith
      rw [div_pow, le_div_iff₀ (by positivity)] at this
      have e : ρ ^ d = ρ * ρ ^ (d - 1) := by rw [← pow_succ']; congr 1; omega
      have e2 : (1 + (d : ℝ) * ((g : ℝ) / ρ - 1)) * ρ ^ d = ρ ^ d - d * ρ ^ (d - 1) * (ρ - g) := by
        rw [e]; field_simp; ring
      rw [e2] at this
      linarith
    have hp : 0 < (g : ℝ) ^ (d - 1) := by positivity
    have h4 : ρ ^ (d - 1) ≤ 2 ^ (d - 1) * (g : ℝ) ^ (d - 1) := by
      rw [← mul_pow]
      exact pow_le_pow_left₀ hρ (by linarith) _
    have h5 : (ρ ^ d - (g : ℝ) ^ d) / ((d : ℝ) * (g : ℝ) ^ (d - 1)) ≤ 2 ^ (d - 1) * (ρ - g) := by
      rw [div_le_iff₀ (by positivity)]
      calc ρ ^ d - (g : ℝ) ^ d ≤ d * ρ ^ (d - 1) * (ρ - g) := h3
        _ ≤ d * (2 ^ (d - 1) * (g : ℝ) ^ (d - 1)) * (ρ - g) := by
          have : 0 ≤ ρ - g := by linarith
          gcongr
        _ = _ := by ring
    have e : ((g : ℝ) ^ d - r) / ((d : ℝ) * (g : ℝ) ^ (d - 1)) = -((ρ ^ d - (g : ℝ) ^ d) / ((d : ℝ) * (g : ℝ) ^ (d - 1))) := by
      rw [hroot]; ring
    rw [e]
    have h6 : (2 : ℝ) ^ (d - 1) * (ρ - g) ≤ 2 ^ (d - 1) * 1 := mul_le_mul_of_nonneg_left (by linarith) (by linarith)
    linarith

/-- The part that remains after as many steps as the degree is at most half. -/
theorem half_after (hd : 2 ≤ d) (j : Nat) : (1 - 1 / (d : ℝ)) ^ (d * j) ≤ 1 / 2 ^ j := by
  have hdR : (2 : ℝ) ≤ d := by exact_mod_cast hd
  have h1 : (1 - 1 / (d : ℝ)) ^ d ≤ 1 / 2 := by
    have hb := one_add_mul_le_pow (a := 1 / ((d : ℝ) - 1)) (by
      have : (0 : ℝ) < 1 / ((d : ℝ) - 1) := by apply one_div_pos.2; linarith
      linarith) d
    have h2 : (2 : ℝ) ≤ 1 + (d : ℝ) * (1 / ((d : ℝ) - 1)) := by
      have : (1 : ℝ) ≤ (d : ℝ) * (1 / ((d : ℝ) - 1)) := by
        rw [mul_one_div, le_div_iff₀ (by linarith)]; linarith
      linarith
    have e : (1 - 1 / (d : ℝ)) * (1 + 1 / ((d : ℝ) - 1)) = 1 := by
      have : (d : ℝ) - 1 ≠ 0 := by linarith
      field_simp
      ring
    have h3 : (1 - 1 / (d : ℝ)) ^ d * (1 + 1 / ((d : ℝ) - 1)) ^ d = 1 := by rw [← mul_pow, e, one_pow]
    have h4 : (0 : ℝ) ≤ (1 - 1 / (d : ℝ)) ^ d := by
      apply pow_nonneg
      rw [sub_nonneg, div_le_one (by linarith)]
      linarith
    nlinarith
  rw [pow_mul, ← one_div_pow]
  refine pow_le_pow_left₀ ?_ h1 j
  apply pow_nonneg
  rw [sub_nonneg, div_le_one (by linarith)]
  linarith

/-- From the neighbour of the root on. -/
theorem newton_start {g : Int} (hd : 2 ≤ d) (hr : 0 < r) (hρ : 0 ≤ ρ) (hroot : ρ ^ d = (r : ℝ)) (hg : 1 ≤ g)
    (h1 : (g : ℝ) - 1 < ρ) (h2 : ρ < (g : ℝ) + 1) (j : Nat) (hj : (2 : ℝ) ^ (d - 1) ≤ ε * 2 ^ j) (f : Nat) (hf : d * j + 2 ≤ f) :
    ∃ v, newton r d ε f (g : Rat) = .ok v := by
  have hd0 : d ≠ 0 := by omega
  have hgq : (0 : Rat) < g := by exact_mod_cast (by omega : 0 < g)
  have key : ∃ v, newton r d ε (d * j + 2) (g : Rat) = .ok v := by
    rw [newton_succ hd0 hgq.ne']
    split
    · exact ⟨_, rfl⟩
    · refine newton_linear hd0 hr hρ hroot (d * j) _ (2 ^ (d - 1)) (step_pos hd0 hgq hr) (step_ge hd0 hgq hr.le).1
        (first_step hd0 hρ hroot hg h1 h2) ?_
      calc (2 : ℝ) ^ (d - 1) * (1 - 1 / (d : ℝ)) ^ (d * j) ≤ 2 ^ (d - 1) * (1 / 2 ^ j) := by
            gcongr; exact half_after hd j
        _ ≤ _ := by
          rw [mul_one_div, div_le_iff₀ (by positivity)]
          exact hj
  obtain ⟨v, hv⟩ := key
  exact ⟨v, by rw [newton_mono r d ε _ f _ hf (by rw [hv]; simp), hv]⟩

/-- Square roots: from above, the distance is squared in each step. -/
theorem newton_square (hr : 1 ≤ r) (hρ : 1 ≤ ρ) (hroot : ρ ^ 2 = (r : ℝ)) :
    ∀ (f : Nat) (x : Rat) (i : Nat), 0 < x → r ≤ x ^ 2 → (x : ℝ) - ρ ≤ 2 / 2 ^ (2 ^ i) → (2 : ℝ) / 2 ^ (2 ^ (i + f)) ≤ ε →
      ∃ v, newton r 2 ε (f + 1) x = .ok v := by
  intro f
  induction f with
  | zero =>
    intro x i hx hxr hE hε
    exact newton_last (by decide) (by linarith) hx hxr hroot (le_trans hE (by simpa using hε)) 0
  | succ f ih =>
    intro x i hx hxr hE hε
    rw [newton_succ (by decide) hx.ne']
    split
    · exact ⟨_, rfl⟩
    · have hc : ρ ≤ (x : ℝ) := by
        have h1 : ρ ^ 2 ≤ (x : ℝ) ^ 2 := by rw [hroot]; exact_mod_cast hxr
        exact le_of_pow_le_pow_left₀ (by decide) (by exact_mod_cast hx.le) h1
      refine ih _ (i + 1) (step_pos (by decide) hx (by linarith)) (step_ge (by decide) hx (by linarith)).1 ?_ ?_
      · have hq := step_quadratic (d := 2) le_rfl hx (by linarith) hroot hc
        have hab := above_root (ρ := ρ) (d := 2) (by decide) hx (by linarith) hroot
        have h3 : ((x : ℝ) - ρ) ^ 2 ≤ (2 / 2 ^ (2 ^ i)) ^ 2 := pow_le_pow_left₀ (by linarith) hE 2
        have e : ((2 : ℝ) / 2 ^ (2 ^ i)) ^ 2 = 2 * (2 / 2 ^ (2 ^ (i + 1))) := by
          rw [div_pow, ← pow_mul, ← pow_succ]; ring
        rw [e] at h3
        push_cast at hq
        nlinarith
      · rw [show i + 1 + f = i + (f + 1) by omega]; exact hε

theorem newton_square_start {g : Int} (hr : 1 ≤ r) (hρ : 1 ≤ ρ) (hroot : ρ ^ 2 = (r : ℝ)) (hg : 1 ≤ g)
    (h1 : (g : ℝ) - 1 < ρ) (h2 : ρ < (g : ℝ) + 1) (k : Nat) (hk : (2 : ℝ) / 2 ^ (2 ^ (k + 1)) ≤ ε) (f : Nat) (hf : k + 2 ≤ f) :
    ∃ v, newton r 2 ε f (g : Rat) = .ok v := by
  have hgq : (0 : Rat) < g := by exact_mod_cast (by omega : 0 < g)
  have hgR : (1 : ℝ) ≤ g := by exact_mod_cast hg
  have key : ∃ v, newton r 2 ε (k + 2) (g : Rat) = .ok v := by
    rw [newton_succ (by decide) hgq.ne']
    split
    · exact ⟨_, rfl⟩
    · refine newton_square hr hρ hroot k _ 1 (step_pos (by decide) hgq (by linarith)) (step_ge (by decide) hgq (by linarith)).1 ?_ ?_
      · rw [step_real (by decide) hgq, ← hroot]
        have e : ((g : Rat) : ℝ) - (((g : Rat) : ℝ) ^ 2 - ρ ^ 2) / (((2 : Nat) : ℝ) * ((g : Rat) : ℝ) ^ (2 - 1)) - ρ =
            ((g : ℝ) - ρ) ^ 2 / (2 * g) := by
          push_cast
          have : (g : ℝ) ≠ 0 := by linarith
          field_simp
          ring
        rw [e, div_le_div_iff₀ (by linarith) (by norm_num)]
        norm_num
        nlinarith
      · rw [add_comm 1 k]; exact hk
  obtain ⟨v, hv⟩ := key
  exact ⟨v, by rw [newton_mono r 2 ε _ f _ hf (by rw [hv]; simp), hv]⟩

end

/-- The search for negative radicands ends next to the root as well. -/
theorem bisect_near_neg {r : Rat} {d : Nat} (hd : Odd d) (hr : r ≤ -1) {ρ : ℝ} (hroot : ρ ^ d = (r : ℝ)) :
    bisect r d (ratTrunc r) 0 ≤ -1 ∧ ((bisect r d (ratTrunc r) 0 : Int) : ℝ) - 1 < ρ ∧
      ρ < ((bisect r d (ratTrunc r) 0 : Int) : ℝ) + 1 := by
  have hd0 : d ≠ 0 := by rintro rfl; simp at hd
  have hfl : ratTrunc r ≤ -1 := by
    rw [ratTrunc_of_nonpos (by linarith), Int.ceil_le]; push_cast; exact hr
  have hneg := bisect_neg hd hfl hr
  obtain ⟨h1, h2, h3, h4⟩ := bisect_spec r d (ratTrunc r) 0 (by omega)
  generalize bisect r d (ratTrunc r) 0 = g at *
  refine ⟨hneg, ?_, ?_⟩
  · by_contra hc
    have h5 : r ≤ ((g - 1 : Int) : Rat) ^ d := by
      have h6 : ρ ^ d ≤ ((g : ℝ) - 1) ^ d := hd.strictMono_pow.monotone (not_lt.1 hc)
      rw [hroot] at h6
      exact_mod_cast h6
    by_cases hg : g = ratTrunc r
    · have h6 : ((g - 1 : Int) : Rat) < r := by
        rw [hg, ratTrunc_of_nonpos (by linarith)]
        push_cast
        have := Int.ceil_lt_add_one r
        linarith
      have h7 : ((1 - g : Int) : Rat) ≤ ((1 - g : Int) : Rat) ^ d :=
        le_self_pow₀ (by exact_mod_cast (by omega : 1 ≤ 1 - g)) hd0
      have e : ((1 - g : Int) : Rat) = -((g - 1 : Int) : Rat) := by push_cast; ring
      rw [e, hd.neg_pow] at h7
      linarith
    · refine h4 hg ?_
      have := fMagnitude_above (r := r) hd0 (x := g - 1) (.inr hd) h5
      simpa using this
  · by_contra hc
    have h5 : ((g + 1 : Int) : Rat) ^ d ≤ r := by
      have h6 : ((g : ℝ) + 1) ^ d ≤ ρ ^ d := hd.strictMono_pow.monotone (not_lt.1 hc)
      rw [hroot] at h6
      exact_mod_cast h6
    exact fMagnitude_below hd0 (.inr hd) h5 (h3 (by omega))

/-- The real root. -/
theorem real_root_exists {d : Nat} (hd : d ≠ 0) {r : Rat} (hr : 0 ≤ r) : ∃ ρ : ℝ, 0 ≤ ρ ∧ ρ ^ d = (r : ℝ) := by
  have hr0 : (0 : ℝ) ≤ r := by exact_mod_cast hr
  exact ⟨(r : ℝ) ^ ((d : ℝ)⁻¹), Real.rpow_nonneg hr0 _, Real.rpow_inv_natCast_pow hr0 hd⟩

theorem rootPart_step {f : Nat} {r : Rat} {d : Nat} {ε : Rat} (hd : 2 ≤ d) (ho : r < 0 → Odd d) (hr : r = 0 ∨ 1 ≤ |r|)
    (hpos : 1 ≤ r → ∃ v, newton r d ε f (bisect r d 0 (ratTrunc r) : Int) = .ok v)
    (hneg : r ≤ -1 → ∃ v, newton r d ε f (bisect r d (ratTrunc r) 0 : Int) = .ok v) : ∃ v, rootPart f r d ε = .ok v := by
  have hdne : ¬ (r < 0 ∧ d % 2 = 0) := by
    rintro ⟨ha, hb⟩
    have := Nat.odd_iff.1 (ho ha)
    omega
  unfold rootPart
  rw [if_neg (by omega), if_neg hdne]
  simp only
  by_cases hm : fMagnitude r d (bisect r d (if r < 0 then ratTrunc r else 0) (if r < 0 then 0 else ratTrunc r)) = 0
  · rw [if_pos hm]; exact ⟨_, rfl⟩
  · rw [if_neg hm]
    rcases hr with rfl | hr
    · exfalso
      apply hm
      have : bisect 0 d 0 0 = 0 := by rw [bisect]; simp
      simp [ratTrunc, this, fMagnitude]; omega
    · rcases le_or_gt 0 r with h | h
      · rw [abs_of_nonneg h] at hr
        rw [if_neg (by linarith), if_neg (by linarith)]
        exact hpos hr
      · rw [abs_of_neg h] at hr
        rw [if_pos h, if_pos h]
        exact hneg (by linarith)

/-- Roots of any degree. -/
theorem rootPart_fast {r : Rat} {d : Nat} {ε : Rat} (hd : 2 ≤ d) (ho : r < 0 → Odd d) (hr : r = 0 ∨ 1 ≤ |r|)
    (j : Nat) (hj : (2 : Rat) ^ (d - 1) ≤ ε * 2 ^ j) (f : Nat) (hf : d * j + 2 ≤ f) : ∃ v, rootPart f r d ε = .ok v := by
  have hd0 : d ≠ 0 := by omega
  have hj' : (2 : ℝ) ^ (d - 1) ≤ ε * 2 ^ j := by exact_mod_cast hj
  refine rootPart_step hd ho hr (fun h => ?_) (fun h => ?_)
  · obtain ⟨ρ, hρ, hroot⟩ := real_root_exists hd0 (r := r) (by linarith)
    obtain ⟨h1, h2, h3⟩ := bisect_near hd0 h hρ hroot
    exact newton_start hd (by linarith) hρ hroot h1 h2 h3 j hj' f hf
  · have hodd := ho (by linarith)
    obtain ⟨ρ, hρ, hroot⟩ := real_root_exists hd0 (r := -r) (by linarith)
    obtain ⟨h1, h2, h3⟩ := bisect_near_neg hodd h (ρ := -ρ) (by rw [hodd.neg_pow, hroot]; push_cast; ring)
    generalize bisect r d (ratTrunc r) 0 = g at *
    obtain ⟨v, hv⟩ := newton_start (r := -r) (ε := ε) (g := -g) hd (by linarith) hρ hroot (by omega) (by push_cast; linarith)
      (by push_cast; linarith) j hj' f hf
    have := newton_neg (r := -r) (ε := ε) hodd (by linarith) f (((-g : Int) : Rat)) (by
      exact_mod_cast (by omega : 0 < -g))
    rw [hv] at this
    push_cast at this
    rw [neg_neg, neg_neg] at this
    rw [this]
    exact ⟨-v, rfl⟩

/-- Square roots. -/
theorem rootPart_square {r : Rat} {ε : Rat} (hr : r = 0 ∨ 1 ≤ r)
    (k : Nat) (hk : (2 : Rat) ≤ ε * 2 ^ (2 ^ (k + 1))) (f : Nat) (hf : k + 2 ≤ f) : ∃ v, rootPart f r 2 ε = .ok v := by
  have hk' : (2 : ℝ) / 2 ^ (2 ^ (k + 1)) ≤ ε := by
    rw [div_le_iff₀ (by positivity)]
    exact_mod_cast hk
  refine rootPart_step le_rfl (fun h => ?_) (hr.imp_right fun h => le_trans h (le_abs_self _)) (fun h => ?_) (fun h => ?_)
  · rcases hr with rfl | hr
    · exact absurd h (lt_irrefl _)
    · linarith
  · obtain ⟨ρ, hρ, hroot⟩ := real_root_exists (d := 2) (by decide) (r := r) (by linarith)
    obtain ⟨h1, h2, h3⟩ := bisect_near (by decide) h hρ hroot
    exact newton_square_start h (one_le_root (by decide) h hρ hroot) hroot h1 h2 h3 k hk' f hf
  · rcases hr with rfl | hr <;> linarith

/-- The binary search: the body of its loop, `k` times over, ends it if the distance of the bounds is less than two
to the power of `k`. -/
theorem bisect_rounds (r : Rat) (d : Nat) : ∀ (k : Nat) (lower upper : Int), lower ≤ upper → upper - lower < 2 ^ k →
    (fun b : Int × Int => if b.2 - b.1 > 0 then bisectStep r d b.1 b.2 else b)^[k] (lower, upper) =
      (bisect r d lower upper, bisect r d lower upper) := by
  intro k
  induction k with
  | zero =>
    intro lower upper h h1
    have : lower = upper := by omega
    subst this
    rw [bisect]
    simp
  | succ k ih =>
    intro lower upper h h1
    rw [Function.iterate_succ, Function.comp]
    simp only
    by_cases hs : upper - lower > 0
    · rw [if_pos hs]
      have h2 : Int.tdiv (upper - lower) 2 = (upper - lower) / 2 :=
        Int.tdiv_eq_ediv_of_nonneg (by omega)
      rw [pow_succ] at h1
      have hb : (bisectStep r d lower upper).1 ≤ (bisectStep r d lower upper).2 ∧
          (bisectStep r d lower upper).2 - (bisectStep r d lower upper).1 < 2 ^ k := by
        unfold bisectStep
        simp only [h2]
        split <;> simp only <;> omega
      have := ih _ _ hb.1 hb.2
      rw [Prod.mk.eta] at this
      rw [this]
      have e : bisect r d lower upper = bisect r d (bisectStep r d lower upper).1 (bisectStep r d lower upper).2 := by
        rw [bisect, dif_pos hs]
      rw [e]
    · rw [if_neg hs]
      exact ih lower upper h (by have : (0 : Int) < 2 ^ k := by positivity
                                 omega)

end Bcalc
