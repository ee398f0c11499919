import Verif.Model.Operations
import Verif.Spec.Denote
import Mathlib.Tactic.Linarith
import Mathlib.Tactic.Positivity
import Mathlib.Tactic.FieldSimp
import Mathlib.Tactic.Ring
import Mathlib.Algebra.Order.Ring.Pow
import Mathlib.Algebra.Order.Field.Basic
import Mathlib.Data.Rat.Cast.Order
import Mathlib.Data.Real.Basic
import Mathlib.Algebra.Order.Archimedean.Basic

/-! # The bracketing search and Newton's iteration -/

namespace Bcalc

/-! ## The bracketing search -/

/-- Where the search stops: within the bounds, at a local minimum. -/
theorem bisect_spec (r : Rat) (d : Nat) (lower upper : Int) (h : lower ≤ upper) :
    lower ≤ bisect r d lower upper ∧ bisect r d lower upper ≤ upper ∧
    (bisect r d lower upper ≠ upper →
      fMagnitude r d (bisect r d lower upper) < fMagnitude r d (bisect r d lower upper + 1)) ∧
    (bisect r d lower upper ≠ lower →
      ¬ fMagnitude r d (bisect r d lower upper - 1) < fMagnitude r d (bisect r d lower upper)) := by
  fun_induction bisect r d lower upper with
  | case1 lower upper hs ih =>
    have h2 : Int.tdiv (upper - lower) 2 = (upper - lower) / 2 :=
      Int.tdiv_eq_ediv_of_nonneg (by omega)
    by_cases hc : fMagnitude r d ((upper - lower) / 2 + lower) < fMagnitude r d ((upper - lower) / 2 + lower + 1)
    · have e : bisectStep r d lower upper = (lower, (upper - lower) / 2 + lower) := by
        unfold bisectStep
        simp only [h2, if_pos hc]
      rw [e] at ih ⊢
      obtain ⟨h1, h2, h3, h4⟩ := ih (by simp only; omega)
      simp only at *
      refine ⟨h1, by omega, ?_, h4⟩
      intro hne
      by_cases he : bisect r d lower ((upper - lower) / 2 + lower) = (upper - lower) / 2 + lower
      · rw [he]; exact hc
      · exact h3 he
    · have e : bisectStep r d lower upper = ((upper - lower) / 2 + lower + 1, upper) := by
        unfold bisectStep
        simp only [h2, if_neg hc]
      rw [e] at ih ⊢
      obtain ⟨h1, h2, h3, h4⟩ := ih (by simp only; omega)
      simp only at *
      refine ⟨by omega, h2, h3, ?_⟩
      intro hne
      by_cases he : bisect r d ((upper - lower) / 2 + lower + 1) upper = (upper - lower) / 2 + lower + 1
      · rw [he]
        have : (upper - lower) / 2 + lower + 1 - 1 = (upper - lower) / 2 + lower := by omega
        rw [this]; exact hc
      · exact h4 he
  | case2 lower upper hs =>
    have : lower = upper := by omega
    subst this
    simp

/-- Powers are strictly monotone on the side of zero the search works on. -/
theorem pow_lt_side {d : Nat} (hd : d ≠ 0) {x y : Int} (h : x < y)
    (hside : 0 ≤ x ∨ Odd d) : (x : Rat) ^ d < (y : Rat) ^ d := by
  have hxy : (x : Rat) < y := by exact_mod_cast h
  rcases hside with hx | ho
  · exact pow_lt_pow_left₀ hxy (by exact_mod_cast hx) hd
  · exact ho.strictMono_pow hxy

theorem fMagnitude_below {r : Rat} {d : Nat} (hd : d ≠ 0) {x : Int}
    (hside : 0 ≤ x ∨ Odd d) (hr : ((x + 1 : Int) : Rat) ^ d ≤ r) :
    ¬ fMagnitude r d x < fMagnitude r d (x + 1) := by
  have h1 := pow_lt_side hd (x := x) (y := x + 1) (by omega) hside
  unfold fMagnitude
  rw [abs_of_nonpos (by linarith), abs_of_nonpos (by linarith)]
  linarith

theorem fMagnitude_above {r : Rat} {d : Nat} (hd : d ≠ 0) {x : Int}
    (hside : 0 ≤ x ∨ Odd d) (hr : r ≤ (x : Rat) ^ d) :
    fMagnitude r d x < fMagnitude r d (x + 1) := by
  have h1 := pow_lt_side hd (x := x) (y := x + 1) (by omega) hside
  unfold fMagnitude
  rw [abs_of_nonneg (by linarith), abs_of_nonneg (by linarith)]
  linarith

/-- An integer root within the bounds is found. -/
theorem bisect_exact {r : Rat} {d : Nat} (hd : d ≠ 0) {lower upper k : Int}
    (hl : lower ≤ k) (hu : k ≤ upper) (hside : 0 ≤ lower ∨ Odd d) (hk : (k : Rat) ^ d = r) :
    bisect r d lower upper = k := by
  obtain ⟨h1, h2, h3, h4⟩ := bisect_spec r d lower upper (by omega)
  generalize bisect r d lower upper = b at *
  have hmono : ∀ x y : Int, lower ≤ x → x ≤ y → (x : Rat) ^ d ≤ (y : Rat) ^ d := by
    intro x y hx hxy
    rcases eq_or_lt_of_le hxy with rfl | hlt
    · exact le_rfl
    · exact (pow_lt_side hd hlt (hside.imp_left fun h => by omega)).le
  rcases lt_trichotomy b k with hb | hb | hb
  · exfalso
    refine fMagnitude_below hd (x := b) (hside.imp_left fun h => by omega) ?_ (h3 (by omega))
    rw [← hk]; exact hmono _ _ (by omega) (by omega)
  · exact hb
  · exfalso
    refine h4 (by omega) ?_
    have := fMagnitude_above (r := r) hd (x := b - 1) (hside.imp_left fun h => by omega)
      (by rw [← hk]; exact hmono _ _ hl (by omega))
    simpa using this

/-- For a radicand of at least one the search does not stop at zero. -/
theorem bisect_pos {r : Rat} {d : Nat} (hd : d ≠ 0) {upper : Int} (hu : 1 ≤ upper) (hr : 1 ≤ r) :
    1 ≤ bisect r d 0 upper := by
  obtain ⟨h1, h2, h3, h4⟩ := bisect_spec r d 0 upper (by omega)
  by_contra hlt
  have hb : bisect r d 0 upper = 0 := by omega
  rw [hb] at h3
  exact fMagnitude_below hd (x := 0) (.inl le_rfl) (by simpa using hr) (h3 (by omega))

/-- For a radicand of at most minus one neither. -/
theorem bisect_neg {r : Rat} {d : Nat} (hd : Odd d) {lower : Int} (hl : lower ≤ -1) (hr : r ≤ -1) :
    bisect r d lower 0 ≤ -1 := by
  have hd0 : d ≠ 0 := by rintro rfl; simp at hd
  obtain ⟨h1, h2, h3, h4⟩ := bisect_spec r d lower 0 (by omega)
  by_contra hlt
  have hb : bisect r d lower 0 = 0 := by omega
  rw [hb] at h4
  have := fMagnitude_above (r := r) hd0 (x := -1) (.inr hd)
    (by push_cast; rw [hd.neg_one_pow]; exact hr)
  exact h4 (by omega) (by simpa using this)

/-! ## Newton's iteration -/

/-- The next iterate. -/
def newtonStep (r : Rat) (d : Nat) (x : Rat) : Rat :=
  (r + ((d - 1 : Nat) : Rat) * x ^ d) / ((d : Rat) * x ^ (d - 1))

theorem nextX_eq {r : Rat} {d : Nat} {x : Rat} (hd : d ≠ 0) (hx : x ≠ 0) :
    nextX r d x = .ok (newtonStep r d x) := by
  unfold nextX ratDiv newtonStep
  have : (d : Rat) * x ^ (d - 1) ≠ 0 := by positivity
  rw [if_neg this]

theorem nextX_zero {r : Rat} {d : Nat} (hd : 2 ≤ d) : nextX r d 0 = .panic .divisionByZero := by
  unfold nextX ratDiv
  have : (d : Rat) * 0 ^ (d - 1) = 0 := by
    rw [zero_pow (by omega), mul_zero]
  rw [if_pos this]

/-- The iterate as a correction of the previous one. -/
theorem step_eq {r : Rat} {d : Nat} {x : Rat} (hd : d ≠ 0) (hx : x ≠ 0) :
    newtonStep r d x = x - (x ^ d - r) / ((d : Rat) * x ^ (d - 1)) := by
  unfold newtonStep
  have h1 : ((d - 1 : Nat) : Rat) = (d : Rat) - 1 := by
    rw [Nat.cast_sub (by omega)]; simp
  have h2 : x ^ d = x * x ^ (d - 1) := by
    rw [← pow_succ']; congr 1; omega
  have h3 : (d : Rat) ≠ 0 := by exact_mod_cast hd
  rw [h1, h2]
  field_simp
  ring

/-- A newtonStep lands at or above the root (inequality of arithmetic and geometric means). -/
theorem step_ge {r : Rat} {d : Nat} {x : Rat} (hd : d ≠ 0) (hx : 0 < x) (hr : 0 ≤ r) :
    r ≤ newtonStep r d x ^ d ∧ 0 ≤ newtonStep r d x := by
  have hpos : 0 ≤ newtonStep r d x := by unfold newtonStep; positivity
  refine ⟨?_, hpos⟩
  have hxd : 0 < x ^ d := by positivity
  have hd' : (0 : Rat) < d := by exact_mod_cast Nat.pos_of_ne_zero hd
  have hd1 : (1 : Rat) ≤ d := by exact_mod_cast Nat.pos_of_ne_zero hd
  have hfac : newtonStep r d x = x * (1 + (r - x ^ d) / (d * x ^ d)) := by
    rw [step_eq hd hx.ne']
    have h2 : x ^ d = x * x ^ (d - 1) := by
      rw [← pow_succ']; congr 1; omega
    rw [h2]
    field_simp
    ring
  have hge : -2 ≤ (r - x ^ d) / (d * x ^ d) := by
    rw [le_div_iff₀ (by positivity)]
    nlinarith [mul_le_mul_of_nonneg_right hd1 hxd.le]
  have hb := one_add_mul_le_pow hge d
  have he : 1 + (d : Rat) * ((r - x ^ d) / (d * x ^ d)) = r / x ^ d := by
    field_simp
    ring
  rw [he] at hb
  rw [hfac, mul_pow]
  calc r = x ^ d * (r / x ^ d) := by field_simp
    _ ≤ _ := mul_le_mul_of_nonneg_left hb hxd.le

theorem step_pos {r : Rat} {d : Nat} {x : Rat} (hd : d ≠ 0) (hx : 0 < x) (hr : 0 < r) :
    0 < newtonStep r d x := by
  unfold newtonStep
  have : (0 : Rat) < d := by exact_mod_cast Nat.pos_of_ne_zero hd
  positivity

/-- From above the root the iterates do not increase. -/
theorem step_le {r : Rat} {d : Nat} {x : Rat} (hd : d ≠ 0) (hx : 0 < x) (hxr : r ≤ x ^ d) :
    newtonStep r d x ≤ x := by
  rw [step_eq hd hx.ne']
  have : 0 ≤ (x ^ d - r) / ((d : Rat) * x ^ (d - 1)) := div_nonneg (by linarith) (by positivity)
  linarith

/-- One iteration of the loop. -/
theorem newton_succ {r : Rat} {d : Nat} {ε x : Rat} (hd : d ≠ 0) (hx : x ≠ 0) (f : Nat) :
    newton r d ε (f + 1) x =
      if |newtonStep r d x - x| ≤ ε then .ok (newtonStep r d x) else newton r d ε f (newtonStep r d x) := by
  rw [newton, nextX_eq hd hx]
  rfl

/-- More fuel changes nothing but divergence. -/
theorem newton_mono (r : Rat) (d : Nat) (ε : Rat) : ∀ (f g : Nat) (x : Rat), f ≤ g →
    newton r d ε f x ≠ .diverge → newton r d ε g x = newton r d ε f x := by
  intro f
  induction f with
  | zero => intro g x _ h; exact absurd rfl h
  | succ f ih =>
    intro g x hg h
    obtain ⟨g, rfl⟩ : ∃ g', g = g' + 1 := ⟨g - 1, by omega⟩
    rw [newton] at h ⊢
    rw [newton]
    cases hn : nextX r d x with
    | ok y =>
      rw [hn] at h
      simp only [Outcome.bind_ok] at h ⊢
      split
      · rfl
      · rename_i hc
        rw [if_neg hc] at h
        exact ih g y (by omega) h
    | err e => rfl
    | panic k => rfl
    | diverge => rfl

/-- The result is one newtonStep from an iterate it is close to. -/
def Stopped (r : Rat) (d : Nat) (ε x0 v : Rat) : Prop :=
  ∃ x, 0 < x ∧ (x = x0 ∨ r ≤ x ^ d) ∧ v = newtonStep r d x ∧ |v - x| ≤ ε

/-- From above the root the loop ends within `x / ε` iterations. -/
theorem newton_from_above {r : Rat} {d : Nat} {ε : Rat} (hd : d ≠ 0) (hr : 0 < r) (hε : 0 < ε)
    (x0 : Rat) : ∀ (f : Nat) (x : Rat), 0 < x → r ≤ x ^ d → x < f * ε →
      ∃ v, newton r d ε f x = .ok v ∧ Stopped r d ε x0 v := by
  intro f
  induction f with
  | zero => intro x hx _ h; simp at h; linarith
  | succ f ih =>
    intro x hx hxr h
    rw [newton_succ hd hx.ne']
    split
    · rename_i hc
      exact ⟨_, rfl, x, hx, .inr hxr, rfl, hc⟩
    · rename_i hc
      have hle := step_le hd hx hxr
      rw [abs_of_nonpos (by linarith)] at hc
      refine ih _ (step_pos hd hx hr) (step_ge hd hx hr.le).1 ?_
      push_cast at h
      nlinarith

/-- From any positive starting point the loop ends. -/
theorem newton_finishes {r : Rat} {d : Nat} {ε : Rat} (hd : d ≠ 0) (hr : 0 < r) (hε : 0 < ε)
    {x : Rat} (hx : 0 < x) :
    ∃ F v, Stopped r d ε x v ∧ ∀ f, F ≤ f → newton r d ε f x = .ok v := by
  obtain ⟨n, hn⟩ := exists_nat_gt (newtonStep r d x / ε)
  rw [div_lt_iff₀ hε] at hn
  obtain ⟨v, h1, h2⟩ := newton_from_above hd hr hε x n _ (step_pos hd hx hr)
    (step_ge hd hx hr.le).1 hn
  by_cases hc : |newtonStep r d x - x| ≤ ε
  · refine ⟨1, newtonStep r d x, ⟨x, hx, .inl rfl, rfl, hc⟩, ?_⟩
    intro f hf
    obtain ⟨f, rfl⟩ : ∃ f', f = f' + 1 := ⟨f - 1, by omega⟩
    rw [newton_succ hd hx.ne', if_pos hc]
  · refine ⟨n + 1, v, h2, ?_⟩
    intro f hf
    have : newton r d ε (n + 1) x = .ok v := by
      rw [newton_succ hd hx.ne', if_neg hc, h1]
    rw [newton_mono r d ε (n + 1) f x hf (by rw [this]; simp), this]

/-- The first terms of the binomial series. -/
theorem one_sub_pow_le (d : Nat) {s : ℝ} (h0 : 0 ≤ s) (h1 : s ≤ 1) :
    (1 - s) ^ d ≤ 1 - d * s + d * (d - 1) / 2 * s ^ 2 := by
  induction d with
  | zero => simp
  | succ d ih =>
    have h2 : (1 - s) ^ (d + 1) ≤ (1 - s) * (1 - d * s + d * (d - 1) / 2 * s ^ 2) := by
      rw [pow_succ']
      exact mul_le_mul_of_nonneg_left ih (by linarith)
    have h3 : 0 ≤ (d : ℝ) * (d - 1) := by
      rcases Nat.eq_zero_or_pos d with rfl | h
      · simp
      · have : (1 : ℝ) ≤ d := by exact_mod_cast h
        nlinarith
    have h4 : 0 ≤ (d : ℝ) * (d - 1) / 2 * s ^ 3 := by positivity
    push_cast
    nlinarith

/-- From above, a step squares the distance from the root. -/
theorem step_quadratic {r : Rat} {d : Nat} {x : Rat} (hd : 2 ≤ d) (hx : 0 < x) {ρ : ℝ} (hρ : 0 ≤ ρ) (hroot : ρ ^ d = (r : ℝ))
    (hc : ρ ≤ (x : ℝ)) : 2 * (x : ℝ) * (((newtonStep r d x : Rat) : ℝ) - ρ) ≤ ((d : ℝ) - 1) * ((x : ℝ) - ρ) ^ 2 := by
  have hd0 : d ≠ 0 := by omega
  have hxR : (0 : ℝ) < (x : ℝ) := by exact_mod_cast hx
  have hdR : (0 : ℝ) < d := by exact_mod_cast (by omega : 0 < d)
  have hstep : ((newtonStep r d x : Rat) : ℝ) = (x : ℝ) - ((x : ℝ) ^ d - r) / ((d : ℝ) * (x : ℝ) ^ (d - 1)) := by
    rw [step_eq hd0 hx.ne']; push_cast; rfl
  have hb := one_sub_pow_le d (s := 1 - ρ / x) (by rw [sub_nonneg, div_le_one hxR]; exact hc)
    (by rw [sub_le_self_iff]; positivity)
  have e1 : (1 - (1 - ρ / (x : ℝ))) = ρ / x := by ring
  rw [e1, div_pow, hroot] at hb
  have e2 : (x : ℝ) ^ d = x * (x : ℝ) ^ (d - 1) := by
    rw [← pow_succ']; congr 1; omega
  have hp : 0 < (x : ℝ) ^ (d - 1) := by positivity
  rw [hstep, e2]
  rw [e2] at hb
  have e3 : 2 * (x : ℝ) * ((x : ℝ) - (x * (x : ℝ) ^ (d - 1) - r) / ((d : ℝ) * (x : ℝ) ^ (d - 1)) - ρ) =
      2 * (x : ℝ) ^ 2 / d * (r / (x * (x : ℝ) ^ (d - 1)) - (1 - d * (1 - ρ / x))) := by
    field_simp
    ring
  have e4 : ((d : ℝ) - 1) * ((x : ℝ) - ρ) ^ 2 = 2 * (x : ℝ) ^ 2 / d * (d * (d - 1) / 2 * (1 - ρ / x) ^ 2) := by
    field_simp
  rw [e3, e4]
  exact mul_le_mul_of_nonneg_left (by linarith) (by positivity)

/-- Distance of the result from the real root. -/
theorem stopped_accurate {r : Rat} {d : Nat} {ε x0 v : Rat} (hd : 2 ≤ d) (hr : 0 < r)
    (h : Stopped r d ε x0 v) {ρ : ℝ} (hρ : 0 ≤ ρ) (hroot : ρ ^ d = (r : ℝ)) :
    ρ ≤ (v : ℝ) ∧ (v : ℝ) - ρ ≤ ((d : ℝ) - 1) * (ε : ℝ) ∧
      (1 ≤ ρ → (v : ℝ) - ρ ≤ (ε : ℝ) ∨ 2 * ((v : ℝ) - ρ) ≤ ((d : ℝ) - 1) * ((d : ℝ) * (ε : ℝ)) ^ 2) := by
  obtain ⟨x, hx, _, rfl, hs⟩ := h
  have hd0 : d ≠ 0 := by omega
  obtain ⟨hge, hnn⟩ := step_ge hd0 hx hr.le
  have hd2 : (2 : ℝ) ≤ d := by exact_mod_cast hd
  have hle : ρ ≤ ((newtonStep r d x : Rat) : ℝ) := by
    have h1 : ρ ^ d ≤ ((newtonStep r d x : Rat) : ℝ) ^ d := by rw [hroot]; exact_mod_cast hge
    exact le_of_pow_le_pow_left₀ hd0 (by exact_mod_cast hnn) h1
  refine ⟨hle, ?_⟩
  have hxR : (0 : ℝ) < (x : ℝ) := by exact_mod_cast hx
  have hsR : |((newtonStep r d x : Rat) : ℝ) - x| ≤ (ε : ℝ) := by exact_mod_cast hs
  have hεn : (0 : ℝ) ≤ ε := le_trans (abs_nonneg _) hsR
  by_cases hc : ρ ≤ (x : ℝ)
  · -- from above
    have hstep : ((newtonStep r d x : Rat) : ℝ) =
        (x : ℝ) - ((x : ℝ) ^ d - r) / ((d : ℝ) * (x : ℝ) ^ (d - 1)) := by
      rw [step_eq hd0 hx.ne']; push_cast; rfl
    have hxd : (x : ℝ) ^ d = x * (x : ℝ) ^ (d - 1) := by
      rw [← pow_succ']; congr 1; omega
    have hρd : ρ ^ d = ρ * ρ ^ (d - 1) := by
      rw [← pow_succ']; congr 1; omega
    have hp : 0 < (x : ℝ) ^ (d - 1) := by positivity
    have hpow : ρ ^ (d - 1) ≤ (x : ℝ) ^ (d - 1) := pow_le_pow_left₀ hρ hc _
    have hdec : ((x : ℝ) - ρ) ≤ (d : ℝ) * ((x : ℝ) - ((newtonStep r d x : Rat) : ℝ)) := by
      have e : (d : ℝ) * ((x : ℝ) - ((newtonStep r d x : Rat) : ℝ)) =
          ((x : ℝ) ^ d - r) / (x : ℝ) ^ (d - 1) := by
        rw [hstep]
        have : (d : ℝ) ≠ 0 := by positivity
        field_simp
        ring
      rw [e, le_div_iff₀ hp, ← hroot, hxd, hρd]
      nlinarith [mul_le_mul_of_nonneg_left hpow hρ]
    have hab : (x : ℝ) - ((newtonStep r d x : Rat) : ℝ) ≤ ε := by
      have := (abs_le.1 hsR).1
      linarith
    have h1 : ((newtonStep r d x : Rat) : ℝ) - ρ ≤
        ((d : ℝ) - 1) * ((x : ℝ) - ((newtonStep r d x : Rat) : ℝ)) := by linarith
    have h2 : ((d : ℝ) - 1) * ((x : ℝ) - ((newtonStep r d x : Rat) : ℝ)) ≤ ((d : ℝ) - 1) * ε :=
      mul_le_mul_of_nonneg_left hab (by linarith)
    refine ⟨by linarith, fun h1ρ => .inr ?_⟩
    have hq := step_quadratic hd hx hρ hroot hc
    have hx1 : (1 : ℝ) ≤ x := le_trans h1ρ hc
    have hv0 : 0 ≤ ((newtonStep r d x : Rat) : ℝ) - ρ := by linarith
    have h3 : 2 * (((newtonStep r d x : Rat) : ℝ) - ρ) ≤ 2 * (x : ℝ) * (((newtonStep r d x : Rat) : ℝ) - ρ) := by
      nlinarith
    have h4 : (x : ℝ) - ρ ≤ d * ε := by
      have : (d : ℝ) * ((x : ℝ) - ((newtonStep r d x : Rat) : ℝ)) ≤ d * ε := mul_le_mul_of_nonneg_left hab (by linarith)
      linarith
    have h5 : ((x : ℝ) - ρ) ^ 2 ≤ ((d : ℝ) * ε) ^ 2 := pow_le_pow_left₀ (by linarith) h4 2
    have h6 : ((d : ℝ) - 1) * ((x : ℝ) - ρ) ^ 2 ≤ ((d : ℝ) - 1) * ((d : ℝ) * ε) ^ 2 :=
      mul_le_mul_of_nonneg_left h5 (by linarith)
    linarith
  · -- from below: only the first newtonStep
    have h1 := (abs_le.1 hsR).2
    have h3 : (1 : ℝ) * (ε : ℝ) ≤ ((d : ℝ) - 1) * ε :=
      mul_le_mul_of_nonneg_right (by linarith) hεn
    exact ⟨by linarith, fun _ => .inl (by linarith)⟩

/-- The remainder of a power at a tangent. -/
theorem tangent_le (d : Nat) {x v M : Rat} (hx : 0 ≤ x) (hv : 0 ≤ v) (hxM : x ≤ M) (hvM : v ≤ M) :
    v ^ d - x ^ d - d * x ^ (d - 1) * (v - x) ≤ (d : Rat) * ((d : Rat) - 1) / 2 * M ^ (d - 2) * (v - x) ^ 2 := by
  have hM : 0 ≤ M := le_trans hx hxM
  induction d with
  | zero => simp
  | succ d ih =>
    rcases Nat.eq_zero_or_pos d with rfl | hd
    · simp
    · have e1 : x ^ d = x * x ^ (d - 1) := by rw [← pow_succ']; congr 1; omega
      have e2 : v ^ (d + 1) - x ^ (d + 1) - ((d + 1 : Nat) : Rat) * x ^ (d + 1 - 1) * (v - x) =
          v * (v ^ d - x ^ d - d * x ^ (d - 1) * (v - x)) + d * x ^ (d - 1) * (v - x) ^ 2 := by
        rw [pow_succ, pow_succ, Nat.add_sub_cancel]
        push_cast
        rw [e1]
        ring
      rw [e2]
      have h1 : v * (v ^ d - x ^ d - d * x ^ (d - 1) * (v - x)) ≤
          v * ((d : Rat) * ((d : Rat) - 1) / 2 * M ^ (d - 2) * (v - x) ^ 2) := mul_le_mul_of_nonneg_left ih hv
      have h2 : (d : Rat) * x ^ (d - 1) * (v - x) ^ 2 ≤ (d : Rat) * M ^ (d - 1) * (v - x) ^ 2 := by gcongr
      have h3 : v * ((d : Rat) * ((d : Rat) - 1) / 2 * M ^ (d - 2) * (v - x) ^ 2) ≤
          (d : Rat) * ((d : Rat) - 1) / 2 * M ^ (d - 1) * (v - x) ^ 2 := by
        rcases Nat.lt_or_ge d 2 with h | h
        · have : d = 1 := by omega
          subst this
          simp
        · have e3 : M ^ (d - 1) = M * M ^ (d - 2) := by rw [← pow_succ']; congr 1; omega
          have h4 : (0 : Rat) ≤ (d : Rat) - 1 := by
            have : (1 : Rat) ≤ d := by exact_mod_cast hd
            linarith
          rw [e3]
          calc v * ((d : Rat) * ((d : Rat) - 1) / 2 * M ^ (d - 2) * (v - x) ^ 2)
              ≤ M * ((d : Rat) * ((d : Rat) - 1) / 2 * M ^ (d - 2) * (v - x) ^ 2) :=
                mul_le_mul_of_nonneg_right hvM (by positivity)
            _ = _ := by ring
      have e4 : d + 1 - 2 = d - 1 := by omega
      rw [e4]
      push_cast
      nlinarith

/-- The power of the result is near the radicand. -/
theorem stopped_residual {r : Rat} {d : Nat} {ε x0 v : Rat} (hd : 2 ≤ d) (hr : 0 < r) (h : Stopped r d ε x0 v) :
    |v ^ d - r| ≤ (d : Rat) * ((d : Rat) - 1) / 2 * (|v| + ε) ^ (d - 2) * ε ^ 2 := by
  obtain ⟨x, hx, _, rfl, hs⟩ := h
  have hd0 : d ≠ 0 := by omega
  obtain ⟨hge, _⟩ := step_ge hd0 hx hr.le
  have hv := step_pos hd0 hx hr
  rw [abs_of_nonneg (by linarith), abs_of_pos hv]
  have hstep := step_eq (r := r) hd0 hx.ne'
  have hxp : 0 < x ^ (d - 1) := by positivity
  have hdp : (0 : Rat) < d := by exact_mod_cast (by omega : 0 < d)
  have e : (d : Rat) * x ^ (d - 1) * (newtonStep r d x - x) = r - x ^ d := by
    rw [hstep]
    field_simp
    ring
  have hε : 0 ≤ ε := le_trans (abs_nonneg _) hs
  obtain ⟨hs1, hs2⟩ := abs_le.1 hs
  have ht := tangent_le d (M := newtonStep r d x + ε) hx.le hv.le (by linarith) (by linarith)
  rw [e] at ht
  have hsq : (newtonStep r d x - x) ^ 2 ≤ ε ^ 2 := by
    rw [← sq_abs (newtonStep r d x - x)]
    gcongr
  have hd1 : (0 : Rat) ≤ (d : Rat) - 1 := by
    have : (2 : Rat) ≤ d := by exact_mod_cast hd
    linarith
  calc newtonStep r d x ^ d - r = newtonStep r d x ^ d - x ^ d - (r - x ^ d) := by ring
    _ ≤ _ := ht
    _ ≤ _ := by gcongr

/-- The root of a number of magnitude at least one has magnitude at least one. -/
theorem one_le_root {d : Nat} (hd : d ≠ 0) {r : Rat} (hr : 1 ≤ r) {ρ : ℝ} (hρ : 0 ≤ ρ) (hroot : ρ ^ d = (r : ℝ)) : 1 ≤ ρ := by
  by_contra hc
  have h1 : ρ ^ d < 1 := pow_lt_one₀ hρ (not_le.1 hc) hd
  have h2 : (1 : ℝ) ≤ r := by exact_mod_cast hr
  linarith

theorem stopped_pos {r : Rat} {d : Nat} {ε x0 v : Rat} (hd : 2 ≤ d) (hr : 0 < r)
    (h : Stopped r d ε x0 v) : 0 < v := by
  obtain ⟨x, hx, _, rfl, _⟩ := h
  exact step_pos (by omega) hx hr

/-! ## Odd roots of negative numbers -/

theorem step_neg {r : Rat} {d : Nat} (hd : Odd d) (x : Rat) : newtonStep (-r) d (-x) = -newtonStep r d x := by
  unfold newtonStep
  have he : Even (d - 1) := by
    obtain ⟨k, rfl⟩ := hd
    exact ⟨k, by omega⟩
  rw [hd.neg_pow, he.neg_pow]
  rw [← neg_div]
  congr 1
  ring

theorem newton_neg {r : Rat} {d : Nat} {ε : Rat} (hd : Odd d) (hr : 0 < r) : ∀ (f : Nat) (x : Rat),
    0 < x → newton (-r) d ε f (-x) = (newton r d ε f x >>= fun v => .ok (-v)) := by
  have hd0 : d ≠ 0 := by rintro rfl; simp at hd
  intro f
  induction f with
  | zero => intro x _; rfl
  | succ f ih =>
    intro x hx
    rw [newton_succ hd0 (by linarith [neg_neg_of_pos hx]), newton_succ hd0 hx.ne', step_neg hd]
    have : |-newtonStep r d x - -x| = |newtonStep r d x - x| := by
      rw [← abs_neg]; congr 1; ring
    rw [this]
    split
    · rfl
    · exact ih _ (step_pos hd0 hx hr)

/-! ## The whole of `exponentiate` after the tolerance is known -/

/-- The root part of `exponentiate`. -/
def rootPart (fuel : Nat) (radicand : Rat) (degree : Nat) (maxError : Rat) : Outcome MathError Rat :=
  if degree = 1 then .ok radicand
  else if radicand < 0 ∧ degree % 2 = 0 then .err .imaginaryResult
  else
    let lower : Int := if radicand < 0 then ratTrunc radicand else 0
    let upper : Int := if radicand < 0 then 0 else ratTrunc radicand
    let guess := bisect radicand degree lower upper
    if fMagnitude radicand degree guess = 0 then .ok (guess : Rat)
    else newton radicand degree maxError fuel (guess : Rat)

theorem exponentiate_eq (m : Machine) (b e : Rat) (p radix : Nat) :
    exponentiate m b e p radix =
      ((if e < 0 then ratInv b else .ok b) >>= fun base =>
       u8Add m p 1 >>= fun p' =>
       ratioNew 1 ((radix : Int) ^ p') >>= fun maxError =>
       rootPart m.fuel (base ^ e.num.natAbs) e.den maxError) := rfl

theorem ratTrunc_of_nonneg {q : Rat} (h : 0 ≤ q) : ratTrunc q = ⌊q⌋ := by
  unfold ratTrunc
  rw [Int.tdiv_eq_ediv_of_nonneg (Rat.num_nonneg.2 h), Rat.floor_def']

theorem ratTrunc_neg (q : Rat) : ratTrunc (-q) = -ratTrunc q := by
  unfold ratTrunc
  simp [Int.neg_tdiv]

theorem ratTrunc_of_nonpos {q : Rat} (h : q ≤ 0) : ratTrunc q = ⌈q⌉ := by
  have := ratTrunc_of_nonneg (q := -q) (by linarith)
  rw [ratTrunc_neg, Int.floor_neg] at this
  omega

/-- A number that stands for the root of `r` of degree `d` to within the tolerance. -/
structure RootOf (r : Rat) (d : Nat) (ε v : Rat) : Prop where
  exact_root : ∀ k : Int, (k : Rat) ^ d = r → (0 ≤ r → 0 ≤ k) → v = k
  accurate : ∀ ρ : ℝ, ρ ^ d = (r : ℝ) → (0 ≤ r → 0 ≤ ρ) → Spec.Approximates d ε ρ v
  sign_neg : r < 0 → v < 0
  sign_pos : 0 < r → 0 < v
  zero : r = 0 → v = 0
  residual : |v ^ d - r| ≤ (d : Rat) * ((d : Rat) - 1) / 2 * (|v| + ε) ^ (d - 2) * ε ^ 2

theorem real_pow_inj {d : Nat} (hd : d ≠ 0) {a b : ℝ} (h : a ^ d = b ^ d)
    (hs : Odd d ∨ (0 ≤ a ∧ 0 ≤ b)) : a = b := by
  rcases hs with h' | ⟨h1, h2⟩
  · exact h'.pow_injective h
  · exact (pow_left_inj₀ h1 h2 hd).1 h

theorem rat_pow_inj {d : Nat} (hd : d ≠ 0) {a b : Rat} (h : a ^ d = b ^ d)
    (hs : Odd d ∨ (0 ≤ a ∧ 0 ≤ b)) : a = b := by
  rcases hs with h' | ⟨h1, h2⟩
  · exact h'.pow_injective h
  · exact (pow_left_inj₀ h1 h2 hd).1 h

/-- An integer whose power is the radicand is the root. -/
theorem rootOf_int {r : Rat} {d : Nat} {ε : Rat} (hd : 2 ≤ d) (hε : 0 < ε) {k : Int}
    (hk : (k : Rat) ^ d = r) (hs : 0 ≤ r → 0 ≤ k) (hodd : r < 0 → Odd d) : RootOf r d ε k := by
  have hd0 : d ≠ 0 := by omega
  have hside : ∀ {x : ℝ}, (0 ≤ r → 0 ≤ x) → Odd d ∨ ((0 : ℝ) ≤ (k : ℝ) ∧ 0 ≤ x) := by
    intro x hx
    by_cases h : 0 ≤ r
    · exact .inr ⟨by exact_mod_cast hs h, hx h⟩
    · exact .inl (hodd (by linarith))
  refine ⟨?_, ?_, ?_, ?_, ?_, ?_⟩
  · intro k' hk' hs'
    have : (k : ℝ) = (k' : ℝ) := by
      refine real_pow_inj hd0 ?_ (hside (x := (k' : ℝ)) fun h => by exact_mod_cast hs' h)
      have : (k : Rat) ^ d = (k' : Rat) ^ d := by rw [hk, hk']
      exact_mod_cast this
    have : k = k' := by exact_mod_cast this
    rw [this]
  · intro ρ hρ hsρ
    have : (k : ℝ) = ρ := by
      refine real_pow_inj hd0 ?_ (hside hsρ)
      rw [hρ, ← hk]; push_cast; rfl
    rw [← this]
    have h2 : (2 : ℝ) ≤ d := by exact_mod_cast hd
    have h0 : (0 : ℝ) < (ε : ℝ) := by exact_mod_cast hε
    refine ⟨by simp, ?_, .inl ?_⟩
    · simp
      nlinarith
    · simp [h0.le]
  · intro hr
    by_contra hc
    have : (0 : Rat) ≤ (k : Rat) ^ d := pow_nonneg (by linarith) d
    linarith
  · intro hr
    have h1 : (0 : Rat) ≤ k := by exact_mod_cast hs hr.le
    rcases h1.lt_or_eq with h | h
    · exact h
    · rw [← h, zero_pow hd0] at hk; linarith
  · intro hr
    rw [hr] at hk
    exact pow_eq_zero_iff hd0 |>.1 hk
  · rw [hk, sub_self, abs_zero]
    have hd1 : (0 : Rat) ≤ (d : Rat) - 1 := by
      have : (2 : Rat) ≤ d := by exact_mod_cast hd
      linarith
    positivity

/-- Rejection of even roots of negative numbers. -/
theorem rootPart_imaginary {f : Nat} {r : Rat} {d : Nat} {ε : Rat} (hr : r < 0) (hd : Even d) :
    rootPart f r d ε = .err .imaginaryResult := by
  unfold rootPart
  have h1 : d ≠ 1 := by rintro rfl; simp at hd
  rw [if_neg h1, if_pos ⟨hr, Nat.even_iff.1 hd⟩]

/-- The crash for radicands strictly between -1 and 1. -/
theorem rootPart_small {f : Nat} {r : Rat} {d : Nat} {ε : Rat} (hd : 2 ≤ d) (hr : r ≠ 0)
    (h1 : |r| < 1) (ho : r < 0 → Odd d) (hf : 0 < f) :
    rootPart f r d ε = .panic .divisionByZero := by
  obtain ⟨h2, h3⟩ := abs_lt.1 h1
  have ht : ratTrunc r = 0 := by
    rcases le_total 0 r with h | h
    · rw [ratTrunc_of_nonneg h, Int.floor_eq_zero_iff]; exact ⟨h, h3⟩
    · rw [ratTrunc_of_nonpos h, Int.ceil_eq_zero_iff]; exact ⟨h2, h⟩
  unfold rootPart
  rw [if_neg (by omega), if_neg (by
    rintro ⟨ha, hb⟩
    have := Nat.odd_iff.1 (ho ha)
    omega)]
  simp only [ht, ite_self]
  have hb : bisect r d 0 0 = 0 := by rw [bisect]; simp
  rw [hb]
  have hm : fMagnitude r d 0 ≠ 0 := by
    unfold fMagnitude
    rw [Int.cast_zero, zero_pow (by omega)]
    simpa using hr
  rw [if_neg hm]
  obtain ⟨f, rfl⟩ : ∃ f', f = f' + 1 := ⟨f - 1, by omega⟩
  rw [newton, Int.cast_zero, nextX_zero hd]
  rfl

/-- All other radicands have a root, found with enough fuel. -/
theorem rootPart_finishes {r : Rat} {d : Nat} {ε : Rat} (hd : 2 ≤ d) (hε : 0 < ε)
    (hr : r = 0 ∨ 1 ≤ |r|) (ho : r < 0 → Odd d) :
    ∃ F v, RootOf r d ε v ∧ ∀ f, F ≤ f → rootPart f r d ε = .ok v := by
  have hd0 : d ≠ 0 := by omega
  have hdne : ¬ (r < 0 ∧ d % 2 = 0) := by
    rintro ⟨ha, hb⟩
    have := Nat.odd_iff.1 (ho ha)
    omega
  have hunf : ∀ f, rootPart f r d ε =
      if fMagnitude r d (bisect r d (if r < 0 then ratTrunc r else 0)
        (if r < 0 then 0 else ratTrunc r)) = 0
      then .ok ((bisect r d (if r < 0 then ratTrunc r else 0)
        (if r < 0 then 0 else ratTrunc r) : Int) : Rat)
      else newton r d ε f ((bisect r d (if r < 0 then ratTrunc r else 0)
        (if r < 0 then 0 else ratTrunc r) : Int) : Rat) := by
    intro f
    unfold rootPart
    rw [if_neg (by omega), if_neg hdne]
  generalize hg : bisect r d (if r < 0 then ratTrunc r else 0)
        (if r < 0 then 0 else ratTrunc r) = g at hunf
  by_cases hm : fMagnitude r d g = 0
  · -- exact
    refine ⟨0, g, ?_, fun f _ => by rw [hunf, if_pos hm]⟩
    have hk : (g : Rat) ^ d = r := by
      unfold fMagnitude at hm
      rw [abs_eq_zero] at hm
      linarith
    refine rootOf_int hd hε hk ?_ ho
    intro h0
    rw [if_neg (by linarith), if_neg (by linarith), ratTrunc_of_nonneg h0] at hg
    rw [← hg]
    exact (bisect_spec r d 0 _ (Int.floor_nonneg.2 h0)).1
  · have hr' : 1 ≤ |r| := by
      rcases hr with rfl | h
      · exfalso
        apply hm
        have : g = 0 := by
          rw [← hg]
          simp [ratTrunc]
          rw [bisect]; simp
        rw [this]
        unfold fMagnitude
        simp [hd0]
      · exact h
    -- no integer root
    have hnoexact : ∀ k : Int, (k : Rat) ^ d = r → (0 ≤ r → 0 ≤ k) → False := by
      intro k hk hs
      apply hm
      have hgk : g = k := by
        rw [← hg]
        rcases lt_or_ge r 0 with h | h
        · rw [if_pos h, if_pos h]
          have hkneg : k < 0 := by
            by_contra hc
            have : (0 : Rat) ≤ (k : Rat) ^ d := pow_nonneg (by exact_mod_cast not_lt.1 hc) d
            linarith
          refine bisect_exact hd0 ?_ (by omega) (.inr (ho h)) hk
          rw [ratTrunc_of_nonpos h.le, Int.ceil_le]
          rw [← hk]
          have h1 : ((-k : Int) : Rat) ≤ ((-k : Int) : Rat) ^ d :=
            le_self_pow₀ (by exact_mod_cast (by omega : (1 : Int) ≤ -k)) hd0
          push_cast at h1
          rw [(ho h).neg_pow] at h1
          linarith
        · rw [if_neg (by linarith), if_neg (by linarith)]
          have hk0 := hs h
          refine bisect_exact hd0 hk0 ?_ (.inl le_rfl) hk
          rw [ratTrunc_of_nonneg h, Int.le_floor, ← hk]
          rcases hk0.lt_or_eq with h1 | h1
          · exact le_self_pow₀ (by exact_mod_cast h1) hd0
          · rw [← h1]; simp [hd0]
      rw [hgk]
      unfold fMagnitude
      rw [hk]; simp
    rcases lt_or_ge r 0 with h | h
    · -- negative
      have hodd := ho h
      rw [abs_of_neg h] at hr'
      have hgneg : g ≤ -1 := by
        rw [← hg, if_pos h, if_pos h]
        refine bisect_neg hodd ?_ (by linarith)
        rw [ratTrunc_of_nonpos h.le, Int.ceil_le]
        push_cast; linarith
      have hgpos : (0 : Rat) < -(g : Rat) := by
        have : (g : Rat) ≤ -1 := by exact_mod_cast hgneg
        linarith
      obtain ⟨F, v, hv, hF⟩ := newton_finishes (r := -r) (d := d) (ε := ε) hd0 (by linarith) hε hgpos
      refine ⟨F, -v, ⟨fun k hk hs => (hnoexact k hk hs).elim, ?_, ?_, fun h' => by linarith,
        fun h' => by linarith, ?_⟩, ?_⟩
      · intro ρ hρ _
        have hρ' : (-ρ) ^ d = ((-r : Rat) : ℝ) := by
          rw [hodd.neg_pow, hρ]; push_cast; rfl
        have hρneg : ρ ≤ 0 := by
          by_contra hc
          have h1 : 0 < ρ ^ d := pow_pos (not_le.1 hc) d
          rw [hρ] at h1
          have h2 : (r : ℝ) < 0 := by exact_mod_cast h
          linarith
        obtain ⟨k1, k2, k3⟩ := stopped_accurate hd (by linarith) hv (ρ := -ρ) (by linarith) hρ'
        have k4 := k3 (one_le_root hd0 hr' (by linarith) hρ')
        have e1 : |((-v : Rat) : ℝ) - ρ| = (v : ℝ) - -ρ := by
          push_cast
          rw [abs_of_nonpos (by linarith)]
          ring
        refine ⟨?_, by rw [e1]; exact k2, by rw [e1]; exact k4⟩
        push_cast
        rw [abs_of_nonpos hρneg, abs_neg]
        exact le_trans k1 (le_abs_self _)
      · intro _
        have := stopped_pos hd (by linarith) hv
        linarith
      · have := stopped_residual hd (by linarith) hv
        rw [hodd.neg_pow, abs_neg, ← abs_neg (-v ^ d - r)]
        convert this using 2
        ring
      · intro f hf
        rw [hunf, if_neg hm]
        have := newton_neg (r := -r) (ε := ε) hodd (by linarith) f (-(g : Rat)) hgpos
        rw [neg_neg, neg_neg] at this
        rw [this, hF f hf]
        rfl
    · -- positive
      rw [abs_of_nonneg h] at hr'
      have hrpos : 0 < r := by linarith
      have hgpos : 1 ≤ g := by
        rw [← hg, if_neg (by linarith), if_neg (by linarith)]
        refine bisect_pos hd0 ?_ hr'
        rw [ratTrunc_of_nonneg h, Int.le_floor]
        exact_mod_cast hr'
      obtain ⟨F, v, hv, hF⟩ := newton_finishes (r := r) (d := d) (ε := ε) hd0 hrpos hε
        (x := (g : Rat)) (by exact_mod_cast hgpos)
      refine ⟨F, v, ⟨fun k hk hs => (hnoexact k hk hs).elim, ?_, fun h' => by linarith,
        fun _ => stopped_pos hd hrpos hv, fun h' => by linarith, stopped_residual hd hrpos hv⟩, ?_⟩
      · intro ρ hρ hs
        obtain ⟨k1, k2, k3⟩ := stopped_accurate hd hrpos hv (hs h) hρ
        have k4 := k3 (one_le_root hd0 hr' (hs h) hρ)
        have e1 : |(v : ℝ) - ρ| = (v : ℝ) - ρ := abs_of_nonneg (by linarith)
        refine ⟨?_, by rw [e1]; exact k2, by rw [e1]; exact k4⟩
        rw [abs_of_nonneg (hs h)]
        exact le_trans k1 (le_abs_self _)
      · intro f hf
        rw [hunf, if_neg hm]
        exact hF f hf

theorem rootPart_mono (r : Rat) (d : Nat) (ε : Rat) (f g : Nat) (h : f ≤ g)
    (hd : rootPart f r d ε ≠ .diverge) : rootPart g r d ε = rootPart f r d ε := by
  unfold rootPart at *
  simp only at hd ⊢
  generalize bisect r d (if r < 0 then ratTrunc r else 0) (if r < 0 then 0 else ratTrunc r) = b at *
  split_ifs at hd ⊢
  · rfl
  · rfl
  · rfl
  · exact newton_mono _ _ _ _ _ _ h hd

end Bcalc
