import Verif.Proof.Eval

/-!
A root that is no integer is never found exactly: Newton's iteration stays strictly on the far side of it.
-/

namespace Bcalc

/-- A step from any point but the root lands strictly above it. -/
theorem step_gt {r : Rat} {d : Nat} {x : Rat} (hd : 2 ≤ d) (hx : 0 < x) (hr : 0 < r) (hne : x ^ d ≠ r) :
    r < newtonStep r d x ^ d := by
  have hd0 : d ≠ 0 := by omega
  have hxd : 0 < x ^ d := by positivity
  have hd' : (0 : Rat) < d := by exact_mod_cast Nat.pos_of_ne_zero hd0
  have hfac : newtonStep r d x = x * (1 + (r - x ^ d) / (d * x ^ d)) := by
    rw [step_eq hd0 hx.ne']
    have h2 : x ^ d = x * x ^ (d - 1) := by
      rw [← pow_succ']; congr 1; omega
    rw [h2]
    field_simp
    ring
  have he : 1 + (d : Rat) * ((r - x ^ d) / (d * x ^ d)) = r / x ^ d := by
    field_simp
    ring
  have hpos := step_pos hd0 hx hr
  rw [hfac] at hpos ⊢
  have ht0 : (r - x ^ d) / (d * x ^ d) ≠ 0 := by
    refine div_ne_zero (fun h => hne ?_) (by positivity)
    linarith
  revert he hpos ht0
  generalize (r - x ^ d) / (d * x ^ d) = t
  intro he hpos ht0
  have h1 : 0 < 1 + t := by
    by_contra hc
    nlinarith
  have hb := one_add_mul_le_pow (show -2 ≤ t by linarith) (d - 1)
  have hc : ((d - 1 : Nat) : Rat) = d - 1 := by rw [Nat.cast_sub (by omega)]; simp
  rw [hc] at hb
  have hd1 : (0 : Rat) < d - 1 := by
    have : (2 : Rat) ≤ d := by exact_mod_cast hd
    linarith
  have hsq : 0 < t ^ 2 := by positivity
  have hlt : r / x ^ d < (1 + t) ^ d := by
    have hs : (1 + t) ^ d = (1 + t) * (1 + t) ^ (d - 1) := by
      rw [← pow_succ']; congr 1; omega
    rw [hs, ← he]
    calc 1 + (d : Rat) * t < (1 + t) * (1 + (d - 1) * t) := by nlinarith
      _ ≤ _ := mul_le_mul_of_nonneg_left hb h1.le
  rw [mul_pow]
  calc r = x ^ d * (r / x ^ d) := by field_simp
    _ < _ := mul_lt_mul_of_pos_left hlt hxd

/-- So the whole iteration ends strictly above the root. -/
theorem newton_gt {r : Rat} {d : Nat} {ε : Rat} (hd : 2 ≤ d) (hr : 0 < r) :
    ∀ (f : Nat) (x v : Rat), 0 < x → x ^ d ≠ r → newton r d ε f x = .ok v → r < v ^ d := by
  intro f
  induction f with
  | zero => intro x v _ _ h; exact absurd h (by simp [newton])
  | succ f ih =>
    intro x v hx hne h
    rw [newton_succ (by omega) hx.ne'] at h
    have hg := step_gt hd hx hr hne
    split at h
    · simp only [Outcome.ok.injEq] at h
      rw [← h]; exact hg
    · exact ih _ v (step_pos (by omega) hx hr) hg.ne' h

/-- What the search for a root returns is an integer with that power, or its power is strictly larger in
magnitude than the radicand. -/
theorem rootPart_strict {f : Nat} {r : Rat} {d : Nat} {ε v : Rat} (hd : 2 ≤ d)
    (h : rootPart f r d ε = .ok v) : (∃ k : Int, v = k ∧ (k : Rat) ^ d = r) ∨ |r| < |v| ^ d := by
  have hd0 : d ≠ 0 := by omega
  unfold rootPart at h
  rw [if_neg (by omega)] at h
  by_cases hodd : r < 0 ∧ d % 2 = 0
  · rw [if_pos hodd] at h; exact absurd h (by simp)
  rw [if_neg hodd] at h
  simp only at h
  generalize hb : bisect r d (if r < 0 then ratTrunc r else 0) (if r < 0 then 0 else ratTrunc r) = g at h
  by_cases hm : fMagnitude r d g = 0
  · rw [if_pos hm] at h
    simp only [Outcome.ok.injEq] at h
    refine .inl ⟨_, h.symm, ?_⟩
    unfold fMagnitude at hm
    linarith [abs_eq_zero.1 hm]
  rw [if_neg hm] at h
  have hne : (g : Rat) ^ d ≠ r := fun hc => hm (by unfold fMagnitude; rw [hc]; simp)
  have hg0 : g ≠ 0 := by
    rintro rfl
    cases f with
    | zero => simp [newton] at h
    | succ f => rw [newton, Int.cast_zero, nextX_zero hd] at h; simp at h
  right
  rcases lt_trichotomy r 0 with hr | hr | hr
  · rw [if_pos hr, if_pos hr] at hb
    have ho : Odd d := Nat.odd_iff.2 (by
      have : ¬ d % 2 = 0 := fun hc => hodd ⟨hr, hc⟩
      omega)
    obtain ⟨_, hle, -, -⟩ := bisect_spec r d (ratTrunc r) 0 (by
      rw [ratTrunc_of_nonpos hr.le]; exact Int.ceil_le.2 (by simpa using hr.le))
    rw [hb] at hle
    have hg' : (0 : Rat) < -(g : Rat) := by
      have : (g : Rat) < 0 := by exact_mod_cast lt_of_le_of_ne hle hg0
      linarith
    have hneg := newton_neg (r := -r) (ε := ε) ho (by linarith) f (-(g : Rat)) hg'
    rw [neg_neg, neg_neg, h] at hneg
    cases hn : newton (-r) d ε f (-(g : Rat)) with
    | ok w =>
      rw [hn] at hneg
      simp only [Outcome.bind_ok, Outcome.ok.injEq] at hneg
      have := newton_gt hd (show 0 < -r by linarith) f _ w hg' (by
        rw [ho.neg_pow]
        intro hc
        exact hne (by linarith)) hn
      rw [hneg, abs_neg, abs_of_neg hr]
      calc -r < w ^ d := this
        _ ≤ |w ^ d| := le_abs_self _
        _ = _ := abs_pow w d
    | _ => rw [hn] at hneg; simp at hneg
  · exfalso
    subst hr
    have ht : ratTrunc 0 = 0 := by rw [ratTrunc_of_nonneg le_rfl]; simp
    rw [ht, ite_self, bisect] at hb
    simp at hb
    exact hg0 hb.symm
  · have hnl : ¬ r < 0 := not_lt.2 hr.le
    rw [if_neg hnl, if_neg hnl] at hb
    obtain ⟨hge, -, -, -⟩ := bisect_spec r d 0 (ratTrunc r) (by
      rw [ratTrunc_of_nonneg hr.le]; exact Int.floor_nonneg.2 hr.le)
    rw [hb] at hge
    have hg' : (0 : Rat) < g := by exact_mod_cast lt_of_le_of_ne hge (Ne.symm hg0)
    have := newton_gt hd hr f _ v hg' hne h
    rw [abs_of_pos hr]
    calc r < v ^ d := this
      _ ≤ |v ^ d| := le_abs_self _
      _ = _ := abs_pow v d

end Bcalc
