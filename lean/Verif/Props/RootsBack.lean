import Mathlib.Analysis.SpecialFunctions.Pow.Real
import Verif.Props.RootDigits
import Verif.Props.Identities

/-! # Roots taken back (C96) -/

namespace Bcalc
open Spec

/-! ## C96 Powers take back roots, and roots take back powers, to the last printed digit -/

/-- A number near one that can be printed exactly is printed as that one. -/
theorem displays_exact {args : Args} (hv : ValidSettings args) (hf : args.fractional = false) {v x : Rat} {text : Str}
    (h : Displays args x text) (hr : Representable v (outputRadix args) args.precision)
    (hx : |x - v| * (outputRadix args : Rat) ^ args.precision < 1 / 2) : Prints (outputRadix args) text v := by
  obtain ⟨q, h1, ⟨k, hk⟩, h2⟩ := displays_near hf h
  obtain ⟨j, hj⟩ := hr
  have hR : (0 : Rat) < (outputRadix args : Rat) ^ args.precision := by
    have h2 : 2 ≤ outputRadix args := by
      unfold outputRadix
      cases hc : args.convertToRadix with
      | none => exact hv.radix.1
      | some r => exact (hv.output r hc).1
    have : (0 : Rat) < outputRadix args := by exact_mod_cast (by omega : 0 < outputRadix args)
    positivity
  have h3 : |q - x| ≤ 1 / (outputRadix args : Rat) ^ args.precision / 2 := by
    unfold lastPlace at h2
    have : ((|q - x| : Rat) : ℝ) ≤ ((1 / (outputRadix args : Rat) ^ args.precision / 2 : Rat) : ℝ) := by
      push_cast
      exact h2
    exact Rat.cast_le.1 this
  have h4 : |q - v| < 1 / (outputRadix args : Rat) ^ args.precision := by
    have h5 : |x - v| < 1 / (outputRadix args : Rat) ^ args.precision / 2 := by
      rw [div_div, lt_div_iff₀ (by positivity)]; linarith
    have := abs_sub_le q x v
    linarith
  have h5 : |((k - j : Int) : Rat)| < 1 := by
    rw [hk, hj, ← sub_div, abs_div, abs_of_pos hR, div_lt_div_iff_of_pos_right hR] at h4
    exact_mod_cast h4
  have h6 : |k - j| < 1 := by exact_mod_cast h5
  have h7 : k = j := by
    rw [Int.abs_lt_one_iff] at h6
    omega
  rw [hj, ← h7, ← hk]
  exact h1

/-- The text is read as a part of an expression, in parentheses, and what it is read as has only values with a property. -/
def ReadsIn (m : Machine) (args : Args) (ρ : Valuation) (text : Str) (P : Rat → Prop) : Prop :=
  (∃ r, text = '(' :: r) ∧ Ascii text ∧ ∀ pos, ∃ ts n, Lexes args.radix pos text ts ∧ Atom ts n ∧
    ∀ w, n.pure m args true ρ = .ok w → P w

section
variable {m : Machine} {args : Args} {ρ : Valuation}

theorem readsIn_number {w : Str} {q : Rat} (h : Numeral args.radix w q) :
    ReadsIn m args ρ ('(' :: (w ++ [')'])) (· = q) := by
  refine ⟨⟨_, rfl⟩, ascii_first (by decide) (ascii_parts (numeral_ascii h) (by unfold Ascii; decide)), fun pos => ?_⟩
  refine ⟨_, _, .symbol .openP (lexes_append (lexes_numeral h) (.inr (boundary_symbol .closeP)) (.symbol .closeP .done)),
      .paren (ts := [_]) (expr_of_atom .number), ?_⟩
  intro w
  unfold Node.pure Node.pure
  simp only [Outcome.ok.injEq]
  exact Eq.symm

theorem readsIn_sqrt (h2 : 2 ≤ args.radix) {f : Str} {P : Rat → Prop} (h : ReadsIn m args ρ f P) :
    ReadsIn m args ρ ('(' :: ("sqrt".toList ++ (f ++ [')'])))
      (fun w => ∃ x, P x ∧ PowerValue (usedTolerance args) x (1 / 2) w) := by
  obtain ⟨⟨r, rfl⟩, ha, h⟩ := h
  refine ⟨⟨_, rfl⟩, ascii_first (by decide) (ascii_parts (by unfold Ascii; decide) (ascii_parts ha (by unfold Ascii; decide))),
    fun pos => ?_⟩
  obtain ⟨ts, n, h1, h3, h4⟩ := h (pos + 1 + 4)
  have hw : ∀ c ∈ "sqrt".toList, WordChar c := wordChars (by decide)
  refine ⟨_, _, .symbol .openP (.word (w := "sqrt".toList) (by decide) hw (boundary_symbol .openP) .sqrt
      (lexes_append h1 (.inr (boundary_symbol .closeP)) (.symbol .closeP .done))),
    .paren (ts := ⟨.unary .squareRoot, _⟩ :: ts) (expr_of_atom (.unary (.atom h3))), ?_⟩
  intro w
  unfold Node.pure Node.pure
  rw [bind_ok_iff]
  rintro ⟨x, hx, hw⟩
  exact ⟨x, h4 x hx, power_ok h2 hw⟩

theorem readsIn_power (h2 : 2 ≤ args.radix) {f g : Str} {P Q : Rat → Prop} (hf : ReadsIn m args ρ f P)
    (hg : ReadsIn m args ρ g Q) :
    ReadsIn m args ρ ('(' :: (f ++ '^' :: (g ++ [')'])))
      (fun w => ∃ x y, P x ∧ Q y ∧ PowerValue (usedTolerance args) x y w) := by
  obtain ⟨_, ha, hf⟩ := hf
  obtain ⟨_, hb, hg⟩ := hg
  refine ⟨⟨_, rfl⟩, ascii_first (by decide) (ascii_parts ha (ascii_first (by decide) (ascii_parts hb (by unfold Ascii; decide)))),
    fun pos => ?_⟩
  obtain ⟨ts, n, h1, h3, h4⟩ := hf (pos + 1)
  obtain ⟨ts', n', h1', h3', h4'⟩ := hg (pos + 1 + f.length + 1)
  obtain ⟨p, q, s, hl⟩ := lexes_binary .caret h1 h1'
  refine ⟨_, _, hl, .paren (expr_power h3 h3'), ?_⟩
  intro w
  unfold Node.pure Node.pure
  simp only [bind_ok_iff]
  rintro ⟨x, hx, y, hy, hw⟩
  exact ⟨x, y, h4 x hx, h4' y hy, power_ok h2 hw⟩

theorem readsIn_div {f g : Str} {P Q : Rat → Prop} (hf : ReadsIn m args ρ f P) (hg : ReadsIn m args ρ g Q) :
    ReadsIn m args ρ ('(' :: (f ++ '/' :: (g ++ [')']))) (fun w => ∃ x y, P x ∧ Q y ∧ w = x / y) := by
  obtain ⟨_, ha, hf⟩ := hf
  obtain ⟨_, hb, hg⟩ := hg
  refine ⟨⟨_, rfl⟩, ascii_first (by decide) (ascii_parts ha (ascii_first (by decide) (ascii_parts hb (by unfold Ascii; decide)))),
    fun pos => ?_⟩
  obtain ⟨ts, n, h1, h3, h4⟩ := hf (pos + 1)
  obtain ⟨ts', n', h1', h3', h4'⟩ := hg (pos + 1 + f.length + 1)
  obtain ⟨p, q, s, hl⟩ := lexes_binary .slash h1 h1'
  refine ⟨_, _, hl, .paren (expr_sum h3 h3' .divide (by simp)), ?_⟩
  intro w
  unfold Node.pure Node.pure
  simp only [bind_ok_iff]
  rintro ⟨x, hx, y, hy, hw⟩
  refine ⟨x, y, h4 x hx, h4' y hy, ?_⟩
  simp only [applyBinary, ratDiv] at hw
  split at hw
  · cases hw
  · split at hw <;> simp at hw
    exact hw.symm

end

theorem open_plain {text : Str} (h : ∃ r, text = '(' :: r) : ¬ CommandLine text := by
  rintro ⟨pre, rest, e, hb⟩
  obtain ⟨r, rfl⟩ := h
  cases pre with
  | nil => cases e
  | cons c cs =>
    cases e
    have := hb '(' (by simp)
    revert this
    unfold Blank
    decide

/-- What is answered to such a text displays one of those values. -/
theorem readsIn_answer {m : Machine} {ce : CommandExecutor} {s : Session} (hu : Undisturbed s) (hv : ValidSettings s.args)
    {ρ : Valuation} {line : Str} (hρ : SeenBy s line ρ) {text : Str} {P : Rat → Prop} (hr : ReadsIn m s.args ρ text P)
    {h : InputHistory} (hl : (h.currentLine : Outcome RuntimeErr Str) = .ok text) {t : Str}
    (ht : (calculate m ce text { s with inputs := some h }).1 = .ok t) : ∃ w, P w ∧ Displays s.args w t := by
  obtain ⟨ho, ha, hr⟩ := hr
  obtain ⟨ts, n, h1, h3, h4⟩ := hr 0
  have hc := open_plain ho
  obtain ⟨s', e, _⟩ := calculate_pure (m := m) (ce := ce) (hu.ready hl) (seenBy_text hu hρ _) hv.radix.1 hv.radix.2 hc
  rw [e] at ht
  have h5 := (pureAnswer_of (m := m) (args := s.args) (ρ := ρ) hv.radix.1 hv.radix.2 ha hc h1 (.expression (expr_of_atom h3))).1
  change pureAnswer m s.args ρ _ = _ at ht
  rw [h5, bind_ok_iff] at ht
  obtain ⟨w, hw, hd⟩ := ht
  obtain ⟨t', ht', hD⟩ := displays_of_display s.args hv w
  rw [hd] at ht'
  cases ht'
  exact ⟨w, h4 w hw, hD⟩

theorem output_ge_two {args : Args} (hv : ValidSettings args) : 2 ≤ outputRadix args := by
  unfold outputRadix
  cases hc : args.convertToRadix with
  | none => exact hv.radix.1
  | some r => exact (hv.output r hc).1

/-- The tolerance asked for, squared, is less than half of a unit in the last place. -/
theorem asked_square {args : Args} (hv : ValidSettings args) (hR : outputRadix args ≤ args.radix * args.radix) :
    askedTolerance args ^ 2 * (outputRadix args : Rat) ^ args.precision < 1 / 2 := by
  have h2 : (2 : Rat) ≤ args.radix := by exact_mod_cast hv.radix.1
  have hR' : (outputRadix args : Rat) ≤ (args.radix : Rat) ^ 2 := by
    rw [sq]; exact_mod_cast hR
  unfold askedTolerance
  rw [div_pow, one_pow, ← pow_mul, div_mul_eq_mul_div, one_mul, div_lt_div_iff₀ (by positivity) (by norm_num), one_mul]
  have h3 : (outputRadix args : Rat) ^ args.precision ≤ (args.radix : Rat) ^ (2 * args.precision) := by
    rw [pow_mul]; gcongr
  have h4 : (args.radix : Rat) ^ ((args.precision + args.extraPrecision + 1) * 2) =
      (args.radix : Rat) ^ (2 * args.precision) * (args.radix : Rat) ^ (2 * args.extraPrecision) * (args.radix : Rat) ^ 2 := by
    rw [← pow_add, ← pow_add]; congr 1; ring
  rw [h4]
  have h5 : (0 : Rat) < (args.radix : Rat) ^ (2 * args.precision) := by positivity
  have h6 : (1 : Rat) ≤ (args.radix : Rat) ^ (2 * args.extraPrecision) := one_le_pow₀ (by linarith)
  have h7 : (4 : Rat) ≤ (args.radix : Rat) ^ 2 := by nlinarith
  have h8 : (args.radix : Rat) ^ (2 * args.precision) * 1 * 4 ≤
      (args.radix : Rat) ^ (2 * args.precision) * (args.radix : Rat) ^ (2 * args.extraPrecision) * (args.radix : Rat) ^ 2 := by
    gcongr
  linarith

/-- A square root squared. -/
theorem half_residual {ε x v : Rat} (h : PowerValue ε x (1 / 2) v) : |v ^ 2 - x| ≤ ε ^ 2 := by
  have := h.residual
  rw [half_den, half_num, zpow_one] at this
  norm_num at this
  exact this

/-- An expression in parentheses has a value or none, which is what is displayed and what larger expressions use. -/
theorem part_value (m : Machine) (ce : CommandExecutor) {s : Session} (hu : Undisturbed s) (hv : ValidSettings s.args)
    {a : Str} (ha : ExpressionText s.args.radix a) {h : InputHistory}
    (hl : (h.currentLine : Outcome RuntimeErr Str) = .ok ("(".toList ++ a ++ ")".toList)) :
    ∃ (ρ : Valuation) (v : Option Rat), SeenBy s ("(".toList ++ a ++ ")".toList) ρ ∧
      (∀ t, (calculate m ce ("(".toList ++ a ++ ")".toList) { s with inputs := some h }).1 = .ok t ↔
        ∃ q, v = some q ∧ displayResult s.args q = .ok t) ∧
      ReadsIn m s.args ρ ("(".toList ++ a ++ ")".toList) (fun q => v = some q) := by
  obtain ⟨ρ, hρ⟩ := C73_values _ _ (hu.ready hl)
  obtain ⟨v, hh⟩ := hole_reads (m := m) (args := s.args) (ρ := ρ) (a := fun _ => a) (fun _ => ha)
  have hρ' : SeenBy s ("(".toList ++ a ++ ")".toList) ρ := hρ
  have e1 : "(".toList ++ a ++ ")".toList = (Form.hole 0).text fun _ => a := by simp [Form.text]
  refine ⟨ρ, v 0, hρ', fun t => ?_, ⟨_, rfl⟩, ascii_parts (ascii_first (by decide) ha.1) (by unfold Ascii; decide), fun pos => ?_⟩
  · rw [e1] at hl hρ' ⊢
    exact form_answer hu hv.radix.1 hv.radix.2 hρ' (fun _ => ha.1) hh (.hole 0) trivial hl t
  · obtain ⟨ts, n, h1, h3, h4⟩ := form_reads hh hv.radix.1 (.hole 0) trivial pos
    rw [← e1] at h1
    exact ⟨ts, n, h1, h3, fun w hw => (h4 w).1 hw⟩

/-- `((sqrt(a))^(2))`, with any expression for `a` and the numeral for two, differs from the value of `(a)` by at most
the square of the tolerance, before it is printed; if the value of `a` can be printed exactly, then it is what is
printed. -/
theorem C96_square_of_root (m : Machine) (ce : CommandExecutor) (s : Session) (hu : Undisturbed s) (hv : ValidSettings s.args)
    (hp : s.args.precision + s.args.extraPrecision ≤ 254) (a two : Str) (ha : ExpressionText s.args.radix a)
    (h2 : Numeral s.args.radix two 2) (h h' : InputHistory)
    (hl : (h.currentLine : Outcome RuntimeErr Str) = .ok ("(".toList ++ a ++ ")".toList))
    (hl' : (h'.currentLine : Outcome RuntimeErr Str) = .ok ("((sqrt(".toList ++ a ++ "))^(".toList ++ two ++ "))".toList)) :
    ∃ v : Option Rat,
      (∀ t, (calculate m ce ("(".toList ++ a ++ ")".toList) { s with inputs := some h }).1 = .ok t ↔
        ∃ q, v = some q ∧ displayResult s.args q = .ok t) ∧
      ∀ t, (calculate m ce ("((sqrt(".toList ++ a ++ "))^(".toList ++ two ++ "))".toList) { s with inputs := some h' }).1 = .ok t →
        ∃ q w, v = some q ∧ Displays s.args w t ∧ |w - q| ≤ askedTolerance s.args ^ 2 ∧
          (s.args.fractional = false → outputRadix s.args ≤ s.args.radix * s.args.radix →
            Representable q (outputRadix s.args) s.args.precision → Prints (outputRadix s.args) t q) := by
  obtain ⟨ρ, v, hρ, hv1, hr⟩ := part_value m ce hu hv ha hl
  refine ⟨v, hv1, fun t ht => ?_⟩
  have e2 : "((sqrt(".toList ++ a ++ "))^(".toList ++ two ++ "))".toList =
      '(' :: (('(' :: ("sqrt".toList ++ (("(".toList ++ a ++ ")".toList) ++ [')']))) ++ '^' :: (('(' :: (two ++ [')'])) ++ [')'])) := by
    simp
  rw [e2] at hl' ht
  obtain ⟨w, ⟨x, y, ⟨q, hq, hx⟩, rfl, hw⟩, hd⟩ :=
    readsIn_answer hu hv hρ (readsIn_power hv.radix.1 (readsIn_sqrt hv.radix.1 hr) (readsIn_number h2)) hl' ht
  rw [tolerance_asked hp] at hx
  have e3 : w = x ^ 2 := by
    have := hw.integer rfl
    simpa using this
  subst e3
  have hres := half_residual hx
  refine ⟨q, x ^ 2, hq, hd, hres, fun hf hR hrep => displays_exact hv hf hd hrep ?_⟩
  refine lt_of_le_of_lt ?_ (asked_square hv hR)
  gcongr

/-- The root of a square. -/
theorem half_square {ε q v : Rat} (h : PowerValue ε (q ^ 2) (1 / 2) v) : |v - abs q| * (2 * |q|) ≤ ε ^ 2 := by
  have h1 := half_residual h
  obtain ⟨_, hacc, _⟩ := half_power h
  have h2 := (hacc |(q : ℝ)| (abs_nonneg _) (by rw [← sq, sq_abs]; push_cast; rfl)).away
  have h3 : |q| ≤ |v| := by
    have : ((|q| : Rat) : ℝ) ≤ ((|v| : Rat) : ℝ) := by
      push_cast
      rwa [abs_abs] at h2
    exact Rat.cast_le.1 this
  have hv0 : 0 ≤ v := by
    rcases eq_or_ne q 0 with rfl | hq
    · have := h.exact_root 0 (by rw [half_num, half_den]; norm_num) (fun _ => le_rfl)
      rw [this]; simp
    · have := h.sign_pos (by rw [half_num, zpow_one]; positivity)
      exact this.le
  rw [abs_of_nonneg hv0] at h3
  rw [abs_of_nonneg (by linarith)]
  rw [← sq_abs q] at h1
  have := le_trans (le_abs_self _) h1
  nlinarith [abs_nonneg q]

/-- `(sqrt((a)^(2)))`: the absolute value of `a` is printed, if it can be printed exactly and is at least one. -/
theorem C96_root_of_square (m : Machine) (ce : CommandExecutor) (s : Session) (hu : Undisturbed s) (hv : ValidSettings s.args)
    (hp : s.args.precision + s.args.extraPrecision ≤ 254) (a two : Str) (ha : ExpressionText s.args.radix a)
    (h2 : Numeral s.args.radix two 2) (h h' : InputHistory)
    (hl : (h.currentLine : Outcome RuntimeErr Str) = .ok ("(".toList ++ a ++ ")".toList))
    (hl' : (h'.currentLine : Outcome RuntimeErr Str) = .ok ("(sqrt((".toList ++ a ++ ")^(".toList ++ two ++ ")))".toList)) :
    ∃ v : Option Rat,
      (∀ t, (calculate m ce ("(".toList ++ a ++ ")".toList) { s with inputs := some h }).1 = .ok t ↔
        ∃ q, v = some q ∧ displayResult s.args q = .ok t) ∧
      ∀ t, (calculate m ce ("(sqrt((".toList ++ a ++ ")^(".toList ++ two ++ ")))".toList) { s with inputs := some h' }).1 = .ok t →
        ∃ q w, v = some q ∧ Displays s.args w t ∧ |w - abs q| * (2 * |q|) ≤ askedTolerance s.args ^ 2 ∧
          (s.args.fractional = false → outputRadix s.args ≤ s.args.radix * s.args.radix → 1 ≤ |q| →
            Representable q (outputRadix s.args) s.args.precision → Prints (outputRadix s.args) t |q|) := by
  obtain ⟨ρ, v, hρ, hv1, hr⟩ := part_value m ce hu hv ha hl
  refine ⟨v, hv1, fun t ht => ?_⟩
  have e2 : "(sqrt((".toList ++ a ++ ")^(".toList ++ two ++ ")))".toList =
      '(' :: ("sqrt".toList ++ (('(' :: (("(".toList ++ a ++ ")".toList) ++ '^' :: (('(' :: (two ++ [')'])) ++ [')']))) ++ [')'])) := by
    simp
  rw [e2] at hl' ht
  obtain ⟨w, ⟨x, ⟨q, y, hq, rfl, hx⟩, hw⟩, hd⟩ :=
    readsIn_answer hu hv hρ (readsIn_sqrt hv.radix.1 (readsIn_power hv.radix.1 hr (readsIn_number h2))) hl' ht
  rw [tolerance_asked hp] at hw
  have e3 : x = q ^ 2 := by
    have := hx.integer rfl
    simpa using this
  subst e3
  have hres := half_square hw
  refine ⟨q, w, hq, hd, hres, fun hf hR h1 hrep => displays_exact hv hf hd ?_ ?_⟩
  · obtain ⟨k, hk⟩ := hrep
    refine ⟨|k|, ?_⟩
    rw [hk, abs_div, abs_of_nonneg (a := (outputRadix s.args : Rat) ^ s.args.precision) (by positivity)]
    push_cast
    rfl
  · refine lt_of_le_of_lt ?_ (asked_square hv hR)
    have : |w - abs q| ≤ askedTolerance s.args ^ 2 := by nlinarith [abs_nonneg (w - abs q)]
    gcongr

theorem inv_den {n : Nat} (hn : n ≠ 0) : ((1 : Rat) / n).den = n ∧ ((1 : Rat) / n).num = 1 := by
  rw [one_div]
  constructor
  · rw [Rat.inv_natCast_den_of_pos (by omega)]
  · rw [Rat.inv_natCast_num_of_pos (by omega)]

/-- A root is about as large as the radicand says. -/
theorem root_size {ε q v B : Rat} {n : Nat} (hn : n ≠ 0) (h : PowerValue ε q (1 / n) v) (hB : 0 ≤ B) (hq : |q| ≤ B ^ n) :
    |v| ≤ B + (n - 1) * ε := by
  obtain ⟨e1, e2⟩ := inv_den hn
  have hacc := h.accurate
  have hre := h.real
  rw [e1, e2, zpow_one] at hacc hre
  have key : ∃ ρ : ℝ, RealRoot n q ρ ∧ |ρ| ≤ (B : ℝ) := by
    have hr0 : (0 : ℝ) ≤ |(q : ℝ)| := abs_nonneg _
    have h1 : (|(q : ℝ)| ^ ((n : ℝ)⁻¹)) ^ n = |(q : ℝ)| := Real.rpow_inv_natCast_pow hr0 hn
    have h2 : 0 ≤ |(q : ℝ)| ^ ((n : ℝ)⁻¹) := Real.rpow_nonneg hr0 _
    have h3 : |(q : ℝ)| ^ ((n : ℝ)⁻¹) ≤ B := by
      refine le_of_pow_le_pow_left₀ hn (by exact_mod_cast hB) ?_
      rw [h1]
      exact_mod_cast hq
    rcases le_or_gt 0 q with h0 | h0
    · refine ⟨_, ⟨?_, fun _ => h2⟩, by rwa [abs_of_nonneg h2]⟩
      rw [h1, abs_of_nonneg (by exact_mod_cast h0)]
    · refine ⟨-(|(q : ℝ)| ^ ((n : ℝ)⁻¹)), ⟨?_, fun h => absurd h0 (not_lt.2 h)⟩, by rwa [abs_neg, abs_of_nonneg h2]⟩
      rw [(hre h0).neg_pow, h1, abs_of_neg (by exact_mod_cast h0), neg_neg]
  obtain ⟨ρ, hρ, hle⟩ := key
  have h1 := (hacc ρ hρ).linear
  have h2 : |(v : ℝ)| ≤ B + ((n : ℝ) - 1) * ε := by
    have := abs_sub_abs_le_abs_sub (v : ℝ) ρ
    linarith
  have h3 : ((|v| : Rat) : ℝ) ≤ ((B + ((n : Rat) - 1) * ε : Rat) : ℝ) := by
    push_cast
    exact h2
  exact Rat.cast_le.1 h3

/-- `(((a)^((1)/(n)))^(n))`, with any expression for `a` and a numeral for the number `n`: how far its value is from
the value of `a`, if that is at most `B` to the power of `n`; if this is less than half a unit in the last place, and
the value of `a` can be printed exactly, then it is what is printed. -/
theorem C96_power_of_root (m : Machine) (ce : CommandExecutor) (s : Session) (hu : Undisturbed s) (hv : ValidSettings s.args)
    (hp : s.args.precision + s.args.extraPrecision ≤ 254) (a one w : Str) (n : Nat) (hn : n ≠ 0)
    (ha : ExpressionText s.args.radix a) (h1 : Numeral s.args.radix one 1) (hw : Numeral s.args.radix w n) (h h' : InputHistory)
    (hl : (h.currentLine : Outcome RuntimeErr Str) = .ok ("(".toList ++ a ++ ")".toList))
    (hl' : (h'.currentLine : Outcome RuntimeErr Str) =
      .ok ("(((".toList ++ a ++ ")^((".toList ++ one ++ ")/(".toList ++ w ++ ")))^(".toList ++ w ++ "))".toList)) :
    ∃ v : Option Rat,
      (∀ t, (calculate m ce ("(".toList ++ a ++ ")".toList) { s with inputs := some h }).1 = .ok t ↔
        ∃ q, v = some q ∧ displayResult s.args q = .ok t) ∧
      ∀ t, (calculate m ce ("(((".toList ++ a ++ ")^((".toList ++ one ++ ")/(".toList ++ w ++ ")))^(".toList ++ w ++ "))".toList)
          { s with inputs := some h' }).1 = .ok t →
        ∃ q z, v = some q ∧ Displays s.args z t ∧ ∀ B : Rat, 0 ≤ B → |q| ≤ B ^ n →
          |z - q| ≤ (n : Rat) * (n - 1) / 2 * (B + n * askedTolerance s.args) ^ (n - 2) * askedTolerance s.args ^ 2 ∧
          (s.args.fractional = false →
            (n : Rat) * (n - 1) * (B + n * askedTolerance s.args) ^ (n - 2) * askedTolerance s.args ^ 2 *
              (outputRadix s.args : Rat) ^ s.args.precision < 1 →
            Representable q (outputRadix s.args) s.args.precision → Prints (outputRadix s.args) t q) := by
  obtain ⟨ρ, v, hρ, hv1, hr⟩ := part_value m ce hu hv ha hl
  refine ⟨v, hv1, fun t ht => ?_⟩
  have e2 : "(((".toList ++ a ++ ")^((".toList ++ one ++ ")/(".toList ++ w ++ ")))^(".toList ++ w ++ "))".toList =
      '(' :: (('(' :: (("(".toList ++ a ++ ")".toList) ++ '^' :: (('(' :: (('(' :: (one ++ [')'])) ++ '/' :: (('(' :: (w ++ [')'])) ++ [')']))) ++ [')']))) ++
        '^' :: (('(' :: (w ++ [')'])) ++ [')'])) := by
    simp
  rw [e2] at hl' ht
  obtain ⟨z, ⟨x, y, ⟨q, e, hq, ⟨y1, y2, rfl, rfl, rfl⟩, hx⟩, rfl, hz⟩, hd⟩ :=
    readsIn_answer hu hv hρ (readsIn_power hv.radix.1 (readsIn_power hv.radix.1 hr
      (readsIn_div (readsIn_number h1) (readsIn_number hw))) (readsIn_number hw)) hl' ht
  rw [tolerance_asked hp] at hx
  have e3 : z = x ^ n := by
    have := hz.integer (by simp)
    simpa using this
  subst e3
  refine ⟨q, x ^ n, hq, hd, fun B hB hqB => ?_⟩
  have hsize := root_size hn hx hB hqB
  have hres := hx.residual
  obtain ⟨d1, d2⟩ := inv_den hn
  rw [d1, d2, zpow_one] at hres
  have hε := askedTolerance_pos hv.radix.1
  have hn1 : (0 : Rat) ≤ (n : Rat) - 1 := by
    have : (1 : Rat) ≤ n := by exact_mod_cast (by omega : 1 ≤ n)
    linarith
  have hbound : |x ^ n - q| ≤ (n : Rat) * (n - 1) / 2 * (B + n * askedTolerance s.args) ^ (n - 2) * askedTolerance s.args ^ 2 := by
    refine le_trans hres ?_
    have : |x| + askedTolerance s.args ≤ B + n * askedTolerance s.args := by linarith
    gcongr
  refine ⟨hbound, fun hf hlt hrep => displays_exact hv hf hd hrep ?_⟩
  have hR : (0 : Rat) ≤ (outputRadix s.args : Rat) ^ s.args.precision := by positivity
  have := mul_le_mul_of_nonneg_right hbound hR
  linarith

/-- The roots of two, not exact, and that of the square of one and a half, which is not found exactly either: with the
usual settings, in a session, the hypotheses are met and the numbers come back, with zeros behind the point. -/
example : Undisturbed (exKnows none) ∧ ValidSettings (exKnows none).args ∧ ExpressionText 10 "2".toList ∧
    (Numeral 10 "2".toList 2 ∧ Numeral 10 "1".toList 1 ∧ Numeral 10 "3".toList (3 : Nat)) ∧
    (calculate exForward table "((sqrt(2))^(2))".toList { exKnows none with inputs := some (exShows "((sqrt(2))^(2))") }).1 =
      .ok "2.00000".toList ∧
    (calculate exForward table "(sqrt((1.5)^(2)))".toList { exKnows none with inputs := some (exShows "(sqrt((1.5)^(2)))") }).1 =
      .ok "1.50000".toList ∧
    (calculate exForward table "(((2)^((1)/(3)))^(3))".toList
      { exKnows none with inputs := some (exShows "(((2)^((1)/(3)))^(3))") }).1 = .ok "2.00000".toList := by
  refine ⟨?_, ?_, exReads (ts := [⟨.number 2, ⟨0, 1⟩⟩]) (by decide +kernel) (by decide +kernel), ⟨?_, ?_, ?_⟩,
    by decide +kernel, by decide +kernel, by decide +kernel⟩
  · exact ⟨rfl, (by intro _ h; cases h), (by intro _ h; cases h)⟩
  · exact exDefault_valid
  · exact .whole (w := "2".toList) (ds := [2]) (by unfold Digits DigitChar; decide) (by decide)
  · exact .whole (w := "1".toList) (ds := [1]) (by unfold Digits DigitChar; decide) (by decide)
  · exact .whole (w := "3".toList) (ds := [3]) (by unfold Digits DigitChar; decide) (by decide)

/-- The condition for cube roots, with the usual settings: it is met by all numbers up to the cube of ten to the
sixteenth. -/
example : (3 : Rat) * (3 - 1) * (10 ^ 16 + 3 * askedTolerance .default) ^ (3 - 2) * askedTolerance .default ^ 2 *
    (outputRadix .default : Rat) ^ Args.default.precision < 1 := by
  unfold askedTolerance outputRadix Args.default
  norm_num

/-- For large numbers it does fail: with precision 0 and no extra digits, the cube of the cube root of 9384 is printed
as 9385. -/
theorem C96_violation :
    oneShot (exMachine true) { Args.default with precision := 0, extraPrecision := 0 } "(((9384)^((1)/(3)))^(3))".toList =
      .ok (.result "9385".toList) ∧
    oneShot (exMachine true) { Args.default with precision := 0, extraPrecision := 0 } "(9384)".toList =
      .ok (.result "9384".toList) := by
  decide +kernel

end Bcalc
