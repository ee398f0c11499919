import Verif.Proof.Digits
import Verif.Spec.Display
import Verif.Model.Calc
import Mathlib.Tactic.Linarith
import Mathlib.Tactic.FieldSimp
import Mathlib.Algebra.Order.Floor.Ring

/-! # The display of numbers -/

namespace Bcalc
open Spec

/-! ## Rounding -/

theorem ratTrunc_nonneg {q : Rat} (h : 0 ≤ q) : ratTrunc q = ⌊q⌋ := by
  unfold ratTrunc
  rw [Int.tdiv_eq_ediv_of_nonneg (Rat.num_nonneg.2 h), Rat.floor_def']

theorem half_iff {f : Rat} (h0 : 0 ≤ f) :
    (if (f.den : Int) % 2 = 0 then decide (f.num ≥ Int.tdiv f.den 2)
      else decide (f.num ≥ Int.tdiv f.den 2 + 1)) = decide (1 / 2 ≤ f) := by
  have hd : (0 : Int) < f.den := by exact_mod_cast f.den_pos
  have hdq : (0 : Rat) < f.den := by exact_mod_cast f.den_pos
  have ht : Int.tdiv (f.den : Int) 2 = (f.den : Int) / 2 := Int.tdiv_eq_ediv_of_nonneg (by omega)
  have key : 1 / 2 ≤ f ↔ (f.den : Int) ≤ 2 * f.num := by
    have hf : f = (f.num : Rat) / f.den := (Rat.num_div_den f).symm
    constructor
    · intro h
      rw [hf, le_div_iff₀ hdq] at h
      have : (f.den : Rat) ≤ 2 * f.num := by linarith
      exact_mod_cast this
    · intro h
      rw [hf, le_div_iff₀ hdq]
      have : (f.den : Rat) ≤ 2 * f.num := by exact_mod_cast h
      linarith
  rw [ht]
  split
  · rw [decide_eq_decide, key]; omega
  · rw [decide_eq_decide, key]; omega

/-- Rounding of non-negative numbers: to the nearest, ties up. -/
theorem ratRound_nonneg {q : Rat} (h : 0 ≤ q) : ratRound q = ⌊q + 1 / 2⌋ := by
  unfold ratRound
  have hfl := Int.floor_le q
  have hlt := Int.lt_floor_add_one q
  simp only [ratTrunc_nonneg h]
  have hnn : ¬ (q - (⌊q⌋ : Rat) < 0) := by push Not; linarith
  rw [if_neg hnn, half_iff (by linarith)]
  by_cases hh : 1 / 2 ≤ q - (⌊q⌋ : Rat)
  · simp only [hh, decide_true, if_true, ge_iff_le, h]
    symm
    rw [Int.floor_eq_iff]
    push_cast
    constructor <;> linarith
  · simp only [hh, decide_false, Bool.false_eq_true, if_false]
    symm
    rw [Int.floor_eq_iff]
    constructor <;> linarith

/-! ## Digits as text -/

/-- A digit in the chosen case. -/
def digitText (upper : Bool) (d : Nat) : Char :=
  if d < 10 then Char.ofNat (48 + d)
  else if upper then Char.ofNat (65 + (d - 10)) else Char.ofNat (97 + (d - 10))

theorem char_ofNat_toNat {n : Nat} (h : n < 128) : (Char.ofNat n).toNat = n := by
  have hv : n.isValidChar := by left; omega
  simp [Char.ofNat, hv, Char.toNat, Char.ofNatAux]

theorem digitText_toNat {upper : Bool} {d : Nat} (h : d < 36) :
    (digitText upper d).toNat =
      if d < 10 then 48 + d else if upper then 65 + (d - 10) else 97 + (d - 10) := by
  unfold digitText
  split
  · exact char_ofNat_toNat (by omega)
  · split <;> exact char_ofNat_toNat (by omega)

theorem digitText_lower (d : Nat) : digitText false d = digitChar d := by
  unfold digitText digitChar
  simp

theorem digitText_spec {upper : Bool} {d : Nat} (h : d < 36) : DigitChar (digitText upper d) d := by
  have h0 : '0'.toNat = 48 := rfl
  have ha : 'a'.toNat = 97 := rfl
  have hA : 'A'.toNat = 65 := rfl
  have := digitText_toNat (upper := upper) h
  unfold DigitChar
  split at this
  · omega
  · split at this <;> omega

theorem digitText_zero (upper : Bool) : digitText upper 0 = '0' := by
  cases upper <;> decide

theorem digitText_eq_zero {upper : Bool} {d : Nat} (h : d < 36) : digitText upper d = '0' ↔ d = 0 := by
  constructor
  · intro he
    have := digitText_toNat (upper := upper) h
    rw [he] at this
    have h0 : '0'.toNat = 48 := rfl
    rw [h0] at this
    split at this
    · omega
    · split at this <;> omega
  · rintro rfl; exact digitText_zero upper

/-- Digits as text. -/
def digitsText (upper : Bool) (ds : List Nat) : Str := ds.map (digitText upper)

theorem upper_digitChar {d : Nat} (h : d < 36) :
    (fun c : Char => if 97 ≤ c.toNat ∧ c.toNat ≤ 122 then Char.ofNat (c.toNat - 32) else c)
      (digitChar d) = digitText true d := by
  have hd := digitChar_toNat h
  simp only [hd]
  unfold digitText
  by_cases h10 : d < 10
  · rw [if_pos h10, if_pos h10, if_neg (by omega)]
    unfold digitChar
    rw [if_pos h10]
  · rw [if_neg h10, if_neg h10, if_pos (by omega)]
    simp only [if_true]
    congr 1
    omega

theorem upper_digits {ds : List Nat} (h : ∀ d ∈ ds, d < 36) (upper : Bool) :
    (if upper then asciiUpper (ds.map digitChar) else ds.map digitChar) = digitsText upper ds := by
  cases upper with
  | false =>
    simp only [Bool.false_eq_true, if_false]
    unfold digitsText
    apply List.map_congr_left
    intro d _
    exact (digitText_lower d).symm
  | true =>
    simp only [if_true]
    unfold asciiUpper digitsText
    rw [List.map_map]
    apply List.map_congr_left
    intro d hd
    exact upper_digitChar (h d hd)

theorem digitsText_digits {radix : Nat} (hr : radix ≤ 36) {ds : List Nat} (h : ∀ d ∈ ds, d < radix)
    (upper : Bool) : Digits radix (digitsText upper ds) ds := by
  induction ds with
  | nil => exact .nil
  | cons d ds ih =>
    have := h d (by simp)
    exact .cons ⟨digitText_spec (by omega), this⟩ (ih fun d hd => h d (by simp [hd]))

/-- The list without its last zeros. -/
def trimZeros (ds : List Nat) : List Nat := (ds.reverse.dropWhile (· == 0)).reverse

theorem dropWhile_map_congr {α β : Type} (f : α → β) (p : β → Bool) (q : α → Bool) :
    ∀ (l : List α), (∀ a ∈ l, p (f a) = q a) → (l.map f).dropWhile p = (l.dropWhile q).map f := by
  intro l
  induction l with
  | nil => intro _; rfl
  | cons a l ih =>
    intro h
    rw [List.map_cons, List.dropWhile_cons, List.dropWhile_cons, h a (by simp)]
    split
    · exact ih fun a ha => h a (by simp [ha])
    · rfl

theorem trimEndZeros_digits {ds : List Nat} (h : ∀ d ∈ ds, d < 36) (upper : Bool) :
    trimEndZeros (digitsText upper ds) = digitsText upper (trimZeros ds) := by
  unfold trimEndZeros trimZeros digitsText
  rw [← List.map_reverse, dropWhile_map_congr _ _ (· == 0), List.map_reverse]
  intro d hd
  have := digitText_eq_zero (upper := upper) (h d (List.mem_reverse.1 hd))
  by_cases hz : d = 0
  · subst hz; simp [digitText_zero]
  · have hne : digitText upper d ≠ '0' := fun he => hz (this.1 he)
    simp [hz, hne]

theorem trimZeros_spec (ds : List Nat) : ∃ k, ds = trimZeros ds ++ List.replicate k 0 ∧
    (trimZeros ds).getLast? ≠ some 0 := by
  unfold trimZeros
  have hk : ∀ l : List Nat, ∃ k, l = List.replicate k 0 ++ l.dropWhile (· == 0) ∧
      (l.dropWhile (· == 0)).head? ≠ some 0 := by
    intro l
    induction l with
    | nil => exact ⟨0, by simp⟩
    | cons a l ih =>
      rw [List.dropWhile_cons]
      by_cases ha : a = 0
      · subst ha
        obtain ⟨k, h1, h2⟩ := ih
        refine ⟨k + 1, ?_, by simpa using h2⟩
        simp only [beq_self_eq_true, if_true, List.replicate_succ, List.cons_append]
        rw [← h1]
      · refine ⟨0, by simp [ha], by simp [ha]⟩
  obtain ⟨k, h1, h2⟩ := hk ds.reverse
  refine ⟨k, ?_, ?_⟩
  · have := congrArg List.reverse h1
    rw [List.reverse_reverse] at this
    simpa using this
  · rw [List.getLast?_reverse]; exact h2

/-! ## The parts of a display -/

/-- Number of units of the last place: the magnitude scaled, rounded to nearest. -/
def units (v : Rat) (radix precision : Nat) : Nat :=
  (⌊|v| * (radix : Rat) ^ precision + 1 / 2⌋).toNat

/-- All fractional digits. -/
def fracDigits (u radix precision : Nat) : List Nat :=
  if precision = 0 then []
  else
    let ds := natDigits radix (u % radix ^ precision)
    List.replicate (precision - ds.length) 0 ++ ds

open Classical in
/-- The fractional digits that are shown. -/
noncomputable def shownFraction (v : Rat) (radix precision : Nat) : List Nat :=
  let ds := fracDigits (units v radix precision) radix precision
  if Representable v radix precision then trimZeros ds else ds

/-- The sign, the integer digits and the fractional digits as text. -/
noncomputable def shownText (v : Rat) (radix precision : Nat) (commas upper : Bool) : Str :=
  (if v < 0 then ['-'] else []) ++
  (let s := digitsText upper (natDigits radix (units v radix precision / radix ^ precision))
   if commas then withCommas s else s) ++
  (let f := digitsText upper (shownFraction v radix precision)
   if f = [] then [] else '.' :: f)

theorem natDigits_length {radix p n : Nat} (h2 : 2 ≤ radix) (hp : 0 < p) (h : n < radix ^ p) :
    (natDigits radix n).length ≤ p := by
  unfold natDigits
  split
  · exact hp
  · rename_i hn
    rw [List.length_reverse]
    exact (Nat.digits_length_le_iff (by omega) n).2 h

theorem precise_iff (v : Rat) (radix precision : Nat) (h2 : 2 ≤ radix) :
    (|v * (((radix : Int) ^ precision : Int) : Rat)|).den = 1 ↔ Representable v radix precision := by
  have hpos : (0 : Rat) < (radix : Rat) ^ precision := by
    have : (0 : Rat) < radix := by exact_mod_cast (by omega : 0 < radix)
    positivity
  have hc : (((radix : Int) ^ precision : Int) : Rat) = (radix : Rat) ^ precision := by push_cast; rfl
  rw [hc]
  unfold Representable
  constructor
  · intro h
    have hint : |v * (radix : Rat) ^ precision| =
        ((|v * (radix : Rat) ^ precision|).num : Rat) := by
      have := Rat.num_div_den |v * (radix : Rat) ^ precision|
      rw [h] at this
      simpa using this.symm
    rcases abs_choice (v * (radix : Rat) ^ precision) with ha | ha
    · refine ⟨(|v * (radix : Rat) ^ precision|).num, ?_⟩
      rw [← hint, ha]; field_simp
    · refine ⟨-(|v * (radix : Rat) ^ precision|).num, ?_⟩
      push_cast
      rw [← hint, ha]; field_simp
  · rintro ⟨k, hk⟩
    have : v * (radix : Rat) ^ precision = k := by rw [hk]; field_simp
    rw [this, ← Int.cast_abs]
    rfl

theorem makeDecimalString_eq {ε : Type} (v : Rat) {radix : Nat} (h2 : 2 ≤ radix) (hr : radix ≤ 36)
    (precision : Nat) (commas upper : Bool) :
    (makeDecimalString v radix precision commas upper : Outcome ε Str) =
      .ok (shownText v radix precision commas upper) := by
  have hpos : (0 : Rat) < (radix : Rat) ^ precision := by
    have : (0 : Rat) < radix := by exact_mod_cast (by omega : 0 < radix)
    positivity
  have hc : (((radix : Int) ^ precision : Int) : Rat) = (radix : Rat) ^ precision := by push_cast; rfl
  have habs : |v * (radix : Rat) ^ precision| = |v| * (radix : Rat) ^ precision := by
    rw [abs_mul, abs_of_pos hpos]
  have hround : ratRound |v * (((radix : Int) ^ precision : Int) : Rat)| =
      (units v radix precision : Int) := by
    rw [hc, ratRound_nonneg (abs_nonneg _), habs]
    unfold units
    have : 0 ≤ ⌊|v| * (radix : Rat) ^ precision + 1 / 2⌋ := by
      apply Int.floor_nonneg.2
      positivity
    omega
  have hdiv : Int.tdiv (units v radix precision : Int) ((radix : Int) ^ precision) =
      ((units v radix precision / radix ^ precision : Nat) : Int) := by
    rw [Int.tdiv_eq_ediv_of_nonneg (by omega)]
    push_cast; rfl
  have hmod : Int.tmod (units v radix precision : Int) ((radix : Int) ^ precision) =
      ((units v radix precision % radix ^ precision : Nat) : Int) := by
    rw [Int.tmod_eq_emod_of_nonneg (by omega)]
    push_cast; rfl
  have hstr : ∀ n : Nat, (intToStrRadix (n : Int) radix : Outcome ε Str) =
      .ok ((natDigits radix n).map digitChar) := by
    intro n
    unfold intToStrRadix
    rw [if_pos ⟨h2, hr⟩, if_neg (by omega)]
    simp [natToStr_eq]
  have hlt36 : ∀ n, ∀ d ∈ natDigits radix n, d < 36 := fun n d hd =>
    lt_of_lt_of_le (natDigits_lt h2 d hd) hr
  have hpad : ∀ n, padZeros precision ((natDigits radix n).map digitChar) =
      (List.replicate (precision - (natDigits radix n).length) 0 ++ natDigits radix n).map
        digitChar := by
    intro n
    unfold padZeros
    rw [List.map_append, List.length_map, List.map_replicate]
    rfl
  have hpadlt : ∀ n, ∀ d ∈ List.replicate (precision - (natDigits radix n).length) 0 ++
      natDigits radix n, d < 36 := by
    intro n d hd
    rcases List.mem_append.1 hd with hd | hd
    · rw [(List.mem_replicate.1 hd).2]; omega
    · exact hlt36 n d hd
  unfold makeDecimalString
  simp only [hround, hdiv, hmod, hstr, Outcome.bind_ok, hpad]
  rw [upper_digits (hlt36 _), upper_digits (hpadlt _), trimEndZeros_digits (hpadlt _)]
  have hprec : (((|v * (((radix : Int) ^ precision : Int) : Rat)|).den == 1) = true) ↔
      Representable v radix precision := by
    rw [beq_iff_eq, precise_iff v radix precision h2]
  have hfrac : (if precision = 0 then (Outcome.ok [] : Outcome ε Str)
      else .ok (if ((|v * (((radix : Int) ^ precision : Int) : Rat)|).den == 1) = true then
        digitsText upper (trimZeros (List.replicate (precision -
          (natDigits radix (units v radix precision % radix ^ precision)).length) 0 ++
            natDigits radix (units v radix precision % radix ^ precision)))
        else digitsText upper (List.replicate (precision -
          (natDigits radix (units v radix precision % radix ^ precision)).length) 0 ++
            natDigits radix (units v radix precision % radix ^ precision)))) =
      .ok (digitsText upper (shownFraction v radix precision)) := by
    unfold shownFraction fracDigits
    by_cases hp : precision = 0
    · simp [hp, trimZeros, digitsText]
    · simp only [hp, if_false, hprec]
      split
      · rename_i h; rw [if_pos (hprec.1 h)]
      · rename_i h; rw [if_neg fun h' => h (hprec.2 h')]
  rw [hfrac]
  simp only [Outcome.bind_ok]
  unfold shownText
  split
  · rename_i h; simp only [h, if_true, List.append_nil]
  · rename_i h
    simp only [h, if_false]
    simp

/-! ## The value of the text -/

theorem value_append (radix : Nat) (a b : List Nat) :
    value radix (a ++ b) = value radix a * radix ^ b.length + value radix b := by
  rw [value_eq_ofDigits, value_eq_ofDigits, value_eq_ofDigits, List.reverse_append,
    Nat.ofDigits_append, List.length_reverse]
  ring

theorem value_zeros (radix k : Nat) : value radix (List.replicate k 0) = 0 := by
  rw [value_eq_ofDigits, List.reverse_replicate]
  induction k with
  | zero => rfl
  | succ k ih => rw [List.replicate_succ, Nat.ofDigits_cons, ih]; simp

theorem fracDigits_lt {radix : Nat} (h2 : 2 ≤ radix) (u precision : Nat) :
    ∀ d ∈ fracDigits u radix precision, d < radix := by
  unfold fracDigits
  split
  · simp
  · intro d hd
    rcases List.mem_append.1 hd with hd | hd
    · rw [(List.mem_replicate.1 hd).2]; omega
    · exact natDigits_lt h2 d hd

theorem fracDigits_length {radix : Nat} (h2 : 2 ≤ radix) (u precision : Nat) :
    (fracDigits u radix precision).length = precision := by
  unfold fracDigits
  split
  · rename_i h; simp [h]
  · rename_i h
    have hlt : u % radix ^ precision < radix ^ precision := Nat.mod_lt _ (by positivity)
    have := natDigits_length h2 (by omega) hlt
    simp
    omega

theorem value_fracDigits {radix : Nat} (u precision : Nat) :
    value radix (fracDigits u radix precision) = u % radix ^ precision := by
  unfold fracDigits
  split
  · rename_i h; simp [h, value, Nat.mod_one]
  · simp only
    rw [value_append, value_zeros, value_natDigits]
    simp

theorem shownFraction_cases (v : Rat) (radix precision : Nat) :
    (Representable v radix precision ∧ ∃ k,
      fracDigits (units v radix precision) radix precision =
        shownFraction v radix precision ++ List.replicate k 0 ∧
      (shownFraction v radix precision).getLast? ≠ some 0) ∨
    (¬ Representable v radix precision ∧
      shownFraction v radix precision = fracDigits (units v radix precision) radix precision) := by
  unfold shownFraction
  by_cases h : Representable v radix precision
  · left
    obtain ⟨k, h1, h2⟩ := trimZeros_spec (fracDigits (units v radix precision) radix precision)
    simp only [h, if_true]
    exact ⟨trivial, k, h1, h2⟩
  · right
    simp [h]

theorem shownFraction_lt {radix : Nat} (h2 : 2 ≤ radix) (v : Rat) (precision : Nat) :
    ∀ d ∈ shownFraction v radix precision, d < radix := by
  intro d hd
  have hlt := fracDigits_lt h2 (units v radix precision) precision
  rcases shownFraction_cases v radix precision with ⟨_, k, h, _⟩ | ⟨_, h⟩
  · exact hlt d (by rw [h]; simp [hd])
  · exact hlt d (by rw [← h]; exact hd)

/-- The digits that are shown denote the rounded magnitude. -/
theorem shown_value {radix : Nat} (h2 : 2 ≤ radix) (v : Rat) (precision : Nat) :
    (value radix (natDigits radix (units v radix precision / radix ^ precision) ++
        shownFraction v radix precision) : Rat) /
      (radix : Rat) ^ (shownFraction v radix precision).length =
    (units v radix precision : Rat) / (radix : Rat) ^ precision := by
  have hR : (radix : Rat) ≠ 0 := by exact_mod_cast (by omega : radix ≠ 0)
  have hfull : value radix (natDigits radix (units v radix precision / radix ^ precision) ++
      fracDigits (units v radix precision) radix precision) = units v radix precision := by
    rw [value_append, value_natDigits, fracDigits_length h2, value_fracDigits]
    exact Nat.div_add_mod' _ _
  rcases shownFraction_cases v radix precision with ⟨_, k, h, _⟩ | ⟨_, h⟩
  · have hlen := fracDigits_length h2 (units v radix precision) precision
    rw [h, List.length_append, List.length_replicate] at hlen
    rw [h, ← List.append_assoc, value_append, value_zeros, List.length_replicate] at hfull
    generalize value radix (natDigits radix (units v radix precision / radix ^ precision) ++
        shownFraction v radix precision) = x at *
    rw [← hfull]
    nth_rewrite 2 [← hlen]
    push_cast
    rw [pow_add]
    field_simp
    simp
  · rw [h, fracDigits_length h2, hfull]

theorem noUnderscores_digits {radix s ds} (h : Digits radix s ds) : noUnderscores s = s := by
  unfold noUnderscores
  rw [List.filter_eq_self]
  intro c hc
  have : c ≠ '_' := by
    rintro rfl
    exact digits_no_char h (not_digit_char (by decide)) hc
  simpa using this

/-- Without separators the text is a sign and a numeral that denotes the rounded magnitude. -/
theorem shown_numeral {radix : Nat} (h2 : 2 ≤ radix) (hr : radix ≤ 36) (v : Rat) (precision : Nat)
    (upper : Bool) : ∃ w, shownText v radix precision false upper =
        (if v < 0 then ['-'] else []) ++ w ∧
      Numeral radix w ((units v radix precision : Rat) / (radix : Rat) ^ precision) := by
  unfold shownText
  have hI := digitsText_digits hr (natDigits_lt (n := units v radix precision / radix ^ precision) h2)
    upper
  have hF := digitsText_digits hr (shownFraction_lt h2 v precision) upper
  have hne := natDigits_ne_nil radix (units v radix precision / radix ^ precision)
  refine ⟨_, List.append_assoc _ _ _, ?_⟩
  simp only [Bool.false_eq_true, if_false]
  rw [← shown_value h2]
  by_cases hf : digitsText upper (shownFraction v radix precision) = []
  · have hf0 : shownFraction v radix precision = [] := by
      unfold digitsText at hf; simpa using hf
    rw [if_pos hf, List.append_nil, hf0]
    have := Numeral.whole (radix := radix)
      (w := digitsText upper (natDigits radix (units v radix precision / radix ^ precision)))
      (by rw [noUnderscores_digits hI]; exact hI) hne
    simpa using this
  · rw [if_neg hf]
    have := Numeral.point (radix := radix)
      (w := digitsText upper (natDigits radix (units v radix precision / radix ^ precision)) ++
        '.' :: digitsText upper (shownFraction v radix precision))
      (intPart := digitsText upper (natDigits radix (units v radix precision / radix ^ precision)))
      (fracPart := digitsText upper (shownFraction v radix precision))
      (ds := natDigits radix (units v radix precision / radix ^ precision) ++
        shownFraction v radix precision)
      (by
        unfold noUnderscores
        rw [List.filter_append, List.filter_cons]
        simp only [ne_eq, Char.reduceEq, not_false_eq_true, decide_true, if_true]
        have e1 := noUnderscores_digits hI
        have e2 := noUnderscores_digits hF
        unfold noUnderscores at e1 e2
        simp only [ne_eq] at e1 e2
        rw [e1, e2])
      (List.rel_append hI hF) (by simp [hne])
    rw [show (digitsText upper (shownFraction v radix precision)).length =
      (shownFraction v radix precision).length by simp [digitsText]] at this
    exact this

/-! ## Rounding -/

theorem units_spec {radix : Nat} (h2 : 2 ≤ radix) (v : Rat) (precision : Nat) :
    (units v radix precision : Rat) / (radix : Rat) ^ precision - |v| ≤
        1 / 2 * (1 / (radix : Rat) ^ precision) ∧
    |v| - (units v radix precision : Rat) / (radix : Rat) ^ precision <
        1 / 2 * (1 / (radix : Rat) ^ precision) := by
  have hpos : (0 : Rat) < (radix : Rat) ^ precision := by
    have : (0 : Rat) < radix := by exact_mod_cast (by omega : 0 < radix)
    positivity
  have hnn : 0 ≤ ⌊|v| * (radix : Rat) ^ precision + 1 / 2⌋ := Int.floor_nonneg.2 (by positivity)
  have hu : (units v radix precision : Rat) =
      ((⌊|v| * (radix : Rat) ^ precision + 1 / 2⌋ : Int) : Rat) := by
    unfold units
    have : ((⌊|v| * (radix : Rat) ^ precision + 1 / 2⌋.toNat : Nat) : Int) =
      ⌊|v| * (radix : Rat) ^ precision + 1 / 2⌋ := Int.toNat_of_nonneg hnn
    rw [← Int.cast_natCast, this]
  have h1 := Int.floor_le (|v| * (radix : Rat) ^ precision + 1 / 2)
  have h3 := Int.lt_floor_add_one (|v| * (radix : Rat) ^ precision + 1 / 2)
  rw [← hu] at h1 h3
  constructor
  · rw [sub_le_iff_le_add, div_le_iff₀ hpos]
    have : (1 / 2 * (1 / (radix : Rat) ^ precision) + |v|) * (radix : Rat) ^ precision =
      1 / 2 + |v| * (radix : Rat) ^ precision := by field_simp
    rw [this]; linarith
  · rw [sub_lt_iff_lt_add, ← sub_lt_iff_lt_add', lt_div_iff₀ hpos]
    have : (|v| - 1 / 2 * (1 / (radix : Rat) ^ precision)) * (radix : Rat) ^ precision =
      |v| * (radix : Rat) ^ precision - 1 / 2 := by field_simp
    rw [this]; linarith

theorem units_exact {radix : Nat} (h2 : 2 ≤ radix) {v : Rat} {precision : Nat}
    (h : Representable v radix precision) :
    (units v radix precision : Rat) / (radix : Rat) ^ precision = |v| := by
  obtain ⟨k, hk⟩ := h
  have hpos : (0 : Rat) < (radix : Rat) ^ precision := by
    have : (0 : Rat) < radix := by exact_mod_cast (by omega : 0 < radix)
    positivity
  have hv : |v| * (radix : Rat) ^ precision = ((|k| : Int) : Rat) := by
    rw [hk, abs_div, abs_of_pos hpos]; push_cast; field_simp
  have : units v radix precision = k.natAbs := by
    unfold units
    rw [hv]
    have : ⌊((|k| : Int) : Rat) + 1 / 2⌋ = |k| := by
      rw [Int.floor_eq_iff]; constructor <;> linarith
    rw [this, Int.abs_eq_natAbs, Int.toNat_natCast]
  rw [this, hk, abs_div, abs_of_pos hpos, ← Int.cast_abs, Int.abs_eq_natAbs]
  simp

/-! ## Groups of three -/

theorem groups_spec : ∀ s : Str, s ≠ [] → ∃ g gs, groupsOfReversed s = g :: gs ∧
    1 ≤ g.length ∧ g.length ≤ 3 ∧ (∀ x ∈ gs, x.length = 3) ∧ (g :: gs).flatten = s.reverse
  | [c1], _ => ⟨[c1], [], by simp [groupsOfReversed]⟩
  | [c2, c1], _ => ⟨[c1, c2], [], by simp [groupsOfReversed]⟩
  | [c3, c2, c1], _ => ⟨[c1, c2, c3], [], by simp [groupsOfReversed]⟩
  | c3 :: c2 :: c1 :: c :: rest, _ => by
    obtain ⟨g, gs, h1, h2, h3, h4, h5⟩ := groups_spec (c :: rest) (by simp)
    refine ⟨g, gs ++ [[c1, c2, c3]], ?_, h2, h3, ?_, ?_⟩
    · unfold groupsOfReversed
      rw [h1]; rfl
    · intro x hx
      rcases List.mem_append.1 hx with hx | hx
      · exact h4 x hx
      · simp at hx; rw [hx]; rfl
    · have : (g :: (gs ++ [[c1, c2, c3]])).flatten = (g :: gs).flatten ++ [c1, c2, c3] := by simp
      rw [this, h5]
      simp
  | [], h => absurd rfl h

theorem withCommas_spec (s : Str) (h : s ≠ []) : ∃ g gs,
    withCommas s = List.intercalate [','] (g :: gs) ∧ 1 ≤ g.length ∧ g.length ≤ 3 ∧
    (∀ x ∈ gs, x.length = 3) ∧ (g :: gs).flatten = s := by
  obtain ⟨g, gs, h1, h2, h3, h4, h5⟩ := groups_spec s.reverse (by simpa using h)
  refine ⟨g, gs, ?_, h2, h3, h4, by simpa using h5⟩
  unfold withCommas
  rw [h1]

theorem intercalate_cons {α : Type} (sep g : List α) (gs : List (List α)) :
    List.intercalate sep (g :: gs) = g ++ (gs.map (sep ++ ·)).flatten := by
  induction gs generalizing g with
  | nil => simp [List.intercalate]
  | cons x gs ih =>
    have : List.intercalate sep (g :: x :: gs) = g ++ sep ++ List.intercalate sep (x :: gs) := by
      simp [List.intercalate]
    rw [this, ih]
    simp

theorem filter_withCommas {s : Str} (h : s ≠ []) (hc : ',' ∉ s) :
    (withCommas s).filter (· ≠ ',') = s := by
  obtain ⟨g, gs, h1, -, -, -, h5⟩ := withCommas_spec s h
  rw [h1, intercalate_cons, ← h5]
  rw [← h5] at hc
  simp only [List.flatten_cons, List.mem_append, not_or] at hc
  have hself : ∀ l : Str, ',' ∉ l → l.filter (· ≠ ',') = l := by
    intro l hl
    rw [List.filter_eq_self]
    intro c hcl
    have : c ≠ ',' := by rintro rfl; exact hl hcl
    simpa using this
  rw [List.filter_append, hself g hc.1, List.flatten_cons]
  congr 1
  have hgs := hc.2
  clear h1 h5 hc
  induction gs with
  | nil => rfl
  | cons x gs ih =>
    simp only [List.flatten_cons, List.mem_append, not_or] at hgs
    rw [List.map_cons, List.flatten_cons, List.filter_append, List.flatten_cons, ih hgs.2]
    rw [show ([','] ++ x).filter (· ≠ ',') = x.filter (· ≠ ',') by simp, hself x hgs.1]

end Bcalc
