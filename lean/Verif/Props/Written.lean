import Verif.Props.Display
import Verif.Spec.Written
import Verif.Proof.Refusal
import Verif.Proof.Sight

/-! # C108 The text of a result is determined to the last character -/

namespace Bcalc
open Spec

theorem digitText_digitOf {upper : Bool} {d : Nat} (h : d < 16) : digitText upper d = digitOf upper d := by
  have : ∀ u : Bool, ∀ d, d < 16 → digitText u d = digitOf u d := by decide
  exact this upper d h

theorem digitsText_map {upper : Bool} {ds : List Nat} (h : ∀ d ∈ ds, d < 16) :
    digitsText upper ds = ds.map (digitOf upper) :=
  List.map_congr_left fun d hd => digitText_digitOf (h d hd)

theorem grouped_append : ∀ (a b : Str), a ≠ [] → a.length ≤ 3 → b ≠ [] → b.length % 3 = 0 →
    grouped (a ++ b) = a ++ ',' :: grouped b
  | [x], b, _, _, hb, h3 => by simp [grouped, hb, h3]
  | [x, y], b, _, _, hb, h3 => by
    have : ¬ (b.length + 1) % 3 = 0 := by omega
    simp [grouped, hb, h3, this]
  | [x, y, z], b, _, _, hb, h3 => by
    have h1 : ¬ (b.length + 1) % 3 = 0 := by omega
    have h2 : ¬ (b.length + 1 + 1) % 3 = 0 := by omega
    simp [grouped, hb, h3, h1, h2]
  | _ :: _ :: _ :: _ :: _, _, _, h, _, _ => by simp at h; omega

theorem grouped_short : ∀ (a : Str), a.length ≤ 3 → grouped a = a
  | [], _ => rfl
  | [x], _ => by simp [grouped]
  | [x, y], _ => by simp [grouped]
  | [x, y, z], _ => by simp [grouped]
  | _ :: _ :: _ :: _ :: _, h => by simp at h; omega

theorem grouped_groups : ∀ (gs : List Str) (g : Str), 1 ≤ g.length → g.length ≤ 3 → (∀ x ∈ gs, x.length = 3) →
    grouped ((g :: gs).flatten) = List.intercalate [','] (g :: gs)
  | [], g, _, h, _ => by simpa [List.intercalate] using grouped_short g h
  | x :: gs, g, h1, h3, hgs => by
    have hx := hgs x (by simp)
    have hlen : ∀ l : List Str, (∀ x ∈ l, x.length = 3) → l.flatten.length % 3 = 0 := by
      intro l hl
      induction l with
      | nil => rfl
      | cons a l ih =>
        have := ih fun x hx => hl x (by simp [hx])
        have := hl a (by simp)
        simp only [List.flatten_cons, List.length_append]
        omega
    have hne : (x :: gs).flatten ≠ [] := by
      intro h
      have := congrArg List.length h
      simp [hx] at this
    rw [List.flatten_cons, grouped_append g _ (by rintro rfl; simp at h1) h3 hne (hlen _ hgs),
      grouped_groups gs x (by omega) (by omega) fun y hy => hgs y (by simp [hy])]
    simp [List.intercalate]

theorem withCommas_grouped {s : Str} (h : s ≠ []) : withCommas s = grouped s := by
  obtain ⟨g, gs, h1, h2, h3, h4, h5⟩ := withCommas_spec s h
  rw [h1, ← h5, grouped_groups gs g h2 h3 h4]

/-- The program writes a number so. -/
theorem displayResult_written (args : Args) (h2 : 2 ≤ outputRadix args) (hr : outputRadix args ≤ 16) (v : Rat) :
    ∃ text, displayResult args v = .ok text ∧ WrittenAs args v text := by
  cases hf : args.fractional with
  | true =>
    refine ⟨fraction v, ?_, by unfold WrittenAs; rw [if_pos hf]⟩
    unfold displayResult
    rw [if_pos hf, fraction_eq]
  | false =>
    refine ⟨_, displayResult_eq hf h2 hr v, ?_⟩
    unfold WrittenAs
    rw [if_neg (by simp [hf])]
    have hI := natDigits_lt h2 (n := units v (outputRadix args) args.precision / outputRadix args ^ args.precision)
    have hF := shownFraction_lt h2 v args.precision
    have hIne := natDigits_ne_nil (outputRadix args) (units v (outputRadix args) args.precision / outputRadix args ^ args.precision)
    refine ⟨natDigits (outputRadix args) (units v (outputRadix args) args.precision / outputRadix args ^ args.precision),
      shownFraction v (outputRadix args) args.precision, ?_, hIne, head_natDigits _ _, ?_, ?_, ?_, ?_⟩
    · intro d hd
      rcases List.mem_append.1 hd with hd | hd
      · exact hI d hd
      · exact hF d hd
    · rw [shown_value h2]
      exact units_rounds h2 v _
    · intro hrep
      rcases shownFraction_cases v (outputRadix args) args.precision with ⟨_, k, _, h⟩ | ⟨h, _⟩
      · exact h
      · exact absurd hrep h
    · intro hrep
      rcases shownFraction_cases v (outputRadix args) args.precision with ⟨h, _⟩ | ⟨_, h⟩
      · exact absurd h hrep
      · rw [h, fracDigits_length h2]
    · unfold shownText
      simp only [digitsText_map (fun d hd => lt_of_lt_of_le (hI d hd) hr), digitsText_map (fun d hd => lt_of_lt_of_le (hF d hd) hr)]
      congr 1
      · congr 1
        split
        · exact withCommas_grouped (by simpa using hIne)
        · rfl
      · cases shownFraction v (outputRadix args) args.precision <;> rfl

theorem value_lt {radix : Nat} (h2 : 2 ≤ radix) {ds : List Nat} (h : ∀ d ∈ ds, d < radix) :
    value radix ds < radix ^ ds.length := by
  rw [value_eq_ofDigits, ← List.length_reverse]
  exact Nat.ofDigits_lt_base_pow_length (by omega) fun d hd => h d (List.mem_reverse.1 hd)

theorem value_inj {radix : Nat} (h2 : 2 ≤ radix) {a b : List Nat} (hl : a.length = b.length) (ha : ∀ d ∈ a, d < radix)
    (hb : ∀ d ∈ b, d < radix) (h : value radix a = value radix b) : a = b := by
  rw [value_eq_ofDigits, value_eq_ofDigits] at h
  have := Nat.ofDigits_inj_of_len_eq (by omega : 1 < radix) (by simpa using hl)
    (fun d hd => ha d (List.mem_reverse.1 hd)) (fun d hd => hb d (List.mem_reverse.1 hd)) h
  simpa using congrArg List.reverse this

theorem natDigits_value {radix : Nat} (h2 : 2 ≤ radix) {I : List Nat} (hI : ∀ d ∈ I, d < radix) (hne : I ≠ [])
    (h0 : I = [0] ∨ I.head? ≠ some 0) : natDigits radix (value radix I) = I := by
  rcases h0 with rfl | h0
  · simp [natDigits, value]
  · have hd : Nat.digits radix (value radix I) = I.reverse := by
      rw [value_eq_ofDigits]
      refine Nat.digits_ofDigits radix (by omega) _ (fun d hd => hI d (List.mem_reverse.1 hd)) fun h => ?_
      rw [List.getLast_reverse]
      intro h'
      exact h0 (by rw [List.head?_eq_some_head hne, h'])
    have hnz : value radix I ≠ 0 := by
      intro h
      rw [h] at hd
      simp at hd
      exact hne hd
    unfold natDigits
    rw [if_neg hnz, hd, List.reverse_reverse]

/-- Digits are determined by the number, given how many there are behind the point. -/
theorem digits_one {radix : Nat} (h2 : 2 ≤ radix) {I F I' F' : List Nat} (hd : ∀ d ∈ I ++ F, d < radix)
    (hd' : ∀ d ∈ I' ++ F', d < radix) (hI : I ≠ []) (hI' : I' ≠ []) (h0 : I = [0] ∨ I.head? ≠ some 0)
    (h0' : I' = [0] ∨ I'.head? ≠ some 0) (hl : F.length = F'.length)
    (h : value radix (I ++ F) = value radix (I' ++ F')) : I = I' ∧ F = F' := by
  have hF : ∀ d ∈ F, d < radix := fun d h => hd d (by simp [h])
  have hF' : ∀ d ∈ F', d < radix := fun d h => hd' d (by simp [h])
  have k := value_lt h2 hF
  have k' := value_lt h2 hF'
  rw [value_append, value_append, ← hl] at h
  rw [← hl] at k'
  have e1 : value radix F = value radix F' := by
    have := congrArg (· % radix ^ F.length) h
    simpa [Nat.mul_add_mod_self_right, Nat.add_comm, Nat.mod_eq_of_lt k, Nat.mod_eq_of_lt k'] using this
  have e2 : value radix I = value radix I' := by
    rw [e1] at h
    exact Nat.eq_of_mul_eq_mul_right (Nat.pos_of_ne_zero (by positivity)) (Nat.add_right_cancel h)
  refine ⟨?_, value_inj h2 hl hF hF' e1⟩
  rw [← natDigits_value h2 (fun d h => hd d (by simp [h])) hI h0, e2,
    natDigits_value h2 (fun d h => hd' d (by simp [h])) hI' h0']

/-- Without zeros at the end, the number determines how many digits there are behind the point. -/
theorem length_le {radix : Nat} (h2 : 2 ≤ radix) {I F I' F' : List Nat} (hd' : ∀ d ∈ I' ++ F', d < radix)
    (hz' : F'.getLast? ≠ some 0)
    (h : (value radix (I ++ F) : Rat) / (radix : Rat) ^ F.length = (value radix (I' ++ F') : Rat) / (radix : Rat) ^ F'.length) :
    F'.length ≤ F.length := by
  by_contra hlt
  obtain ⟨k, hk⟩ : ∃ k, F'.length = F.length + (k + 1) := ⟨F'.length - F.length - 1, by omega⟩
  have hpos : (0 : Rat) < (radix : Rat) := by exact_mod_cast (by omega : 0 < radix)
  rw [div_eq_div_iff (by positivity) (by positivity), hk, pow_add, ← mul_assoc, mul_right_comm] at h
  have h3 : (value radix (I ++ F) : Rat) * (radix : Rat) ^ (k + 1) = value radix (I' ++ F') :=
    mul_right_cancel₀ (by positivity) h
  have h4 : value radix (I ++ F) * radix ^ (k + 1) = value radix (I' ++ F') := by exact_mod_cast h3
  have hne : F' ≠ [] := by rintro rfl; simp at hk
  obtain ⟨G, d, rfl⟩ : ∃ G d, F' = G ++ [d] := ⟨F'.dropLast, F'.getLast hne, (List.dropLast_append_getLast hne).symm⟩
  rw [← List.append_assoc, value_append radix (I' ++ G)] at h4
  have hdlt : d < radix := hd' d (by simp)
  have h5 := congrArg (· % radix) h4
  simp only [List.length_singleton, pow_succ, ← Nat.mul_assoc, Nat.mul_mod_left, Nat.mul_add_mod_self_right] at h5
  simp only [value, List.foldl_cons, List.foldl_nil, Nat.zero_mul, Nat.zero_add, Nat.mod_eq_of_lt hdlt] at h5
  exact hz' (by simp [← h5])

/-- There is one way to write a number. -/
theorem C108_one (args : Args) (h2 : 2 ≤ outputRadix args) (v : Rat) (text text' : Str) (h : WrittenAs args v text)
    (h' : WrittenAs args v text') : text = text' := by
  unfold WrittenAs at h h'
  split at h
  · rename_i hf
    rw [if_pos hf] at h'
    rw [h, h']
  · rename_i hf
    rw [if_neg hf] at h'
    obtain ⟨I, F, hd, hI, h0, hu, hz, hp, rfl⟩ := h
    obtain ⟨I', F', hd', hI', h0', hu', hz', hp', rfl⟩ := h'
    have e := C30_rounded_unique _ _ h2 _ _ _ hu hu'
    have hl : F.length = F'.length := by
      by_cases hrep : Representable v (outputRadix args) args.precision
      · exact le_antisymm (length_le h2 hd (hz hrep) e.symm) (length_le h2 hd' (hz' hrep) e)
      · rw [hp hrep, hp' hrep]
    have hpos : (0 : Rat) < (outputRadix args : Rat) := by exact_mod_cast (by omega : 0 < outputRadix args)
    rw [hl, div_left_inj' (by positivity)] at e
    obtain ⟨rfl, rfl⟩ := digits_one h2 hd hd' hI hI' h0 h0' hl (by exact_mod_cast e)
    rfl

/-- The program writes every number so, and not otherwise. -/
theorem C108_written (args : Args) (h2 : 2 ≤ outputRadix args) (hr : outputRadix args ≤ 16) (v : Rat) (text : Str) :
    displayResult args v = .ok text ↔ WrittenAs args v text := by
  obtain ⟨t, h1, h3⟩ := displayResult_written args h2 hr v
  constructor
  · intro h
    rw [h1] at h
    cases h
    exact h3
  · intro h
    rw [h1, C108_one args h2 v _ _ h3 h]

/-- What is written displays the number. -/
theorem C108_displays (args : Args) (hv : ValidSettings args) (v : Rat) (text : Str) (h : WrittenAs args v text) :
    Displays args v text := by
  have ho : 2 ≤ outputRadix args ∧ outputRadix args ≤ 16 := by
    unfold outputRadix
    cases hc : args.convertToRadix with
    | none => exact hv.radix
    | some r => exact hv.output r hc
  obtain ⟨t, h1, h2⟩ := displays_of_display args hv v
  rw [(C108_written args ho.1 ho.2 v text).2 h] at h1
  cases h1
  exact h2

/-- Some numbers, and how they are written. -/
example : WrittenAs { Args.default with commas := true, upper := true, radix := 16 } (-11259375 - 15 / 16)
      "-ABC,DEF.F".toList ∧
    WrittenAs { Args.default with commas := true } (1234567 + 1 / 3) "1,234,567.33333".toList ∧
    WrittenAs .default (-1 / 10000000) "-0.00000".toList ∧
    WrittenAs { Args.default with precision := 0 } (1 / 2) "1".toList ∧
    ¬ WrittenAs .default 2 "2.0".toList := by
  refine ⟨(C108_written _ (by decide) (by decide) _ _).1 (by decide +kernel), (C108_written _ (by decide) (by decide) _ _).1 (by decide +kernel),
    (C108_written _ (by decide) (by decide) _ _).1 (by decide +kernel), (C108_written _ (by decide) (by decide) _ _).1 (by decide +kernel),
    fun h => ?_⟩
  have := (C108_written _ (by decide) (by decide) _ _).2 h
  revert this
  decide +kernel

end Bcalc
