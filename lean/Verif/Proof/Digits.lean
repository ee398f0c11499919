import Verif.Proof.Lexical3
import Mathlib.Data.Nat.Digits.Lemmas

/-! # Printed integers -/

namespace Bcalc
open Spec

theorem digitChar_toNat {d : Nat} (h : d < 36) :
    (digitChar d).toNat = if d < 10 then 48 + d else 97 + (d - 10) := by
  unfold digitChar
  split
  · have : (48 + d).isValidChar := by left; omega
    simp [Char.ofNat, this, Char.toNat, Char.ofNatAux]; omega
  · have : (97 + (d - 10)).isValidChar := by left; omega
    simp [Char.ofNat, this, Char.toNat, Char.ofNatAux]; omega

theorem digitChar_spec {d : Nat} (h : d < 36) : DigitChar (digitChar d) d := by
  have h0 : '0'.toNat = 48 := rfl
  have ha : 'a'.toNat = 97 := rfl
  have hA : 'A'.toNat = 65 := rfl
  have := digitChar_toNat h
  unfold DigitChar
  split at this <;> omega

/-- The digits of a number, most significant first; `[0]` for zero. -/
def natDigits (radix n : Nat) : List Nat := if n = 0 then [0] else (Nat.digits radix n).reverse

theorem natToStr_eq (radix n : Nat) : natToStr radix n = (natDigits radix n).map digitChar := by
  unfold natToStr natDigits
  split
  · rfl
  · rfl

theorem natDigits_lt {radix n : Nat} (h : 2 ≤ radix) : ∀ d ∈ natDigits radix n, d < radix := by
  unfold natDigits
  split
  · simp; omega
  · intro d hd
    exact Nat.digits_lt_base (by omega) (List.mem_reverse.1 hd)

theorem natDigits_ne_nil (radix n : Nat) : natDigits radix n ≠ [] := by
  unfold natDigits
  split
  · simp
  · rename_i h
    simpa [Nat.digits_eq_nil_iff_eq_zero] using h

theorem foldl_ofDigits (radix : Nat) (l : List Nat) :
    l.foldl (fun acc d => acc * radix + d) 0 = Nat.ofDigits radix l.reverse := by
  have : ∀ (l : List Nat) acc, l.foldl (fun acc d => acc * radix + d) acc =
      Nat.ofDigits radix (l.reverse ++ Nat.digits (radix) 0) + acc * radix ^ l.length := by
    intro l
    induction l with
    | nil => intro acc; simp
    | cons d l ih =>
      intro acc
      rw [List.foldl_cons, ih]
      simp [Nat.ofDigits_append]
      ring
  have h := this l 0
  simpa using h

theorem value_eq_ofDigits (radix : Nat) (l : List Nat) :
    value radix l = Nat.ofDigits radix l.reverse := foldl_ofDigits radix l

theorem value_natDigits (radix n : Nat) : value radix (natDigits radix n) = n := by
  rw [value_eq_ofDigits]
  unfold natDigits
  split
  · rename_i h; subst h; simp
  · rw [List.reverse_reverse, Nat.ofDigits_digits]

theorem digits_map {radix : Nat} (hr : radix ≤ 36) {ds : List Nat} (h : ∀ d ∈ ds, d < radix) :
    Digits radix (ds.map digitChar) ds := by
  induction ds with
  | nil => exact .nil
  | cons d ds ih =>
    have := h d (by simp)
    exact .cons ⟨digitChar_spec (by omega), this⟩ (ih fun d hd => h d (by simp [hd]))

theorem natToStr_digits {radix : Nat} (h2 : 2 ≤ radix) (hr : radix ≤ 36) (n : Nat) :
    Digits radix (natToStr radix n) (natDigits radix n) := by
  rw [natToStr_eq]
  exact digits_map hr (natDigits_lt h2)

theorem natToStr_ne_nil (radix n : Nat) : natToStr radix n ≠ [] := by
  rw [natToStr_eq]
  simpa using natDigits_ne_nil radix n

theorem digits_no_char {radix s ds} (h : Digits radix s ds) {c : Char}
    (hc : ∀ d, ¬ DigitChar c d) : c ∉ s := by
  intro hm
  obtain ⟨d, hd, _⟩ := digits_mem h _ hm
  exact hc d hd

theorem not_digit_char {c : Char} (h : c.toNat < 48 ∨ (57 < c.toNat ∧ c.toNat < 65) ∨
    (90 < c.toNat ∧ c.toNat < 97) ∨ 122 < c.toNat) : ∀ d, ¬ DigitChar c d := by
  intro d hd
  have h0 : '0'.toNat = 48 := rfl
  have ha : 'a'.toNat = 97 := rfl
  have hA : 'A'.toNat = 65 := rfl
  unfold DigitChar at hd
  omega

theorem parseBigUint_natToStr {radix : Nat} (h2 : 2 ≤ radix) (hr : radix ≤ 36) (n : Nat) :
    parseBigUint radix (natToStr radix n) = some n := by
  have hd := natToStr_digits h2 hr n
  have hplus : '+' ∉ natToStr radix n := digits_no_char hd (not_digit_char (by decide))
  have hund : '_' ∉ natToStr radix n := digits_no_char hd (not_digit_char (by decide))
  have hstrip : stripPlus (natToStr radix n) = natToStr radix n := by
    unfold stripPlus
    split
    · rename_i h; exact h.symm
    · rename_i h; rw [h] at hplus; simp at hplus
    · rfl
  unfold parseBigUint
  simp only [hstrip]
  split
  · rename_i h; exact absurd h (natToStr_ne_nil radix n)
  · rename_i h; rw [h] at hund; simp at hund
  · rw [parseDigits_iff hr _ hund]
    refine ⟨_, hd, ?_⟩
    have := value_natDigits radix n
    unfold value at this
    exact this.symm

/-- What is printed in base ten is read back. -/
theorem parseBigInt_intDisplay {ε : Type} (n : Int) :
    (parseBigInt (intDisplay n) 10 : Outcome ε (Option Int)) = .ok (some n) := by
  unfold parseBigInt intDisplay
  rw [if_pos (by omega)]
  have hp := parseBigUint_natToStr (radix := 10) (by omega) (by omega) n.natAbs
  have hd := natToStr_digits (radix := 10) (by omega) (by omega) n.natAbs
  have hplus : '+' ∉ natToStr 10 n.natAbs := digits_no_char hd (not_digit_char (by decide))
  have hminus : '-' ∉ natToStr 10 n.natAbs := digits_no_char hd (not_digit_char (by decide))
  split
  · rename_i tail h
    by_cases hn : n < 0
    · rw [if_pos hn] at h
      simp at h
      subst h
      split
      · rename_i h'; rw [h'] at hplus; simp at hplus
      · rw [hp]; simp [abs_of_neg hn]
    · rw [if_neg hn] at h
      simp at h
      rw [h] at hminus; simp at hminus
  · rename_i h
    by_cases hn : n < 0
    · rw [if_pos hn] at h
      simp at h
    · rw [if_neg hn]
      simp only [List.nil_append, hp]
      simp; omega

end Bcalc
