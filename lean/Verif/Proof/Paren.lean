import Verif.Spec.Editor
import Mathlib.Tactic.Ring
import Mathlib.Tactic.Linarith

/-! # The search for the matching parenthesis -/

namespace Bcalc
open Spec

theorem parenLevel_self (text : Str) (a : Nat) : parenLevel text a a = 0 := by
  unfold parenLevel; simp

theorem take_drop_succ {text : Str} {a b : Nat} {c : Char} (hab : a ≤ b) (hc : text[b]? = some c) :
    (text.drop a).take (b + 1 - a) = (text.drop a).take (b - a) ++ [c] := by
  have h1 : b + 1 - a = (b - a) + 1 := by omega
  have h2 : (text.drop a)[b - a]? = some c := by
    rw [List.getElem?_drop]
    have : a + (b - a) = b := by omega
    rw [this]; exact hc
  rw [h1, List.take_add_one, h2]
  rfl

theorem parenLevel_succ {text : Str} {a b : Nat} {c : Char} (hab : a ≤ b) (hc : text[b]? = some c) :
    parenLevel text a (b + 1) = parenLevel text a b +
      (if c = '(' then 1 else if c = ')' then -1 else 0) := by
  unfold parenLevel
  rw [take_drop_succ hab hc, List.count_append, List.count_append]
  by_cases h1 : c = '('
  · subst h1
    have : List.count ')' ['('] = 0 := by decide
    rw [this]
    simp
    omega
  · by_cases h2 : c = ')'
    · subst h2
      have : List.count '(' [')'] = 0 := by decide
      rw [this]
      simp
      omega
    · have e1 : List.count '(' [c] = 0 := List.count_eq_zero_of_not_mem (by simpa using Ne.symm h1)
      have e2 : List.count ')' [c] = 0 := List.count_eq_zero_of_not_mem (by simpa using Ne.symm h2)
      rw [e1, e2, if_neg h1, if_neg h2]
      simp

theorem parenLevel_add {text : Str} {a b c : Nat} (hab : a ≤ b) (hbc : b ≤ c) :
    parenLevel text a c = parenLevel text a b + parenLevel text b c := by
  unfold parenLevel
  have : (text.drop a).take (c - a) = (text.drop a).take (b - a) ++ (text.drop b).take (c - b) := by
    have h1 : c - a = (b - a) + (c - b) := by omega
    have h2 : text.drop b = (text.drop a).drop (b - a) := by rw [List.drop_drop]; congr 1; omega
    rw [h1, List.take_add, h2]
  rw [this, List.count_append, List.count_append]
  push_cast
  ring

theorem Pair_right_unique {text : Str} {i j k : Nat} (h : Pair text i j) (h' : Pair text i k) : j = k := by
  obtain ⟨h1, _, _, h4, h5⟩ := h
  obtain ⟨g1, _, _, g4, g5⟩ := h'
  rcases Nat.lt_trichotomy j k with hlt | heq | hgt
  · have := g5 (j + 1) (by omega) (by omega); omega
  · exact heq
  · have := h5 (k + 1) (by omega) (by omega); omega

theorem Pair_left_unique {text : Str} {i j k : Nat} (h : Pair text i k) (h' : Pair text j k) : i = j := by
  obtain ⟨h1, _, _, h4, h5⟩ := h
  obtain ⟨g1, _, _, g4, g5⟩ := h'
  rcases Nat.lt_trichotomy i j with hlt | heq | hgt
  · have a := h5 j hlt (by omega)
    have b := parenLevel_add (text := text) (a := i) (b := j) (c := k + 1) (by omega) (by omega)
    omega
  · exact heq
  · have a := g5 i hgt (by omega)
    have b := parenLevel_add (text := text) (a := j) (b := i) (c := k + 1) (by omega) (by omega)
    omega

theorem scan_right {text : Str} {p0 : Nat} (hp0 : text[p0]? = some '(') :
    ∀ (fuel pos cnt : Nat), pos < text.length → p0 ≤ pos → text.length - pos ≤ fuel →
      (cnt : Int) = parenLevel text p0 pos →
      (∀ k, p0 < k → k ≤ pos → 0 < parenLevel text p0 k) →
      (∃ q, parenScan text false '(' ')' fuel pos cnt = .ok (some q) ∧ Pair text p0 q) ∨
      (parenScan text false '(' ')' fuel pos cnt = .ok none ∧
        ∀ k, p0 < k → k ≤ text.length → 0 < parenLevel text p0 k) := by
  intro fuel
  induction fuel with
  | zero => intro pos cnt h1 h2 h3; omega
  | succ fuel ih =>
    intro pos cnt hlt hle hf hcnt hpos
    obtain ⟨c, hc⟩ : ∃ c, text[pos]? = some c := ⟨_, List.getElem?_eq_getElem hlt⟩
    have hs := parenLevel_succ hle hc
    have hfirst : pos = p0 → c = '(' := by rintro rfl; rw [hp0] at hc; cases hc; rfl
    unfold parenScan
    have hv : (vecIndex text pos : Outcome RuntimeErr Char) = .ok c := by unfold vecIndex; rw [hc]
    rw [hv]
    simp only [bind, Outcome.bind]
    -- the count after this character
    obtain ⟨cnt', hcnt', hval⟩ : ∃ cnt' : Nat, (if c = '(' then .ok (cnt + 1)
        else if c = ')' then usizeSub cnt 1 else .ok cnt : Outcome RuntimeErr Nat) = .ok cnt' ∧
        (cnt' : Int) = parenLevel text p0 (pos + 1) := by
      by_cases h1 : c = '('
      · refine ⟨cnt + 1, by rw [if_pos h1], ?_⟩
        rw [hs, if_pos h1]; omega
      · have hgt : 0 < cnt := by
          have hne : p0 < pos := by
            rcases Nat.lt_or_ge p0 pos with h | h
            · exact h
            · exact absurd (hfirst (by omega)) h1
          have := hpos pos hne (Nat.le_refl _)
          omega
        by_cases h2 : c = ')'
        · refine ⟨cnt - 1, ?_, ?_⟩
          · rw [if_neg h1, if_pos h2]; unfold usizeSub; rw [if_pos (by omega)]
          · rw [hs, if_neg h1, if_pos h2]; omega
        · exact ⟨cnt, by rw [if_neg h1, if_neg h2], by rw [hs, if_neg h1, if_neg h2]; omega⟩
    rw [hcnt']
    simp only
    by_cases h0 : cnt' = 0
    · rw [if_pos h0]
      refine .inl ⟨pos, rfl, ?_⟩
      have hz : parenLevel text p0 (pos + 1) = 0 := by omega
      have hne : p0 < pos := by
        rcases Nat.lt_or_ge p0 pos with h | h
        · exact h
        · have : pos = p0 := by omega
          rw [hfirst this, if_pos rfl] at hs
          rw [this] at hs hz
          rw [parenLevel_self] at hs
          omega
      have hprev := hpos pos hne (Nat.le_refl _)
      have hcl : c = ')' := by
        by_contra h2
        by_cases h1 : c = '('
        · rw [if_pos h1] at hs; omega
        · rw [if_neg h1, if_neg h2] at hs; omega
      subst hcl
      exact ⟨hne, hp0, hc, hz, hpos⟩
    · rw [if_neg h0]
      have hpos' : ∀ k, p0 < k → k ≤ pos + 1 → 0 < parenLevel text p0 k := by
        intro k h1 h2
        rcases Nat.lt_or_ge k (pos + 1) with h | h
        · exact hpos k h1 (by omega)
        · have : k = pos + 1 := by omega
          rw [this]; omega
      simp only [Bool.false_and, Bool.false_eq_true, if_false, Bool.not_false, Bool.true_and]
      by_cases hend : pos + 1 ≥ text.length
      · rw [if_pos (by simpa using hend)]
        exact .inr ⟨rfl, fun k h1 h2 => hpos' k h1 (by omega)⟩
      · rw [if_neg (by simpa using hend)]
        exact ih (pos + 1) cnt' (by omega) (by omega) (by omega) hval hpos'

theorem scan_left {text : Str} {p0 : Nat} (hp0 : text[p0]? = some ')') :
    ∀ (fuel pos cnt : Nat), pos ≤ p0 → pos < fuel →
      (cnt : Int) = - parenLevel text (pos + 1) (p0 + 1) →
      (∀ k, pos < k → k ≤ p0 → parenLevel text k (p0 + 1) < 0) →
      (∃ q, parenScan text true ')' '(' fuel pos cnt = .ok (some q) ∧ Pair text q p0) ∨
      (parenScan text true ')' '(' fuel pos cnt = .ok none ∧
        ∀ k, k ≤ p0 → parenLevel text k (p0 + 1) < 0) := by
  have hlen : p0 < text.length := (List.getElem?_eq_some_iff.1 hp0).1
  intro fuel
  induction fuel with
  | zero => intro pos cnt h1 h2; omega
  | succ fuel ih =>
    intro pos cnt hle hf hcnt hneg
    obtain ⟨c, hc⟩ : ∃ c, text[pos]? = some c := ⟨_, List.getElem?_eq_getElem (by omega)⟩
    have hs : parenLevel text pos (p0 + 1) = (if c = '(' then 1 else if c = ')' then -1 else 0) +
        parenLevel text (pos + 1) (p0 + 1) := by
      rw [parenLevel_add (b := pos + 1) (by omega) (by omega), parenLevel_succ (Nat.le_refl _) hc,
        parenLevel_self]
      omega
    have hfirst : pos = p0 → c = ')' := by rintro rfl; rw [hp0] at hc; cases hc; rfl
    have hpc : ')' ≠ '(' := by decide
    unfold parenScan
    have hv : (vecIndex text pos : Outcome RuntimeErr Char) = .ok c := by unfold vecIndex; rw [hc]
    rw [hv]
    simp only [bind, Outcome.bind]
    obtain ⟨cnt', hcnt', hval⟩ : ∃ cnt' : Nat, (if c = ')' then .ok (cnt + 1)
        else if c = '(' then usizeSub cnt 1 else .ok cnt : Outcome RuntimeErr Nat) = .ok cnt' ∧
        (cnt' : Int) = - parenLevel text pos (p0 + 1) := by
      by_cases h1 : c = ')'
      · refine ⟨cnt + 1, by rw [if_pos h1], ?_⟩
        rw [hs, if_neg (by rw [h1]; exact hpc), if_pos h1]; push_cast; omega
      · have hgt : 0 < cnt := by
          have hne : pos < p0 := by
            rcases Nat.lt_or_ge pos p0 with h | h
            · exact h
            · exact absurd (hfirst (by omega)) h1
          have := hneg (pos + 1) (by omega) (by omega)
          omega
        by_cases h2 : c = '('
        · refine ⟨cnt - 1, ?_, ?_⟩
          · rw [if_neg h1, if_pos h2]; unfold usizeSub; rw [if_pos (by omega)]
          · rw [hs, if_pos h2]; omega
        · exact ⟨cnt, by rw [if_neg h1, if_neg h2], by rw [hs, if_neg h2, if_neg h1]; omega⟩
    rw [hcnt']
    simp only
    by_cases h0 : cnt' = 0
    · rw [if_pos h0]
      refine .inl ⟨pos, rfl, ?_⟩
      have hz : parenLevel text pos (p0 + 1) = 0 := by omega
      have hne : pos < p0 := by
        rcases Nat.lt_or_ge pos p0 with h | h
        · exact h
        · have : pos = p0 := by omega
          rw [hfirst this, if_neg hpc, if_pos rfl] at hs
          rw [this] at hs hz
          rw [parenLevel_self] at hs
          omega
      have hprev := hneg (pos + 1) (by omega) (by omega)
      have hcl : c = '(' := by
        by_contra h2
        by_cases h1 : c = ')'
        · rw [if_neg h2, if_pos h1] at hs; omega
        · rw [if_neg h2, if_neg h1] at hs; omega
      subst hcl
      refine ⟨hne, hc, hp0, hz, fun k h1 h2 => ?_⟩
      have := hneg k h1 h2
      have := parenLevel_add (text := text) (a := pos) (b := k) (c := p0 + 1) (by omega) (by omega)
      omega
    · rw [if_neg h0]
      have hneg' : ∀ k, pos ≤ k → k ≤ p0 → parenLevel text k (p0 + 1) < 0 := by
        intro k h1 h2
        rcases Nat.lt_or_ge pos k with h | h
        · exact hneg k h h2
        · have : k = pos := by omega
          rw [this]; omega
      by_cases hend : pos = 0
      · rw [if_pos (by simp [hend])]
        exact .inr ⟨rfl, fun k h2 => hneg' k (by omega) h2⟩
      · rw [if_neg (by simp [hend]), if_neg (by simp)]
        simp only [if_true]
        refine ih (pos - 1) cnt' (by omega) (by omega) ?_ (fun k h1 h2 => hneg' k (by omega) h2)
        have : pos - 1 + 1 = pos := by omega
        rw [this]; exact hval

/-- What Ctrl+N finds. -/
theorem matchingParen_spec (text : Str) (cursor : Nat) :
    (∃ q, matchingParen text cursor = .ok (some q) ∧ 2 ≤ text.length ∧
      (Pair text (looksAt text cursor) q ∨ Pair text q (looksAt text cursor))) ∨
    (matchingParen text cursor = .ok none ∧
      ∀ q, ¬ Pair text (looksAt text cursor) q ∧ ¬ Pair text q (looksAt text cursor)) := by
  unfold matchingParen
  by_cases h2 : text.length < 2
  · rw [if_pos h2]
    refine .inr ⟨rfl, fun q => ⟨?_, ?_⟩⟩
    · rintro ⟨h, _, hq, _⟩
      have := (List.getElem?_eq_some_iff.1 hq).1
      omega
    · rintro ⟨h, _, hq, _⟩
      have := (List.getElem?_eq_some_iff.1 hq).1
      omega
  · rw [if_neg h2]
    have hp : (if cursor ≥ text.length then text.length - 1 else cursor) = looksAt text cursor := by
      unfold looksAt
      split <;> split <;> first | rfl | omega
    simp only [hp]
    generalize looksAt text cursor = p at *
    have hlt : p < text.length := by
      rw [← hp]; split <;> omega
    obtain ⟨c, hc⟩ : ∃ c, text[p]? = some c := ⟨_, List.getElem?_eq_getElem hlt⟩
    have hv : (vecIndex text p : Outcome RuntimeErr Char) = .ok c := by unfold vecIndex; rw [hc]
    rw [hv]
    simp only [bind, Outcome.bind]
    by_cases h1 : c = '('
    · subst h1
      rw [if_pos rfl]
      rcases scan_right hc text.length p 0 hlt (Nat.le_refl _) (by omega)
        (by rw [parenLevel_self]; rfl) (fun k h1 h2 => by omega) with ⟨q, hq, hpair⟩ | ⟨hq, hnone⟩
      · exact .inl ⟨q, hq, by omega, .inl hpair⟩
      · refine .inr ⟨hq, fun q => ⟨?_, ?_⟩⟩
        · rintro ⟨g1, _, g3, g4, _⟩
          have := (List.getElem?_eq_some_iff.1 g3).1
          have := hnone (q + 1) (by omega) (by omega)
          omega
        · rintro ⟨_, _, g3, _⟩
          rw [hc] at g3; cases g3
    · rw [if_neg h1]
      by_cases h3 : c = ')'
      · subst h3
        rw [if_pos rfl]
        rcases scan_left hc text.length p 0 (Nat.le_refl _) hlt
          (by rw [parenLevel_self]; rfl) (fun k h1 h2 => by omega) with ⟨q, hq, hpair⟩ | ⟨hq, hnone⟩
        · exact .inl ⟨q, hq, by omega, .inr hpair⟩
        · refine .inr ⟨hq, fun q => ⟨?_, ?_⟩⟩
          · rintro ⟨_, g2, _⟩
            rw [hc] at g2; cases g2
          · rintro ⟨g1, _, _, g4, _⟩
            have := hnone q (by omega)
            omega
      · rw [if_neg h3]
        refine .inr ⟨rfl, fun q => ⟨?_, ?_⟩⟩
        · rintro ⟨_, g2, _⟩
          rw [hc] at g2; cases g2; exact h1 rfl
        · rintro ⟨_, _, g3, _⟩
          rw [hc] at g3; cases g3; exact h3 rfl

end Bcalc
