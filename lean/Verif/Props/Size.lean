import Verif.Proof.Size
import Verif.Props.Answer
import Verif.Props.Display

/-! # C100: without powers and roots, numbers stay short -/

namespace Bcalc
open Spec

theorem part_trans {a b c : Node} (h : Part a b) (h' : Part b c) : Part a c := by
  induction h' with
  | here => exact h
  | paren _ ih => exact .paren ih
  | unary _ ih => exact .unary ih
  | left _ ih => exact .left ih
  | right _ ih => exact .right ih
  | argument hm _ ih => exact .argument hm ih

theorem input_weight {ts : List PTok} {target : Option (Positioned Str)} {n : Node} (h : Input ts target n)
    (hn : NoPowers ts) {B : Nat} (hB : 1 ≤ B) : Rational n ∧ weight B n ≤ tokensWeight B ts := by
  cases h with
  | expression h => exact ⟨expr_rational h hn, expr_weight h⟩
  | assignment h =>
    refine ⟨expr_rational h fun t ht => hn t (by simp [ht]), ?_⟩
    rw [tokensWeight_cons, tokensWeight_cons]
    simp only [tokenWeight, Nat.one_mul]
    exact (expr_weight h).trans (Nat.le_mul_of_pos_left _ hB)

theorem withCommas_length (s : Str) (h : s ≠ []) : (withCommas s).length ≤ 2 * s.length := by
  obtain ⟨g, gs, h1, _, _, h4, h5⟩ := withCommas_spec s h
  rw [h1, intercalate_cons, ← h5, List.flatten_cons, List.length_append, List.length_append]
  have : ∀ gs : List Str, (∀ x ∈ gs, x.length = 3) → (gs.map ([','] ++ ·)).flatten.length ≤ 2 * gs.flatten.length := by
    intro gs
    induction gs with
    | nil => simp
    | cons a gs ih =>
      intro h
      have ha := h a (by simp)
      have := ih fun x hx => h x (by simp [hx])
      simp only [List.map_cons, List.flatten_cons, List.length_append, List.length_cons, List.length_nil] at *
      omega
  have := this gs h4
  omega

theorem sixteen_pow (L : Nat) : (16 : Nat) ^ L < 2 ^ (4 * L + 1) := by
  rw [pow_succ, pow_mul]
  have : 0 < 16 ^ L := by positivity
  norm_num

/-- How long displayed numbers are. -/
theorem display_length {args : Args} (hv : ValidSettings args) {v : Rat} {text : Str}
    (h : displayResult args v = .ok text) {L : Nat} (hm : AtMost (16 ^ L) v) :
    text.length ≤ 8 * L + args.precision + 4 := by
  cases hf : args.fractional with
  | true =>
    unfold displayResult at h
    rw [hf] at h
    simp only [if_true, Outcome.ok.injEq] at h
    have hd : ∀ n : Nat, n ≤ 16 ^ L → (natToStr 10 n).length ≤ 2 * L + 1 := by
      intro n hn
      rw [natToStr_eq, List.length_map]
      refine natDigits_length (by omega) (by omega) (lt_of_le_of_lt hn ?_)
      rw [pow_succ, pow_mul]
      have h1 : (16 : Nat) ^ L ≤ (10 ^ 2) ^ L := Nat.pow_le_pow_left (by norm_num) L
      have h2 : 0 < (16 : Nat) ^ L := by positivity
      omega
    have h1 := hd _ hm.1
    have h2 := hd _ hm.2
    have h3 : (intDisplay v.num).length ≤ 2 * L + 2 := by
      unfold intDisplay
      rw [List.length_append]
      split <;> simp <;> omega
    have h4 : (intDisplay v.den).length ≤ 2 * L + 1 := by
      unfold intDisplay
      rw [if_neg (by omega), List.nil_append, Int.natAbs_natCast]
      exact h2
    rw [← h]
    unfold ratDisplay
    split
    · omega
    · simp only [List.length_append, List.length_cons]
      omega
  | false =>
    have h2 : 2 ≤ outputRadix args ∧ outputRadix args ≤ 16 := by
      unfold outputRadix
      cases hc : args.convertToRadix with
      | none => exact hv.radix
      | some r => exact hv.output r hc
    rw [displayResult_eq hf h2.1 h2.2 v] at h
    cases h
    obtain ⟨I, F, hne, _, _, ht, hI, hF⟩ := shownText_parts h2.1 (by omega : outputRadix args ≤ 36) v args.precision args.upper
    rw [ht]
    have hR : (0 : Rat) < (outputRadix args : Rat) ^ args.precision := by
      have : (0 : Rat) < outputRadix args := by exact_mod_cast (by omega : 0 < outputRadix args)
      positivity
    have hle : |v| ≤ (16 : Rat) ^ L := by
      have h5 : |v| ≤ (v.num.natAbs : Rat) := by
        conv_lhs => rw [← Rat.num_div_den v, abs_div]
        rw [abs_of_nonneg (by positivity : (0 : Rat) ≤ v.den), ← Int.cast_abs, Int.abs_eq_natAbs]
        have : (1 : Rat) ≤ v.den := by exact_mod_cast v.den_pos
        rw [div_le_iff₀ (by linarith)]
        rw [Int.cast_natCast]
        exact le_mul_of_one_le_right (Nat.cast_nonneg _) this
      refine h5.trans ?_
      exact_mod_cast hm.1
    have hu : units v (outputRadix args) args.precision ≤ 16 ^ L * outputRadix args ^ args.precision := by
      have h5 := (units_rounds h2.1 v args.precision).2.1
      rw [sub_le_iff_le_add, div_le_iff₀ hR, add_mul, one_div, one_div, mul_assoc, inv_mul_cancel₀ (ne_of_gt hR)] at h5
      have h6 : (units v (outputRadix args) args.precision : Rat) <
          ((16 ^ L * outputRadix args ^ args.precision + 1 : Nat) : Rat) := by
        push_cast
        have := mul_le_mul_of_nonneg_right hle (le_of_lt hR)
        linarith
      have := Nat.cast_lt.1 h6
      omega
    have hI' : I.length ≤ 4 * L + 1 := by
      rw [hI]
      unfold digitsText
      rw [List.length_map]
      refine natDigits_length h2.1 (by omega) (lt_of_le_of_lt (Nat.div_le_of_le_mul (by rw [Nat.mul_comm]; exact hu)) ?_)
      exact lt_of_lt_of_le (sixteen_pow L) (Nat.pow_le_pow_left h2.1 _)
    have hF' : F.length ≤ args.precision := by
      rw [hF]
      unfold digitsText
      rw [List.length_map]
      have h5 := fracDigits_length h2.1 (units v (outputRadix args) args.precision) args.precision
      rcases shownFraction_cases v (outputRadix args) args.precision with ⟨_, k, h6, _⟩ | ⟨_, h6⟩
      · rw [h6, List.length_append] at h5; omega
      · rw [h6]; omega
    have hs : (sign v).length ≤ 1 := by unfold sign; split <;> simp
    have hc := withCommas_length I hne
    rw [List.length_append, List.length_append]
    split <;> split <;> simp only [List.length_nil, List.length_cons] <;> omega

/-! ## C100 Without powers and roots, numbers stay as short as the line -/

/-- The numerator and the denominator of the value of a line without powers and roots, and of every part of it, have
at most as many digits (of the input radix) as the line has characters; for each variable written in the line, as many
more as its value has. -/
theorem C100_value (radix : Nat) (h2 : 2 ≤ radix) (line : Str) (ts : List PTok) (hl : Lexes radix 0 line ts)
    (target : Option (Positioned Str)) (n : Node) (hi : Input ts target n) (hn : NoPowers ts) (ε : Rat) (ρ : Valuation)
    (B : Nat) (hB : 1 ≤ B) (hρ : ∀ x p q, Part (.variable x p) n → ρ x = some q → AtMost B q) (s : Node) (hs : Part s n)
    (v : Rat) (h : Value ε ρ s v) : AtMost (B ^ uses ts * radix ^ line.length) v := by
  obtain ⟨h3, h4⟩ := input_weight hi hn hB
  have h5 := value_weight hB h (h3.sub fun t ht => part_trans ht hs) (VarsWithin.sub (n := n) hρ fun t ht => part_trans ht hs)
  exact h5.mono ((weight_part hB hs).trans (h4.trans (lexes_weight h2 B hl)))

/-- The tree of an expression has at most as many nodes as the line has characters. -/
theorem C100_nodes (radix : Nat) (line : Str) (ts : List PTok) (hl : Lexes radix 0 line ts)
    (target : Option (Positioned Str)) (n : Node) (hi : Input ts target n) : nodes n ≤ line.length := by
  refine le_trans ?_ (lexes_length hl)
  cases hi with
  | expression h => exact expr_nodes h
  | assignment h =>
    have := expr_nodes h
    simp only [List.length_cons]
    omega

/-- The answer to a line without powers, roots and variables (but perhaps an assignment) is not longer than eight times
the line, plus the configured precision and four. -/
theorem C100_answer (m : Machine) (ce : CommandExecutor) (line : Str) (s s' : Session) (text : Str)
    (hv : ValidSettings s.args) (hc : ¬ CommandLine line) (ts : List PTok) (hl : Lexes s.args.radix 0 line ts)
    (target : Option (Positioned Str)) (n : Node) (hi : Input ts target n) (hn : NoPowers ts)
    (hx : ∀ x p, ¬ Part (.variable x p) n) (h : calculate m ce line s = (.ok text, s')) :
    text.length ≤ 8 * line.length + s.args.precision + 4 := by
  have htok : tokenize line s.args.radix = .ok (.tokens ts) := by
    refine (C01_tokens_iff _ hv.radix.1 hv.radix.2 line ts).2 ⟨?_, hc, hl⟩
    rcases tokenize_spec hv.radix.1 hv.radix.2 line with ⟨i, _, _, e⟩ | ⟨ha, _⟩ | ⟨ha, _⟩
    · rw [calculate_eq] at h
      obtain ⟨id, s1, h1, h⟩ := andThen_ok h
      obtain ⟨ha, _⟩ := recordInput_args s
      rw [h1] at ha
      simp only at ha
      unfold afterRecording at h
      rw [ha, e] at h
      cases h
    · exact ha
    · exact ha
  have hne : ts ≠ [] := by
    rintro rfl
    have := C100_nodes s.args.radix [] [] .done target n hi
    cases n <;> simp [nodes] at this
  obtain ⟨id, s1, s2, tree, v, h1, h2, h3, h4, h5, h6, h7, h8⟩ := calculate_tokens_ok h htok hne
  obtain ⟨env, hx'⟩ := executeTree_root h7
  rw [h5] at hx'
  have htree := (C10_parser_iff_grammar ts ⟨target, n⟩).2 hi
  rw [h6] at htree
  cases htree
  have hval := execute_value m s.args hv.radix.1 n hx'
  have hmost := C100_value s.args.radix hv.radix.1 line ts hl target n hi hn _ _ 1 (le_refl 1)
    (fun x p q hp => absurd hp (hx x p)) n .here v hval
  rw [one_pow, Nat.one_mul] at hmost
  exact display_length hv h8 (hmost.mono (Nat.pow_le_pow_left hv.radix.2 _))

/-! ### An example -/

def exQuotient : List PTok := [⟨.number (5 / 2), ⟨0, 3⟩⟩, ⟨.binary .divide, ⟨3, 1⟩⟩, ⟨.number 3, ⟨4, 1⟩⟩]

def exQuotientNode : Node := .binary .divide ⟨3, 1⟩ (.number (5 / 2) ⟨0, 3⟩) (.number 3 ⟨4, 1⟩)

theorem exQuotient_input : Input exQuotient none exQuotientNode :=
  .expression (.lift (.op (ts := [⟨.number (5 / 2), ⟨0, 3⟩⟩]) (.lift (.lift (.lift (.signed (.atom .number))))) rfl
    (.lift (.lift (.signed (.atom .number))))))

/-- `2.5/3` is 5/6: both are less than 10^5. -/
example : Lexes 10 0 "2.5/3".toList exQuotient ∧ Input exQuotient none exQuotientNode ∧ NoPowers exQuotient ∧
    uses exQuotient = 0 ∧ (∀ x p, ¬ Part (.variable x p) exQuotientNode) ∧ AtMost (10 ^ 5) (5 / 6) ∧
    nodes exQuotientNode = 3 ∧
    oneShot (exMachine true) .default "2.5/3".toList = .ok (.result "0.83333".toList) := by
  refine ⟨?_, exQuotient_input, ?_, by decide, ?_, ⟨by decide +kernel, by decide +kernel⟩, by decide, by decide +kernel⟩
  · exact ((C01_tokens_iff 10 (by omega) (by omega) "2.5/3".toList exQuotient).1 (by decide +kernel)).2.2
  · intro t ht
    simp only [exQuotient, List.mem_cons, List.not_mem_nil, or_false] at ht
    rcases ht with rfl | rfl | rfl <;> simp
  · intro x p h
    cases h with
    | left h => cases h
    | right h => cases h

end Bcalc
