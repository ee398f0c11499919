import Verif.Proof.Display
import Verif.Props.Lexical
import Verif.Props.Parser
import Verif.Props.Arithmetic

/-! # C30 – C37: the display of results -/

namespace Bcalc
open Spec

theorem outputRadix_eq (args : Args) : args.convertToRadix.getD args.radix = outputRadix args := by
  unfold outputRadix
  cases args.convertToRadix <;> rfl

theorem displayResult_eq {args : Args} (hf : args.fractional = false) (h2 : 2 ≤ outputRadix args)
    (hr : outputRadix args ≤ 16) (v : Rat) :
    displayResult args v =
      .ok (shownText v (outputRadix args) args.precision args.commas args.upper) := by
  unfold displayResult
  rw [hf, outputRadix_eq]
  simp only [Bool.false_eq_true, if_false]
  exact makeDecimalString_eq v h2 (by omega) _ _ _

theorem digitsText_no_comma {radix : Nat} (hr : radix ≤ 36) {ds : List Nat}
    (h : ∀ d ∈ ds, d < radix) (upper : Bool) {c : Char} (hc : ∀ d, ¬ DigitChar c d) :
    c ∉ digitsText upper ds :=
  digits_no_char (digitsText_digits hr h upper) hc

/-- The pieces of a displayed number. -/
theorem shownText_parts {radix : Nat} (h2 : 2 ≤ radix) (hr : radix ≤ 36) (v : Rat) (precision : Nat)
    (upper : Bool) : ∃ I F : Str, I ≠ [] ∧
      (∀ c ∈ I, ∃ d, DigitChar c d ∧ d < radix) ∧ (∀ c ∈ F, ∃ d, DigitChar c d ∧ d < radix) ∧
      (∀ commas, shownText v radix precision commas upper =
        sign v ++ (if commas then withCommas I else I) ++ (if F = [] then [] else '.' :: F)) ∧
      I = digitsText upper (natDigits radix (units v radix precision / radix ^ precision)) ∧
      F = digitsText upper (shownFraction v radix precision) := by
  refine ⟨_, _, ?_, ?_, ?_, fun _ => rfl, rfl, rfl⟩
  · unfold digitsText
    simpa using natDigits_ne_nil _ _
  · exact fun c hc => digits_mem (digitsText_digits hr (natDigits_lt h2) upper) c hc
  · exact fun c hc => digits_mem (digitsText_digits hr (shownFraction_lt h2 v precision) upper) c hc

theorem noCommas_append (a b : Str) : noCommas (a ++ b) = noCommas a ++ noCommas b := by
  unfold noCommas; exact List.filter_append ..

theorem noCommas_self {s : Str} (h : ',' ∉ s) : noCommas s = s := by
  unfold noCommas
  rw [List.filter_eq_self]
  intro c hc
  have : c ≠ ',' := by rintro rfl; exact h hc
  simpa using this

theorem sign_no {v : Rat} {c : Char} (h : c ≠ '-') : c ∉ sign v := by
  unfold sign; split <;> simp [h]

theorem not_mem_of_digits {radix : Nat} {s : Str} (h : ∀ c ∈ s, ∃ d, DigitChar c d ∧ d < radix)
    {c : Char} (hc : ∀ d, ¬ DigitChar c d) : c ∉ s := by
  intro hm
  obtain ⟨d, hd, _⟩ := h c hm
  exact hc d hd

theorem comma_not_digit : ∀ d, ¬ DigitChar ',' d := not_digit_char (by decide)
theorem point_not_digit : ∀ d, ¬ DigitChar '.' d := not_digit_char (by decide)
theorem minus_not_digit : ∀ d, ¬ DigitChar '-' d := not_digit_char (by decide)

/-- Removing the commas gives the text without commas. -/
theorem shownText_noCommas {radix : Nat} (h2 : 2 ≤ radix) (hr : radix ≤ 36) (v : Rat)
    (precision : Nat) (commas upper : Bool) :
    noCommas (shownText v radix precision commas upper) = shownText v radix precision false upper ∧
    ',' ∉ shownText v radix precision false upper := by
  obtain ⟨I, F, hne, hI, hF, ht, -, -⟩ := shownText_parts h2 hr v precision upper
  have hIc := not_mem_of_digits hI comma_not_digit
  have hFc := not_mem_of_digits hF comma_not_digit
  have hFc' : ',' ∉ (if F = [] then [] else '.' :: F) := by
    split
    · simp
    · simp [hFc]
  have hs : ',' ∉ sign v := sign_no (by decide)
  rw [ht, ht, noCommas_append, noCommas_append, noCommas_self hs, noCommas_self hFc']
  constructor
  · cases commas
    · simp [noCommas_self hIc]
    · simp only [if_true, Bool.false_eq_true, if_false]
      rw [show noCommas (withCommas I) = I from filter_withCommas hne hIc]
  · simp only [Bool.false_eq_true, if_false, List.mem_append, not_or]
    exact ⟨⟨hs, hIc⟩, hFc'⟩

theorem units_rounds {radix : Nat} (h2 : 2 ≤ radix) (v : Rat) (precision : Nat) :
    RoundsTo radix precision |v| ((units v radix precision : Rat) / (radix : Rat) ^ precision) :=
  ⟨⟨_, rfl⟩, units_spec h2 v precision⟩

/-! ## C30 Displayed numbers are correctly rounded -/

/-- The displayed text is, apart from commas, the sign and a numeral of the output radix that denotes
the magnitude rounded to the nearest multiple of `radix ^ -precision`, ties away from zero. -/
theorem C30_rounded (args : Args) (hf : args.fractional = false) (h2 : 2 ≤ outputRadix args)
    (hr : outputRadix args ≤ 16) (v : Rat) :
    ∃ s w u, displayResult args v = .ok s ∧ noCommas s = sign v ++ w ∧
      Numeral (outputRadix args) w u ∧ RoundsTo (outputRadix args) args.precision |v| u := by
  obtain ⟨w, hw, hn⟩ := shown_numeral h2 (by omega) v args.precision args.upper
  exact ⟨_, w, _, displayResult_eq hf h2 hr v,
    by rw [(shownText_noCommas h2 (by omega) ..).1, hw]; rfl, hn, units_rounds h2 v _⟩

/-- There is only one number the magnitude can be rounded to. -/
theorem C30_rounded_unique (radix precision : Nat) (h2 : 2 ≤ radix) (x u u' : Rat)
    (h : RoundsTo radix precision x u) (h' : RoundsTo radix precision x u') : u = u' := by
  obtain ⟨⟨k, rfl⟩, h1, h3⟩ := h
  obtain ⟨⟨k', rfl⟩, h1', h3'⟩ := h'
  have hpos : (0 : Rat) < (radix : Rat) ^ precision := by
    have : (0 : Rat) < radix := by exact_mod_cast (by omega : 0 < radix)
    positivity
  have a : (k : Rat) / (radix : Rat) ^ precision - (k' : Rat) / (radix : Rat) ^ precision <
      1 / (radix : Rat) ^ precision := by linarith
  have b : (k' : Rat) / (radix : Rat) ^ precision - (k : Rat) / (radix : Rat) ^ precision <
      1 / (radix : Rat) ^ precision := by linarith
  rw [← sub_div, div_lt_div_iff_of_pos_right hpos] at a b
  have a' : (k : Rat) < ((k' + 1 : Nat) : Rat) := by push_cast; linarith
  have b' : (k' : Rat) < ((k + 1 : Nat) : Rat) := by push_cast; linarith
  have a'' := Nat.cast_lt.1 a'
  have b'' := Nat.cast_lt.1 b'
  have : k = k' := by omega
  rw [this]

/-- The displayed number differs from the value by at most half a unit of the last place, and a tie is
rounded away from zero. -/
theorem C30_error (radix precision : Nat) (h2 : 2 ≤ radix) (v u : Rat)
    (h : RoundsTo radix precision |v| u) :
    |(if v < 0 then -u else u) - v| ≤ 1 / 2 * (1 / (radix : Rat) ^ precision) ∧
    (|(if v < 0 then -u else u) - v| = 1 / 2 * (1 / (radix : Rat) ^ precision) → |v| < u) := by
  obtain ⟨_, h1, h3⟩ := h
  have hpos : (0 : Rat) < 1 / 2 * (1 / (radix : Rat) ^ precision) := by
    have : (0 : Rat) < radix := by exact_mod_cast (by omega : 0 < radix)
    positivity
  have key : |(if v < 0 then -u else u) - v| = abs (u - |v|) := by
    split
    · rename_i h; rw [abs_of_neg h, ← abs_neg]; congr 1; ring
    · rename_i h; rw [abs_of_nonneg (not_lt.1 h)]
  rw [key]
  refine ⟨abs_le.2 ⟨by linarith, h1⟩, fun h => ?_⟩
  by_contra hlt
  rw [abs_of_nonpos (by linarith [not_lt.1 hlt])] at h
  linarith

/-- `2/3` to five places is `0.66667`; `-1/2` in base 2 with no places is `-1`; `5/2` is `3`. -/
example : displayResult .default (2 / 3) = .ok "0.66667".toList ∧
    displayResult { Args.default with radix := 2, precision := 0 } (-1 / 2) = .ok "-1".toList ∧
    displayResult { Args.default with precision := 0 } (5 / 2) = .ok "3".toList := by
  decide +kernel

/-! ## C31 Trailing zeros are significant -/

theorem head_natDigits (radix n : Nat) :
    natDigits radix n = [0] ∨ (natDigits radix n).head? ≠ some 0 := by
  unfold natDigits
  split
  · exact .inl rfl
  · rename_i h
    right
    rw [List.head?_reverse]
    have hne : Nat.digits radix n ≠ [] := by
      rw [Ne, Nat.digits_eq_nil_iff_eq_zero]; exact h
    rw [List.getLast?_eq_getLast_of_ne_nil hne]
    intro he
    exact Nat.getLast_digit_ne_zero radix h (Option.some.inj he)

/-- An exactly representable value is shown without a point, or with a fraction that does not end in
'0'; any other value with exactly `precision` fractional digits (and no point if that is zero). -/
theorem C31_fraction (args : Args) (hf : args.fractional = false) (h2 : 2 ≤ outputRadix args)
    (hr : outputRadix args ≤ 16) (v : Rat) :
    ∃ s, displayResult args v = .ok s ∧
      (Representable v (outputRadix args) args.precision →
        '.' ∉ s ∨ ∃ a f c, s = a ++ '.' :: (f ++ [c]) ∧ '.' ∉ a ∧ '.' ∉ f ++ [c] ∧ c ≠ '0') ∧
      (¬ Representable v (outputRadix args) args.precision →
        (args.precision = 0 ∧ '.' ∉ s) ∨
        (args.precision ≠ 0 ∧ ∃ a f, s = a ++ '.' :: f ∧ '.' ∉ a ∧ '.' ∉ f ∧
          f.length = args.precision)) := by
  refine ⟨_, displayResult_eq hf h2 hr v, ?_⟩
  obtain ⟨I, F, hne, hI, hF, ht, hIe, hFe⟩ :=
    shownText_parts h2 (by omega : outputRadix args ≤ 36) v args.precision args.upper
  have hIc := not_mem_of_digits hI point_not_digit
  have hFc := not_mem_of_digits hF point_not_digit
  have hs : '.' ∉ sign v := sign_no (by decide)
  have hint : '.' ∉ (if args.commas then withCommas I else I) := by
    split
    · obtain ⟨g, gs, h1, -, -, -, h5⟩ := withCommas_spec I hne
      rw [h1, intercalate_cons, List.mem_append]
      rw [← h5] at hIc
      simp only [List.flatten_cons, List.mem_append, not_or] at hIc
      rintro (h | h)
      · exact hIc.1 h
      · rw [List.mem_flatten] at h
        obtain ⟨l, hl, hm⟩ := h
        rw [List.mem_map] at hl
        obtain ⟨x, hx, rfl⟩ := hl
        simp only [List.cons_append, List.nil_append, List.mem_cons] at hm
        rcases hm with hm | hm
        · exact absurd hm (by decide)
        · exact hIc.2 (List.mem_flatten.2 ⟨x, hx, hm⟩)
    · exact hIc
  have hpre : '.' ∉ sign v ++ (if args.commas then withCommas I else I) := by
    rw [List.mem_append]; exact not_or.2 ⟨hs, hint⟩
  rw [ht]
  rcases shownFraction_cases v (outputRadix args) args.precision with ⟨hrep, k, hk, hlast⟩ | ⟨hrep, hk⟩
  · refine ⟨fun _ => ?_, fun h => absurd hrep h⟩
    by_cases hF0 : F = []
    · left; rw [if_pos hF0]; simpa using hpre
    · right
      rw [if_neg hF0]
      rcases List.eq_nil_or_concat F with h | ⟨f, c, hfc⟩
      · exact absurd h hF0
      · rw [List.concat_eq_append] at hfc
        refine ⟨_, f, c, by rw [← hfc], hpre, by rw [← hfc]; exact hFc, ?_⟩
        rintro rfl
        rw [hFe] at hfc
        unfold digitsText at hfc
        rw [List.map_eq_append_iff] at hfc
        obtain ⟨l1, l2, h3, h4, h5⟩ := hfc
        rw [List.map_eq_singleton_iff] at h5
        obtain ⟨d, rfl, hd⟩ := h5
        have hd36 : d < 36 := by
          have := shownFraction_lt h2 v args.precision d (by rw [h3]; simp)
          omega
        rw [digitText_eq_zero hd36] at hd
        rw [h3, hd] at hlast
        simp at hlast
  · refine ⟨fun h => absurd h hrep, fun _ => ?_⟩
    have hlen : F.length = args.precision := by
      rw [hFe, hk]; unfold digitsText
      rw [List.length_map, fracDigits_length h2]
    by_cases hp : args.precision = 0
    · left
      have : F = [] := List.length_eq_zero_iff.1 (by omega)
      rw [if_pos this]
      exact ⟨hp, by simpa using hpre⟩
    · right
      have : F ≠ [] := by rintro rfl; simp at hlen; omega
      rw [if_neg this]
      exact ⟨hp, _, F, rfl, hpre, hFc, hlen⟩

/-- Without commas, nor are there superfluous leading zeros: the integer part is "0" or begins with
another digit. -/
theorem C31_leading (args : Args) (hf : args.fractional = false) (hc : args.commas = false)
    (h2 : 2 ≤ outputRadix args) (hr : outputRadix args ≤ 16) (v : Rat) :
    ∃ I rest, displayResult args v = .ok (sign v ++ I ++ rest) ∧ I ≠ [] ∧
      (rest = [] ∨ ∃ f, rest = '.' :: f) ∧ '.' ∉ I ∧ (I = ['0'] ∨ I.head? ≠ some '0') := by
  obtain ⟨I, F, hne, hI, hF, ht, hIe, hFe⟩ :=
    shownText_parts h2 (by omega : outputRadix args ≤ 36) v args.precision args.upper
  refine ⟨I, if F = [] then [] else '.' :: F, ?_, hne, ?_, not_mem_of_digits hI point_not_digit, ?_⟩
  · rw [displayResult_eq hf h2 hr v, ht, hc]; simp
  · split
    · exact .inl rfl
    · exact .inr ⟨F, rfl⟩
  · rw [hIe]
    rcases head_natDigits (outputRadix args)
      (units v (outputRadix args) args.precision / (outputRadix args) ^ args.precision) with h | h
    · left; rw [h]; unfold digitsText; simp [digitText_zero]
    · right
      have hlt : ∀ d ∈ natDigits (outputRadix args) (units v (outputRadix args) args.precision /
          (outputRadix args) ^ args.precision), d < 36 :=
        fun d hd => by have := natDigits_lt h2 d hd; omega
      unfold digitsText
      rw [List.head?_map]
      revert h hlt
      cases natDigits (outputRadix args) (units v (outputRadix args) args.precision /
          (outputRadix args) ^ args.precision) with
      | nil => simp
      | cons d ds =>
        intro h hlt
        simp only [List.head?_cons, Option.map_some, ne_eq, Option.some.injEq] at h ⊢
        rw [digitText_eq_zero (hlt d (by simp))]
        exact h

/-- `1/4` is exact: `0.25`; `1/3` is not: `0.33333`; `2999999/1000000` rounds to `3.00000`, with its
zeros, and 3 is shown as `3`. -/
example : displayResult .default (1 / 4) = .ok "0.25".toList ∧
    displayResult .default (1 / 3) = .ok "0.33333".toList ∧
    displayResult .default (2999999 / 1000000) = .ok "3.00000".toList ∧
    displayResult .default 3 = .ok "3".toList := by decide +kernel

/-- Both kinds of values exist. -/
example : Representable (1 / 4) 10 5 ∧ ¬ Representable (1 / 3) 10 5 := by
  constructor
  · exact ⟨25000, by norm_num⟩
  · rintro ⟨k, hk⟩
    have : (3 * k : Rat) = 100000 := by
      have h : (k : Rat) = 1 / 3 * 10 ^ 5 := by
        rw [hk]; push_cast; norm_num
      rw [h]; norm_num
    have : 3 * k = 100000 := by exact_mod_cast this
    omega

/-! ## C32 Displayed numbers can be typed back -/

theorem read_signed {radix : Nat} (h2 : 2 ≤ radix) (hr : radix ≤ 16) {w : Str} {u : Rat} (v : Rat)
    (h : Numeral radix w u) : ∃ ts t, tokenize (sign v ++ w) radix = .ok (.tokens ts) ∧
      ts ≠ [] ∧ SyntaxTree.new ts = .ok t ∧
      ∀ m args id env, t.execute m args id env = (.ok (if v < 0 then -u else u), env) := by
  have hasc := numeral_ascii h
  have hwc := numeral_wordChar h
  have hlex : ∀ pos, Lexes radix pos w [⟨.number u, ⟨pos, w.length⟩⟩] := by
    intro pos
    have := Lexes.word (radix := radix) (pos := pos) (rest := []) (numeral_ne_nil h) hwc
      boundary_nil (.number h) .done
    simpa using this
  unfold sign
  by_cases hv : v < 0
  · simp only [if_pos hv]
    refine ⟨[⟨.binary .subtract, ⟨0, 1⟩⟩, ⟨.number u, ⟨1, w.length⟩⟩],
      ⟨none, .unary .negate ⟨0, 1⟩ (.number u ⟨1, w.length⟩)⟩, ?_, by simp, ?_, ?_⟩
    · rw [C01_tokens_iff radix h2 hr]
      refine ⟨?_, ?_, .symbol .minus (hlex 1)⟩
      · intro c hc
        rcases List.mem_append.1 hc with hc | hc
        · rw [List.mem_singleton.1 hc]; decide
        · exact hasc c hc
      · rintro ⟨pre, rest, he, hpre⟩
        cases pre with
        | nil => simp at he
        | cons c pre =>
          simp only [List.cons_append, List.nil_append, List.cons.injEq] at he
          have := hpre c (by simp)
          rw [← he.1] at this
          revert this; unfold Blank; decide
    · exact parse_of_expr (k := 0) (.signed (.minus (.atom .number))) (by omega)
    · intro m args id env
      simp [SyntaxTree.execute, Node.execute, St.andThen, St.lift, applyUnary]
  · simp only [if_neg hv, List.nil_append]
    refine ⟨[⟨.number u, ⟨0, w.length⟩⟩], ⟨none, .number u ⟨0, w.length⟩⟩, ?_, by simp, ?_, ?_⟩
    · rw [C01_tokens_iff radix h2 hr]
      exact ⟨hasc, word_not_command hwc, hlex 0⟩
    · exact parse_of_expr (k := 0) (.signed (.atom .number)) (by omega)
    · intro m args id env
      simp [SyntaxTree.execute, Node.execute, St.andThen, St.lift]

/-- The displayed text, typed in with the same radix as input radix, is a calculation whose result is
the displayed number: the magnitude correctly rounded, with the sign. -/
theorem C32_reads_back (args : Args) (hf : args.fractional = false) (hc : args.commas = false)
    (h2 : 2 ≤ outputRadix args) (hr : outputRadix args ≤ 16) (v : Rat) :
    ∃ s u ts t, displayResult args v = .ok s ∧
      RoundsTo (outputRadix args) args.precision |v| u ∧
      tokenize s (outputRadix args) = .ok (.tokens ts) ∧ SyntaxTree.new ts = .ok t ∧
      ∀ m args' id env, t.execute m args' id env = (.ok (if v < 0 then -u else u), env) := by
  obtain ⟨w, hw, hn⟩ := shown_numeral h2 (by omega) v args.precision args.upper
  obtain ⟨ts, t, h1, -, h3, h4⟩ := read_signed h2 hr v hn
  refine ⟨_, _, ts, t, displayResult_eq hf h2 hr v, units_rounds h2 v args.precision, ?_, h3, h4⟩
  rw [hc, hw]; exact h1

/-- For an exactly representable value, the result is the value itself. -/
theorem C32_reads_back_exact (args : Args) (hf : args.fractional = false)
    (hc : args.commas = false) (h2 : 2 ≤ outputRadix args) (hr : outputRadix args ≤ 16) (v : Rat)
    (hv : Representable v (outputRadix args) args.precision) :
    ∃ s ts t, displayResult args v = .ok s ∧
      tokenize s (outputRadix args) = .ok (.tokens ts) ∧ SyntaxTree.new ts = .ok t ∧
      ∀ m args' id env, t.execute m args' id env = (.ok v, env) := by
  obtain ⟨w, hw, hn⟩ := shown_numeral h2 (by omega) v args.precision args.upper
  rw [units_exact h2 hv] at hn
  obtain ⟨ts, t, h1, -, h3, h4⟩ := read_signed h2 hr v hn
  refine ⟨_, ts, t, displayResult_eq hf h2 hr v, ?_, h3, fun m args' id env => ?_⟩
  · rw [hc, hw]; exact h1
  · rw [h4]
    congr 2
    split
    · rename_i h; rw [abs_of_neg h]; simp
    · rename_i h; rw [abs_of_nonneg (not_lt.1 h)]

theorem commandExecutor_ok : ∃ ce, CommandExecutor.new = .ok ce := by
  have : (match CommandExecutor.new with | .ok _ => true | _ => false) = true := by decide +kernel
  split at this
  · exact ⟨_, by assumption⟩
  · simp at this

/-- The whole program: given as the input of a one-shot calculation with one radix for input and
output, an exactly representable value's text is displayed again, character by character. -/
theorem C32_one_shot (m : Machine) (args : Args) (hf : args.fractional = false)
    (hc : args.commas = false) (h2 : 2 ≤ args.radix) (hr : args.radix ≤ 16)
    (hconv : args.convertToRadix = none) (v : Rat)
    (hv : Representable v args.radix args.precision) :
    ∃ s, displayResult args v = .ok s ∧ oneShot m args s = .ok (.result s) := by
  have ho : outputRadix args = args.radix := by unfold outputRadix; rw [hconv]
  obtain ⟨s, ts, t, h1, h3, h4, h5⟩ :=
    C32_reads_back_exact args hf hc (by rw [ho]; exact h2) (by rw [ho]; exact hr) v
      (by rw [ho]; exact hv)
  refine ⟨s, h1, ?_⟩
  obtain ⟨ce, hce⟩ := commandExecutor_ok
  rw [ho] at h3
  have hne : ts ≠ [] := by
    rintro rfl
    have hb : (match SyntaxTree.new [] with | .ok _ => true | _ => false) = false := by
      decide +kernel
    rw [h4] at hb
    exact absurd hb (by simp)
  have : calculate m ce s { args := args, db := none, inputs := none, vars := none } =
      (.ok s, { args := args, db := none, inputs := none, vars := none }) := by
    simp [calculate, recordInput, St.andThen, h3, calculateTokens, hne, h4, St.lift,
      Outcome.mapErr, executeTree, h5, h1]
  unfold oneShot
  rw [hce]
  simp [this, shown]

example : displayResult { Args.default with radix := 16, upper := true } (-255 - 1 / 16) =
      .ok "-FF.1".toList ∧
    oneShot (exMachine true) { Args.default with radix := 16, upper := true } "-FF.1".toList =
      .ok (.result "-FF.1".toList) := by decide +kernel

/-! ## C33 Thousands separators -/

theorem C33_groups (args : Args) (hf : args.fractional = false) (h2 : 2 ≤ outputRadix args)
    (hr : outputRadix args ≤ 16) (v : Rat) :
    ∃ g gs rest,
      displayResult { args with commas := true } v =
        .ok (sign v ++ List.intercalate [','] (g :: gs) ++ rest) ∧
      displayResult { args with commas := false } v = .ok (sign v ++ (g :: gs).flatten ++ rest) ∧
      1 ≤ g.length ∧ g.length ≤ 3 ∧ (∀ x ∈ gs, x.length = 3) ∧
      (∀ x ∈ g :: gs, ∀ c ∈ x, ∃ d, DigitChar c d) ∧
      (rest = [] ∨ ∃ f, rest = '.' :: f) ∧ ',' ∉ rest := by
  obtain ⟨I, F, hne, hI, hF, ht, hIe, hFe⟩ :=
    shownText_parts h2 (by omega : outputRadix args ≤ 36) v args.precision args.upper
  obtain ⟨g, gs, h1, h3, h4, h5, h6⟩ := withCommas_spec I hne
  refine ⟨g, gs, if F = [] then [] else '.' :: F, ?_, ?_, h3, h4, h5, ?_, ?_, ?_⟩
  · rw [displayResult_eq (args := { args with commas := true }) hf h2 hr v]
    change Outcome.ok (shownText v (outputRadix args) args.precision true args.upper) = _
    rw [ht]
    simp [h1]
  · rw [displayResult_eq (args := { args with commas := false }) hf h2 hr v]
    change Outcome.ok (shownText v (outputRadix args) args.precision false args.upper) = _
    rw [ht, h6]
    simp
  · intro x hx c hc
    obtain ⟨d, hd, _⟩ := hI c (by rw [← h6]; exact List.mem_flatten.2 ⟨x, hx, hc⟩)
    exact ⟨d, hd⟩
  · split
    · exact .inl rfl
    · exact .inr ⟨F, rfl⟩
  · split
    · simp
    · simp [not_mem_of_digits hF comma_not_digit]

/-- Removing the commas gives the display without commas. -/
theorem C33_remove (args : Args) (hf : args.fractional = false) (h2 : 2 ≤ outputRadix args)
    (hr : outputRadix args ≤ 16) (v : Rat) :
    ∃ s, displayResult { args with commas := true } v = .ok s ∧
      displayResult { args with commas := false } v = .ok (noCommas s) ∧ ',' ∉ noCommas s := by
  refine ⟨_, displayResult_eq (args := { args with commas := true }) hf h2 hr v, ?_, ?_⟩
  · rw [displayResult_eq (args := { args with commas := false }) hf h2 hr v]
    exact congrArg Outcome.ok
      (shownText_noCommas h2 (by omega : outputRadix args ≤ 36) v args.precision true args.upper).1.symm
  · unfold noCommas
    rw [List.mem_filter]
    simp

example : displayResult { Args.default with commas := true } (-1234567 - 1 / 4) =
      .ok "-1,234,567.25".toList ∧
    displayResult { Args.default with commas := true } 123 = .ok "123".toList ∧
    displayResult { Args.default with commas := true } 1234 = .ok "1,234".toList := by
  decide +kernel

/-! ## C34 Upper case -/

theorem upperOf_self {c : Char} (h : ¬ IsLower c) : UpperOf c c := .inl ⟨h, rfl⟩

theorem digitText_upperOf {d : Nat} (h : d < 36) :
    UpperOf (digitText true d) (digitText false d) ∧ ¬ IsLower (digitText true d) ∧
      ¬ IsUpper (digitText false d) := by
  have h1 := digitText_toNat (upper := true) h
  have h2 := digitText_toNat (upper := false) h
  have ha : 'a'.toNat = 97 := rfl
  have hz : 'z'.toNat = 122 := rfl
  have hA : 'A'.toNat = 65 := rfl
  have hZ : 'Z'.toNat = 90 := rfl
  unfold UpperOf IsLower IsUpper
  by_cases hd : d < 10
  · simp only [hd, if_true] at h1 h2
    refine ⟨.inl ⟨by omega, ?_⟩, by omega, by omega⟩
    unfold digitText; simp [hd]
  · simp only [hd, if_false, if_true, Bool.false_eq_true] at h1 h2
    exact ⟨.inr ⟨by omega, by omega⟩, by omega, by omega⟩

/-- Texts that correspond, the upper-case one without lower-case letters and the lower-case one
without upper-case letters. -/
def CasePair (s s' : Str) : Prop :=
  List.Forall₂ (fun c c' => UpperOf c c' ∧ ¬ IsLower c ∧ ¬ IsUpper c') s s'

theorem CasePair.append {a a' b b' : Str} (h : CasePair a a') (h' : CasePair b b') :
    CasePair (a ++ b) (a' ++ b') := List.rel_append h h'

theorem casePair_digits {ds : List Nat} (h : ∀ d ∈ ds, d < 36) :
    CasePair (digitsText true ds) (digitsText false ds) := by
  unfold digitsText CasePair
  rw [List.forall₂_map_left_iff, List.forall₂_map_right_iff]
  exact List.forall₂_same.2 fun d hd => digitText_upperOf (h d hd)

theorem casePair_groups : ∀ {s s' : Str}, CasePair s s' →
    List.Forall₂ CasePair (groupsOfReversed s) (groupsOfReversed s')
  | [], _, h => by cases h; exact .nil
  | [a], _, h => by
    rcases h with _ | ⟨h1, h⟩; cases h
    exact .cons (.cons h1 .nil) .nil
  | [a, b], _, h => by
    rcases h with _ | ⟨h1, h⟩; rcases h with _ | ⟨h2, h⟩; cases h
    exact .cons (.cons h2 (.cons h1 .nil)) .nil
  | a :: b :: c :: rest, _, h => by
    rcases h with _ | ⟨h1, h⟩; rcases h with _ | ⟨h2, h⟩; rcases h with _ | ⟨h3, h⟩
    unfold groupsOfReversed
    exact List.rel_append (casePair_groups h) (.cons (.cons h3 (.cons h2 (.cons h1 .nil))) .nil)

theorem casePair_flatten {l l' : List Str} (h : List.Forall₂ CasePair l l') :
    CasePair l.flatten l'.flatten := by
  induction h with
  | nil => exact .nil
  | cons h _ ih => exact h.append ih

theorem casePair_withCommas {s s' : Str} (h : CasePair s s') :
    CasePair (withCommas s) (withCommas s') := by
  unfold withCommas
  have hg := casePair_groups (List.rel_reverse h)
  revert hg
  generalize groupsOfReversed s.reverse = l
  generalize groupsOfReversed s'.reverse = l'
  intro hg
  cases hg with
  | nil => exact .nil
  | cons h1 h2 =>
    rw [intercalate_cons, intercalate_cons]
    apply h1.append
    apply casePair_flatten
    rw [List.forall₂_map_left_iff, List.forall₂_map_right_iff]
    refine h2.imp fun a b hab => CasePair.append (.cons ⟨upperOf_self ?_, ?_, ?_⟩ .nil) hab
    all_goals first | (unfold IsLower; decide) | (unfold IsUpper; decide)

theorem C34_upper (args : Args) (h2 : 2 ≤ outputRadix args) (hr : outputRadix args ≤ 16) (v : Rat) :
    ∃ s s', displayResult { args with upper := true } v = .ok s ∧
      displayResult { args with upper := false } v = .ok s' ∧
      List.Forall₂ UpperOf s s' ∧ (∀ c ∈ s, ¬ IsLower c) ∧ (∀ c ∈ s', ¬ IsUpper c) := by
  have fin : ∀ {s s' : Str}, CasePair s s' →
      List.Forall₂ UpperOf s s' ∧ (∀ c ∈ s, ¬ IsLower c) ∧ (∀ c ∈ s', ¬ IsUpper c) := by
    intro s s' h
    induction h with
    | nil => exact ⟨.nil, by simp, by simp⟩
    | cons h _ ih =>
      refine ⟨.cons h.1 ih.1, ?_, ?_⟩
      · intro c hc
        rcases List.mem_cons.1 hc with rfl | hc
        · exact h.2.1
        · exact ih.2.1 c hc
      · intro c hc
        rcases List.mem_cons.1 hc with rfl | hc
        · exact h.2.2
        · exact ih.2.2 c hc
  have single : ∀ c : Char, ¬ IsLower c → ¬ IsUpper c → CasePair [c] [c] := fun c h h' =>
    .cons ⟨upperOf_self h, h, h'⟩ .nil
  have hsign : CasePair (sign v) (sign v) := by
    unfold sign
    split
    · exact single _ (by unfold IsLower; decide) (by unfold IsUpper; decide)
    · exact .nil
  by_cases hf : args.fractional = true
  · have hnat : ∀ n, CasePair (natToStr 10 n) (natToStr 10 n) := by
      intro n
      unfold CasePair
      rw [List.forall₂_same]
      intro c hc
      obtain ⟨d, hd, hlt⟩ := digits_mem (natToStr_digits (by omega) (by omega) n) c hc
      have h0 : '0'.toNat = 48 := rfl
      have ha : 'a'.toNat = 97 := rfl
      have hA : 'A'.toNat = 65 := rfl
      have hb : ¬ IsLower c ∧ ¬ IsUpper c := by
        unfold DigitChar at hd; unfold IsLower IsUpper; omega
      exact ⟨upperOf_self hb.1, hb.1, hb.2⟩
    have hint : ∀ n : Int, CasePair (intDisplay n) (intDisplay n) := by
      intro n
      unfold intDisplay
      apply CasePair.append _ (hnat _)
      split
      · exact single _ (by unfold IsLower; decide) (by unfold IsUpper; decide)
      · exact .nil
    have : CasePair (ratDisplay v) (ratDisplay v) := by
      unfold ratDisplay
      split
      · exact hint _
      · exact (hint _).append ((single '/' (by unfold IsLower; decide)
          (by unfold IsUpper; decide)).append (hint _))
    refine ⟨ratDisplay v, ratDisplay v, ?_, ?_, fin this⟩ <;>
    · unfold displayResult; simp [hf]
  · have hf : args.fractional = false := by simpa using hf
    refine ⟨_, _, displayResult_eq (args := { args with upper := true }) hf h2 hr v,
      displayResult_eq (args := { args with upper := false }) hf h2 hr v, fin ?_⟩
    change CasePair (shownText v (outputRadix args) args.precision args.commas true)
      (shownText v (outputRadix args) args.precision args.commas false)
    have hI := casePair_digits (ds := natDigits (outputRadix args)
      (units v (outputRadix args) args.precision / (outputRadix args) ^ args.precision))
      fun d hd => by have := natDigits_lt h2 d hd; omega
    have hF := casePair_digits (ds := shownFraction v (outputRadix args) args.precision)
      fun d hd => by have := shownFraction_lt h2 v args.precision d hd; omega
    unfold shownText
    refine CasePair.append (CasePair.append hsign ?_) ?_
    · simp only
      split
      · exact casePair_withCommas hI
      · exact hI
    · simp only
      have hnil : digitsText true (shownFraction v (outputRadix args) args.precision) = [] ↔
          digitsText false (shownFraction v (outputRadix args) args.precision) = [] := by
        unfold digitsText; simp
      split
      · rename_i h; rw [if_pos (hnil.1 h)]; exact .nil
      · rename_i h; rw [if_neg fun h' => h (hnil.2 h')]
        exact (single '.' (by unfold IsLower; decide) (by unfold IsUpper; decide)).append hF

example : displayResult { Args.default with radix := 16, upper := true } (43981 + 15 / 16) =
      .ok "ABCD.F".toList ∧
    displayResult { Args.default with radix := 16 } (43981 + 15 / 16) = .ok "abcd.f".toList := by
  decide +kernel

/-! ## C35 Sign -/

theorem sign_count (v : Rat) : (sign v).count '-' = if v < 0 then 1 else 0 := by
  unfold sign; split <;> simp

theorem C35_sign (args : Args) (h2 : 2 ≤ outputRadix args) (hr : outputRadix args ≤ 16) (v : Rat) :
    ∃ s, displayResult args v = .ok s ∧ (s.head? = some '-' ↔ v < 0) ∧
      s.count '-' = if v < 0 then 1 else 0 := by
  have fin : ∀ w : Str, w ≠ [] → '-' ∉ w → ((sign v ++ w).head? = some '-' ↔ v < 0) ∧
      (sign v ++ w).count '-' = if v < 0 then 1 else 0 := by
    intro w hne hw
    rw [List.count_append, sign_count, List.count_eq_zero_of_not_mem hw]
    refine ⟨?_, by simp⟩
    unfold sign
    by_cases hv : v < 0
    · simp [hv]
    · cases w with
      | nil => exact absurd rfl hne
      | cons c w =>
        simp only [hv, if_false, List.nil_append, List.head?_cons, Option.some.injEq, iff_false]
        rintro rfl
        exact hw (by simp)
  by_cases hf : args.fractional = true
  · refine ⟨ratDisplay v, by unfold displayResult; simp [hf], ?_⟩
    have hdig : ∀ n, '-' ∉ natToStr 10 n := fun n =>
      digits_no_char (natToStr_digits (by omega) (by omega) n) minus_not_digit
    have hnum : v.num < 0 ↔ v < 0 := Rat.num_neg
    unfold ratDisplay intDisplay
    have hden : ¬ ((v.den : Int) < 0) := by omega
    simp only [hnum, hden, if_false, List.nil_append]
    split
    · exact fin _ (natToStr_ne_nil _ _) (hdig _)
    · rw [List.append_assoc]
      refine fin _ (by simp) ?_
      simp only [List.mem_append, List.mem_cons, not_or]
      exact ⟨hdig _, by decide, hdig _⟩
  · have hf : args.fractional = false := by simpa using hf
    refine ⟨_, displayResult_eq hf h2 hr v, ?_⟩
    obtain ⟨I, F, hne, hI, hF, ht, -, -⟩ :=
      shownText_parts h2 (by omega : outputRadix args ≤ 36) v args.precision args.upper
    rw [ht, List.append_assoc]
    have hIc := not_mem_of_digits hI minus_not_digit
    have hFc := not_mem_of_digits hF minus_not_digit
    obtain ⟨g, gs, h1, h3, -, -, h5⟩ := withCommas_spec I hne
    apply fin
    · intro h
      rw [List.append_eq_nil_iff] at h
      have := h.1
      split at this
      · rw [h1, intercalate_cons, List.append_eq_nil_iff] at this
        rw [this.1] at h3; simp at h3
      · exact hne this
    · rw [List.mem_append, not_or]
      constructor
      · split
        · intro hm
          have : '-' ∈ (withCommas I).filter (· ≠ ',') := List.mem_filter.2 ⟨hm, by decide⟩
          rw [filter_withCommas hne (not_mem_of_digits hI comma_not_digit)] at this
          exact hIc this
        · exact hIc
      · split
        · simp
        · simp [hFc]

/-- A negative value that rounds to zero keeps its sign. -/
example : displayResult .default (-5 / 2) = .ok "-2.5".toList ∧
    displayResult .default (-1 / 10000000) = .ok "-0.00000".toList ∧
    displayResult { Args.default with fractional := true } (-5 / 2) = .ok "-5/2".toList := by
  decide +kernel

/-! ## C36 Fractional display is exact -/

/-- In fractional mode the text is the sign and the numerator of the value in lowest terms, followed,
unless the value is an integer, by '/' and the denominator, both as base ten numerals. -/
theorem C36_fraction (args : Args) (hf : args.fractional = true) (v : Rat) :
    ∃ a b : Nat, Nat.Coprime a b ∧ |v| = (a : Rat) / b ∧
      ((b = 1 ∧ ∃ w, displayResult args v = .ok (sign v ++ w) ∧ Numeral 10 w a) ∨
       (1 < b ∧ ∃ w w', displayResult args v = .ok (sign v ++ w ++ '/' :: w') ∧ Numeral 10 w a ∧
          Numeral 10 w' b)) := by
  have hnum : v.num < 0 ↔ v < 0 := Rat.num_neg
  have hn : ∀ n : Nat, Numeral 10 (natToStr 10 n) n := by
    intro n
    have h := natToStr_digits (radix := 10) (by omega) (by omega) n
    have := Numeral.whole (radix := 10) (w := natToStr 10 n)
      (by rw [noUnderscores_digits h]; exact h) (natDigits_ne_nil _ _)
    rwa [value_natDigits] at this
  refine ⟨v.num.natAbs, v.den, v.reduced, ?_, ?_⟩
  · conv_lhs => rw [← Rat.num_div_den v]
    rw [abs_div, abs_of_nonneg (by positivity : (0 : Rat) ≤ v.den)]
    congr 1
    rw [← Int.cast_abs, Int.abs_eq_natAbs]
    rfl
  · have hden : ¬ ((v.den : Int) < 0) := by omega
    have hd : displayResult args v = .ok (ratDisplay v) := by unfold displayResult; simp [hf]
    rw [hd]
    unfold ratDisplay intDisplay sign
    simp only [hnum, hden, if_false, List.nil_append, Int.natAbs_natCast]
    by_cases h1 : v.den = 1
    · left
      exact ⟨h1, natToStr 10 v.num.natAbs, by rw [if_pos h1], hn _⟩
    · right
      have := v.den_pos
      exact ⟨by omega, natToStr 10 v.num.natAbs, natToStr 10 v.den, by rw [if_neg h1], hn _, hn _⟩

/-- Two different values are never displayed alike in fractional mode. -/
theorem C36_injective (args : Args) (hf : args.fractional = true) (v v' : Rat)
    (h : displayResult args v = displayResult args v') : v = v' := by
  unfold displayResult at h
  simp only [hf, if_true, Outcome.ok.injEq] at h
  have hslash : ∀ n : Int, '/' ∉ intDisplay n := by
    intro n
    unfold intDisplay
    rw [List.mem_append, not_or]
    refine ⟨by split <;> simp, digits_no_char (natToStr_digits (by omega) (by omega) _)
      (not_digit_char (by decide))⟩
  have hinj : ∀ a b : Int, intDisplay a = intDisplay b → a = b := by
    intro a b hab
    have ha := parseBigInt_intDisplay (ε := Unit) a
    have hb := parseBigInt_intDisplay (ε := Unit) b
    rw [hab, hb] at ha
    simpa using ha.symm
  have hsplit : ∀ {a b c d : Str}, '/' ∉ a → '/' ∉ c → a ++ '/' :: b = c ++ '/' :: d →
      a = c ∧ b = d := by
    intro a
    induction a with
    | nil =>
      intro b c d _ hc h
      cases c with
      | nil => simpa using h
      | cons x c => simp at h; exact absurd h.1 (by rintro rfl; simp at hc)
    | cons x a ih =>
      intro b c d ha hc h
      cases c with
      | nil => simp at h; exact absurd h.1 (by rintro rfl; simp at ha)
      | cons y c =>
        simp only [List.cons_append, List.cons.injEq] at h
        have := ih (by simp at ha; exact ha.2) (by simp at hc; exact hc.2) h.2
        rw [h.1, this.1]
        exact ⟨rfl, this.2⟩
  unfold ratDisplay at h
  apply Rat.ext
  · split at h <;> split at h
    · exact hinj _ _ h
    · exact absurd (h ▸ hslash v.num) (by simp)
    · exact absurd (h.symm ▸ hslash v'.num) (by simp)
    · exact hinj _ _ (hsplit (hslash _) (hslash _) h).1
  · split at h <;> split at h
    · rename_i a b; rw [a, b]
    · exact absurd (h ▸ hslash v.num) (by simp)
    · exact absurd (h.symm ▸ hslash v'.num) (by simp)
    · exact_mod_cast hinj _ _ (hsplit (hslash _) (hslash _) h).2

/-- Fractional mode ignores the output radix: 255 with the output radix 16 is shown in base ten. -/
theorem C36_violation_radix :
    oneShot (exMachine true) { Args.default with fractional := true, convertToRadix := some 16 }
      "255".toList = .ok (.result "255".toList) ∧
    oneShot (exMachine true) { Args.default with convertToRadix := some 16 }
      "255".toList = .ok (.result "ff".toList) := by decide +kernel

example : displayResult { Args.default with fractional := true } (-6 / 4) = .ok "-3/2".toList ∧
    displayResult { Args.default with fractional := true } 12 = .ok "12".toList := by
  decide +kernel

/-! ## C37 Display always succeeds -/

/-- In the output radices 2 to 16, and in fractional mode, every number can be displayed. -/
theorem C37_displays (args : Args)
    (h : args.fractional = true ∨ (2 ≤ outputRadix args ∧ outputRadix args ≤ 16)) (v : Rat) :
    ∃ s, displayResult args v = .ok s ∧ s ≠ [] := by
  by_cases hf : args.fractional = true
  · refine ⟨ratDisplay v, by unfold displayResult; simp [hf], ?_⟩
    unfold ratDisplay intDisplay
    split
    · simp [natToStr_ne_nil]
    · simp
  · have hf : args.fractional = false := by simpa using hf
    obtain ⟨h2, hr⟩ := h.resolve_left (by simp [hf])
    refine ⟨_, displayResult_eq hf h2 hr v, ?_⟩
    intro h0
    obtain ⟨w, hw, hn⟩ := shown_numeral h2 (by omega : outputRadix args ≤ 36) v args.precision args.upper
    have h1 := (shownText_noCommas h2 (by omega : outputRadix args ≤ 36) v args.precision args.commas
      args.upper).1
    rw [h0, hw] at h1
    have : w = [] := by
      have : ([] : Str) = (if v < 0 then ['-'] else []) ++ w := h1
      exact (List.append_eq_nil_iff.1 this.symm).2
    exact numeral_ne_nil hn this

/-- The command line accepts the output radix 1, with which every display panics. -/
theorem C37_violation_radix_one :
    Args.CliValid { Args.default with convertToRadix := some 1 } ∧
    ∀ v, displayResult { Args.default with convertToRadix := some 1 } v = .panic .radixAssertion := by
  constructor
  · refine ⟨by decide, by decide, ?_, by decide, by decide⟩
    rintro r h; cases h; omega
  · intro v
    unfold displayResult makeDecimalString
    simp [Args.default, intToStrRadix]

/-- The output radix 1 is the only one accepted on the command line that does not work. -/
theorem C37_only_one (args : Args) (h : args.CliValid) (h1 : args.convertToRadix ≠ some 1)
    (v : Rat) : ∃ s, displayResult args v = .ok s := by
  obtain ⟨s, hs, _⟩ := C37_displays args (.inr (by
    unfold outputRadix
    cases hc : args.convertToRadix with
    | none => exact ⟨h.1, h.2.1⟩
    | some r =>
      have := h.2.2.1 r hc
      have : r ≠ 1 := by rintro rfl; exact h1 hc
      simp only; omega)) v
  exact ⟨s, hs⟩

example : displayResult { Args.default with convertToRadix := some 2 } (255 / 2) =
    .ok "1111111.1".toList := by decide +kernel

end Bcalc
