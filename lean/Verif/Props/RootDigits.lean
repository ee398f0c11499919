import Verif.Proof.Near
import Verif.Proof.Identities
import Verif.Props.Answer

/-! # How many printed digits are right (C89) -/

namespace Bcalc
open Spec

/-! ## C89 Printed digits are right, roots included -/

theorem askedTolerance_pos {args : Args} (h : 2 ≤ args.radix) : 0 < askedTolerance args := by
  unfold askedTolerance
  have : (0 : Rat) < args.radix := by exact_mod_cast (by omega : 0 < args.radix)
  positivity

theorem sign_mul {v : Rat} {w text : Str} (h : text = sign v ++ w) (u : Rat) :
    ∃ q : Rat, ((text = w ∧ q = u) ∨ (text = '-' :: w ∧ q = -u)) ∧ |q - v| = |u - abs v| := by
  unfold sign at h
  by_cases hv : v < 0
  · rw [if_pos hv] at h
    refine ⟨-u, .inr ⟨h, rfl⟩, ?_⟩
    rw [abs_of_neg hv, ← abs_neg]
    congr 1
    ring
  · rw [if_neg hv] at h
    refine ⟨u, .inl ⟨h, rfl⟩, ?_⟩
    rw [abs_of_nonneg (not_lt.1 hv)]

/-- A text that displays a value: the number it prints is within half a unit in the last place. -/
theorem displays_near {args : Args} {v : Rat} {text : Str} (hf : args.fractional = false) (h : Displays args v text) :
    ∃ q : Rat, Prints (outputRadix args) text q ∧
      (∃ k : Int, q = (k : Rat) / (outputRadix args : Rat) ^ args.precision) ∧
      |(q : ℝ) - v| ≤ lastPlace args / 2 := by
  unfold Displays at h
  rw [if_neg (by simp [hf])] at h
  obtain ⟨w, u, hw, hn, ⟨k, hk⟩, h1, h2⟩ := h
  obtain ⟨q, hq, hd⟩ := sign_mul hw u
  refine ⟨q, ⟨w, u, hn, hq⟩, ?_, ?_⟩
  · rcases hq with ⟨_, rfl⟩ | ⟨_, rfl⟩
    · exact ⟨k, by rw [hk]; simp⟩
    · exact ⟨-k, by rw [hk]; push_cast; ring⟩
  · have h3 : |q - v| ≤ 1 / 2 * (1 / (outputRadix args : Rat) ^ args.precision) := by
      rw [hd, abs_le]; constructor <;> linarith
    have h4 : |(q : ℝ) - v| ≤ ((1 / 2 * (1 / (outputRadix args : Rat) ^ args.precision) : Rat) : ℝ) := by
      rw [← Rat.cast_sub, ← Rat.cast_abs]
      exact_mod_cast h3
    refine le_trans h4 (le_of_eq ?_)
    unfold lastPlace
    push_cast
    ring

/-- A text that displays a value as a fraction prints that value. -/
theorem displays_fraction {args : Args} {v : Rat} {text : Str} (hf : args.fractional = true) (h : Displays args v text) :
    PrintsFraction text v := by
  unfold Displays at h
  rw [if_pos hf] at h
  obtain ⟨a, b, _, hab, h⟩ := h
  have key : ∀ t, text = sign v ++ t → (text = t ∧ v = (a : Rat) / b) ∨ (text = '-' :: t ∧ v = -((a : Rat) / b)) := by
    intro t ht
    unfold sign at ht
    by_cases hv : v < 0
    · rw [if_pos hv] at ht; rw [abs_of_neg hv] at hab
      exact .inr ⟨ht, by rw [← hab]; ring⟩
    · rw [if_neg hv] at ht; rw [abs_of_nonneg (not_lt.1 hv)] at hab
      exact .inl ⟨ht, hab⟩
  rcases h with ⟨rfl, w, ht, hw⟩ | ⟨hb, w, w', ht, hw, hw'⟩
  · exact ⟨a, 1, w, by decide, key w ht, .inl ⟨rfl, hw⟩⟩
  · exact ⟨a, b, w ++ '/' :: w', by omega, key _ (by rw [ht]; simp), .inr ⟨w, w', rfl, hw, hw'⟩⟩

/-- What is known of the answer to a line whose expression has a real value up to an error. -/
theorem answer_near {args : Args} (hv : ValidSettings args) {ρ : Valuation} {line text : Str} (ha : Ascii line)
    (hc : ¬ CommandLine line) (h : Answer args ρ line text) {ts : List PTok} {target : Option (Positioned Str)} {n : Node}
    (hl : Lexes args.radix 0 line ts) (hi : Input ts target n) {x δ : ℝ} (hn : Near (askedTolerance args : ℝ) ρ n x δ) :
    (args.fractional = false → ∃ q : Rat, Prints (outputRadix args) text q ∧
      (∃ k : Int, q = (k : Rat) / (outputRadix args : Rat) ^ args.precision) ∧
      |(q : ℝ) - x| ≤ lastPlace args / 2 + δ) ∧
    (args.fractional = true → ∃ q : Rat, PrintsFraction text q ∧ |(q : ℝ) - x| ≤ δ) := by
  obtain ⟨v, hval, hd⟩ : ∃ v, Value (askedTolerance args) ρ n v ∧ Displays args v text := by
    cases h with
    | blank hb =>
      exfalso
      have h1 : ∀ (l : Str) (p : Nat), (∀ c ∈ l, Blank c) → Lexes args.radix p l [] := by
        intro l
        induction l with
        | nil => intro p _; exact .done
        | cons c l ih => intro p hb; exact .blank (hb c (by simp)) (ih _ fun c hc => hb c (by simp [hc]))
      have e1 := tokenize_of_lexes hv.radix.1 hv.radix.2 ha hc hl
      rw [tokenize_of_lexes hv.radix.1 hv.radix.2 ha hc (h1 line 0 hb)] at e1
      cases e1
      exact input_nonempty hi rfl
    | value hl' hi' hval hd =>
      obtain ⟨_, _, rfl⟩ := C72_one_reading args.radix hv.radix.1 hv.radix.2 line ha hc _ _ _ _ _ _ hl hl' hi hi'
      exact ⟨_, hval, hd⟩
  have hnear := value_near (askedTolerance_pos hv.radix.1) hn hval
  refine ⟨fun hf => ?_, fun hf => ⟨v, displays_fraction hf hd, hnear⟩⟩
  obtain ⟨q, h1, h2, h3⟩ := displays_near hf hd
  refine ⟨q, h1, h2, ?_⟩
  have := abs_sub_le (q : ℝ) v x
  linarith

/-- In a session: if the line reads as an expression (or the assignment of one) to which mathematics assigns the
real number `x`, with an error of at most `δ`, then the number that is printed is a multiple of the last place
and differs from `x` by at most half a unit in the last place and `δ`; printed as a fraction, by at most `δ`. -/
theorem C89_printed (m : Machine) (ce : CommandExecutor) (line : Str) (s : Session) (ρ : Valuation)
    (h : Ready s line) (hv : ValidSettings s.args) (hp : s.args.precision + s.args.extraPrecision ≤ 254)
    (ha : Ascii line) (hc : ¬ CommandLine line) (hρ : SeenBy s line ρ)
    (ts : List PTok) (target : Option (Positioned Str)) (n : Node)
    (hl : Lexes s.args.radix 0 line ts) (hi : Input ts target n)
    (x δ : ℝ) (hn : Near (askedTolerance s.args : ℝ) ρ n x δ)
    (text : Str) (ht : (calculate m ce line s).1 = .ok text) :
    (s.args.fractional = false → ∃ q : Rat, Prints (outputRadix s.args) text q ∧
      (∃ k : Int, q = (k : Rat) / (outputRadix s.args : Rat) ^ s.args.precision) ∧
      |(q : ℝ) - x| ≤ lastPlace s.args / 2 + δ) ∧
    (s.args.fractional = true → ∃ q : Rat, PrintsFraction text q ∧ |(q : ℝ) - x| ≤ δ) :=
  answer_near hv ha hc ((C73_justified m ce line s ρ h hv hp hc hρ).1 text ht) hl hi hn

/-- The same in one-shot mode, without variables. -/
theorem C89_one_shot (m : Machine) (args : Args) (line : Str) (hv : ValidSettings args)
    (hp : args.precision + args.extraPrecision ≤ 254) (ha : Ascii line) (hc : ¬ CommandLine line)
    (ts : List PTok) (target : Option (Positioned Str)) (n : Node)
    (hl : Lexes args.radix 0 line ts) (hi : Input ts target n)
    (x δ : ℝ) (hn : Near (askedTolerance args : ℝ) (fun _ => none) n x δ)
    (text : Str) (ht : oneShot m args line = .ok (.result text)) :
    (args.fractional = false → ∃ q : Rat, Prints (outputRadix args) text q ∧
      (∃ k : Int, q = (k : Rat) / (outputRadix args : Rat) ^ args.precision) ∧
      |(q : ℝ) - x| ≤ lastPlace args / 2 + δ) ∧
    (args.fractional = true → ∃ q : Rat, PrintsFraction text q ∧ |(q : ℝ) - x| ≤ δ) :=
  answer_near hv ha hc (C72_one_shot m args hv hp line hc text ht) hl hi hn

theorem lexes_sqrt {radix : Nat} {w : Str} {a : Rat} (hw : Numeral radix w a) :
    Lexes radix 0 ("sqrt ".toList ++ w) [⟨.unary .squareRoot, ⟨0, 4⟩⟩, ⟨.number a, ⟨5, w.length⟩⟩] := by
  have h1 : Lexes radix 4 (' ' :: w) [⟨.number a, ⟨5, w.length⟩⟩] :=
    .blank (by unfold Blank; decide) (lexes_numeral hw)
  have := Lexes.word (radix := radix) (pos := 0) (w := "sqrt".toList) (rest := ' ' :: w) (by decide)
    (wordChars (by decide)) (by rintro c cs e ⟨hb, _⟩; cases e; exact hb (by unfold Blank; decide)) .sqrt h1
  exact this

theorem sqrt_plain {w : Str} : ¬ CommandLine ("sqrt ".toList ++ w) := by
  rintro ⟨pre, rest, h, hp⟩
  cases pre with
  | nil => simp at h
  | cons c pre =>
    have h1 : c = 's' := by simp at h; exact h.1.symm
    rcases hp c List.mem_cons_self with h | h
    · rw [h1] at h; unfold Blank at h; revert h; decide
    · rw [h1] at h; revert h; decide

/-- `sqrt` of a numeral, printed in the input radix or in a smaller one: the printed number is at most one unit in
the last place away from the square root.  (With extra digits it is hardly more than half a unit.) -/
theorem C89_square_root (m : Machine) (args : Args) (hv : ValidSettings args)
    (hp : args.precision + args.extraPrecision ≤ 254) (hf : args.fractional = false)
    (hR : outputRadix args ≤ args.radix) (w : Str) (a : Rat) (hw : Numeral args.radix w a)
    (text : Str) (ht : oneShot m args ("sqrt ".toList ++ w) = .ok (.result text)) :
    ∃ q : Rat, Prints (outputRadix args) text q ∧
      |(q : ℝ) - Real.sqrt a| ≤ lastPlace args * (1 / 2 + 1 / (args.radix : ℝ) ^ (args.extraPrecision + 1)) ∧
      |(q : ℝ) - Real.sqrt a| ≤ lastPlace args := by
  have ha : Ascii ("sqrt ".toList ++ w) := by
    intro c hc
    rcases List.mem_append.1 hc with h | h
    · clear hc; revert c; decide
    · exact numeral_ascii hw c h
  have hR2 : 2 ≤ outputRadix args := by
    unfold outputRadix
    cases hc : args.convertToRadix with
    | none => exact hv.radix.1
    | some r => exact (hv.output r hc).1
  have hin : Input [⟨.unary .squareRoot, ⟨0, 4⟩⟩, ⟨.number a, ⟨5, w.length⟩⟩] none
      (.unary .squareRoot ⟨0, 4⟩ (.number a ⟨5, w.length⟩)) :=
    .expression (.lift (.lift (.lift (.lift (.signed (.atom (.unary (.atom .number))))))))
  have ha0 : (0 : ℝ) ≤ a := by exact_mod_cast numeral_nonneg hw
  have h0 : (0 : ℝ) < askedTolerance args := by exact_mod_cast askedTolerance_pos hv.radix.1
  have hn : Near (askedTolerance args : ℝ) (fun _ => none) (.unary .squareRoot ⟨0, 4⟩ (.number a ⟨5, w.length⟩))
      (Real.sqrt a) (askedTolerance args : ℝ) := by
    rcases eq_or_lt_of_le ha0 with h | h
    · have e : Real.sqrt a = ((0 : Nat) : ℝ) := by rw [← h]; simp
      rw [e]
      refine .more (.square ?_) h0.le
      have := Near.number (ε := (askedTolerance args : ℝ)) (ρ := fun _ => none) (v := a) (p := ⟨5, w.length⟩)
      rw [← h] at this
      simpa using this
    · exact .more (.sqrt .number (Real.sqrt_pos.2 h) (Real.mul_self_sqrt ha0)) (by simp)
  obtain ⟨q, h1, _, h2⟩ := (C89_one_shot m args _ hv hp ha sqrt_plain _ _ _ (lexes_sqrt hw) hin _ _ hn text ht).1 hf
  have hr : (2 : ℝ) ≤ args.radix := by exact_mod_cast hv.radix.1
  have hRr : (outputRadix args : ℝ) ≤ args.radix := by exact_mod_cast hR
  have hR0 : (0 : ℝ) < outputRadix args := by exact_mod_cast (by omega : 0 < outputRadix args)
  have hle : (askedTolerance args : ℝ) ≤ lastPlace args * (1 / (args.radix : ℝ) ^ (args.extraPrecision + 1)) := by
    unfold askedTolerance lastPlace
    push_cast
    rw [div_mul_div_comm, one_mul, add_assoc, pow_add]
    gcongr
  have hlast : 0 < lastPlace args := by unfold lastPlace; positivity
  have hhalf : 1 / (args.radix : ℝ) ^ (args.extraPrecision + 1) ≤ 1 / 2 := by
    apply one_div_le_one_div_of_le (by norm_num)
    calc (2 : ℝ) ≤ args.radix := hr
      _ = (args.radix : ℝ) ^ 1 := (pow_one _).symm
      _ ≤ (args.radix : ℝ) ^ (args.extraPrecision + 1) := pow_le_pow_right₀ (by linarith) (by omega)
  have h3 : |(q : ℝ) - Real.sqrt a| ≤
      lastPlace args * (1 / 2 + 1 / (args.radix : ℝ) ^ (args.extraPrecision + 1)) := by
    rw [mul_add]; linarith
  refine ⟨q, h1, h3, le_trans h3 ?_⟩
  have : lastPlace args * (1 / 2 + 1 / (args.radix : ℝ) ^ (args.extraPrecision + 1)) ≤ lastPlace args * 1 := by
    gcongr
    linarith
  linarith

/-- `sqrt 2` with the usual settings. -/
example : oneShot (exMachine true) .default "sqrt 2".toList = .ok (.result "1.41421".toList) ∧
    Numeral 10 "2".toList 2 ∧ outputRadix .default ≤ Args.default.radix :=
  ⟨by decide +kernel, .whole (w := "2".toList) (ds := [2]) (by unfold Digits DigitChar; decide) (by decide), by decide⟩

/-- The words of `3*sqrt 2+2^(1/3)`. -/
def exRootsTokens : List PTok :=
  [⟨.number 3, ⟨0, 1⟩⟩, ⟨.binary .multiply, ⟨1, 1⟩⟩, ⟨.unary .squareRoot, ⟨2, 4⟩⟩, ⟨.number 2, ⟨7, 1⟩⟩,
   ⟨.binary .add, ⟨8, 1⟩⟩, ⟨.number 2, ⟨9, 1⟩⟩, ⟨.binary .exponent, ⟨10, 1⟩⟩, ⟨.openParen, ⟨11, 1⟩⟩,
   ⟨.number 1, ⟨12, 1⟩⟩, ⟨.binary .divide, ⟨13, 1⟩⟩, ⟨.number 3, ⟨14, 1⟩⟩, ⟨.closeParen, ⟨15, 1⟩⟩]

/-- The expression `3*sqrt 2+2^(1/3)`. -/
def exRootsNode : Node :=
  .binary .add ⟨8, 1⟩ (.binary .multiply ⟨1, 1⟩ (.number 3 ⟨0, 1⟩) (.unary .squareRoot ⟨2, 4⟩ (.number 2 ⟨7, 1⟩)))
    (.binary .exponent ⟨10, 1⟩ (.number 2 ⟨9, 1⟩)
      (.paren ⟨11, 1⟩ ⟨15, 1⟩ (.binary .divide ⟨13, 1⟩ (.number 1 ⟨12, 1⟩) (.number 3 ⟨14, 1⟩))))

/-- Errors add up: `3*sqrt 2+2^(1/3)` is off by at most four times the tolerance. -/
theorem exRoots_near (ξ : ℝ) (h : ξ ^ 3 = 2) (h0 : 0 ≤ ξ) :
    Near (askedTolerance .default : ℝ) (fun _ => none) exRootsNode (3 * Real.sqrt 2 + ξ)
      (4 * (askedTolerance .default : ℝ)) := by
  have num : ∀ (v : Rat) (p : Position), Near (askedTolerance .default : ℝ) (fun _ => none) (.number v p) (v : ℝ) 0 :=
    fun v p => .number
  have h1 := num 2 ⟨7, 1⟩
  have h2 := Near.sqrt (p := ⟨2, 4⟩) (ξ := Real.sqrt 2) h1 (Real.sqrt_pos.2 two_pos) (by
    rw [Real.mul_self_sqrt two_pos.le]; norm_num)
  have h3 := Near.multiply (p := ⟨1, 1⟩) (num 3 ⟨0, 1⟩) h2
  have h4 := Near.divide (p := ⟨13, 1⟩) (num 1 ⟨12, 1⟩) (num 3 ⟨14, 1⟩) (by norm_num)
  have h5 : Near (askedTolerance .default : ℝ) (fun _ => none)
      (.paren ⟨11, 1⟩ ⟨15, 1⟩ (.binary .divide ⟨13, 1⟩ (.number 1 ⟨12, 1⟩) (.number 3 ⟨14, 1⟩)))
      (((1 : Rat) / 3 : Rat) : ℝ) 0 := by
    have e : (((1 : Rat) / 3 : Rat) : ℝ) = ((1 : Rat) : ℝ) / ((3 : Rat) : ℝ) := by push_cast; rfl
    rw [e]
    exact .more (.paren h4) (by simp)
  have hd : ((1 : Rat) / 3).den = 3 ∧ (2 : Rat) ^ ((1 : Rat) / 3).num = 2 := by decide +kernel
  have h6 := Near.root (p := ⟨10, 1⟩) (num 2 ⟨9, 1⟩) h5 (.inl (by decide)) (ξ := ξ)
    ⟨by rw [hd.1, hd.2, h]; norm_num, fun _ => h0⟩ (by
      rw [hd.1]
      unfold askedTolerance
      norm_num [Args.default])
  have h7 := h3.add (p := ⟨8, 1⟩) h6
  rw [show ((3 : Rat) : ℝ) = 3 by norm_num] at h7
  refine .more h7 ?_
  simp
  linarith

theorem exRoots_reads : Input exRootsTokens none exRootsNode := by
  have at0 : ∀ {k ts n}, Expr 0 ts n → Expr k ts n := by
    intro k ts n h
    induction k with
    | zero => exact h
    | succ k ih => exact .lift ih
  have num : ∀ k v p, Expr k [⟨.number v, p⟩] (.number v p) := fun k v p => at0 (.signed (.atom .number))
  have h1 : Expr 3 [⟨.number 3, ⟨0, 1⟩⟩, ⟨.binary .multiply, ⟨1, 1⟩⟩, ⟨.unary .squareRoot, ⟨2, 4⟩⟩, ⟨.number 2, ⟨7, 1⟩⟩] _ :=
    .op (o := .multiply) (num _ 3 ⟨0, 1⟩) rfl (at0 (.signed (.atom (.unary (.atom .number)))))
  have h2 : Expr 4 [⟨.number 1, ⟨12, 1⟩⟩, ⟨.binary .divide, ⟨13, 1⟩⟩, ⟨.number 3, ⟨14, 1⟩⟩] _ :=
    .lift (.op (o := .divide) (num _ 1 ⟨12, 1⟩) rfl (num _ 3 ⟨14, 1⟩))
  have h3 := Expr.op (o := .exponent) (p := ⟨10, 1⟩) (num 1 2 ⟨9, 1⟩) rfl
    (.signed (.atom (.paren (p := ⟨11, 1⟩) (q := ⟨15, 1⟩) h2)))
  exact .expression (.op (o := .add) (p := ⟨8, 1⟩) (.lift h1) rfl (.lift (.lift h3)))

/-- It meets the hypotheses. -/
example : Lexes Args.default.radix 0 "3*sqrt 2+2^(1/3)".toList exRootsTokens ∧ Input exRootsTokens none exRootsNode ∧
    oneShot (exMachine true) .default "3*sqrt 2+2^(1/3)".toList = .ok (.result "5.50256".toList) ∧
    ¬ CommandLine "3*sqrt 2+2^(1/3)".toList :=
  ⟨((C01_tokens_iff 10 (by decide) (by decide) _ _).1 (by decide +kernel)).2.2,
    exRoots_reads, by decide +kernel,
    ((C01_tokens_iff 10 (by decide) (by decide) "3*sqrt 2+2^(1/3)".toList exRootsTokens).1 (by decide +kernel)).2.1⟩

/-- The same line in a session. -/
example : Ready (exPlain "3*sqrt 2+2^(1/3)") "3*sqrt 2+2^(1/3)".toList ∧
    (calculate (exMachine true) table "3*sqrt 2+2^(1/3)".toList (exPlain "3*sqrt 2+2^(1/3)")).1 = .ok "5.50256".toList :=
  ⟨exPlain_ready _, by decide +kernel⟩

/-- In a larger output radix the last digits may be wrong: with input radix 2 (and twenty places, all else as
usual), `sqrt 101` (the root of five) in hexadecimal is printed with the last five digits wrong:
it is off by more than 46000 units in the last place. -/
theorem C89_violation :
    oneShot (exMachine true) { Args.default with radix := 2, convertToRadix := some 16, precision := 20 }
      "sqrt 101".toList = .ok (.result "2.3c6ef372fe94f82c9dfa".toList) ∧
    ∃ q : Rat, Prints 16 "2.3c6ef372fe94f82c9dfa".toList q ∧ 46000 / (16 : ℝ) ^ 20 < |(q : ℝ) - Real.sqrt 5| := by
  refine ⟨by decide +kernel, _, ⟨"2.3c6ef372fe94f82c9dfa".toList, _, .point (intPart := ['2'])
    (fracPart := "3c6ef372fe94f82c9dfa".toList) (by decide) (ds := [2, 3, 12, 6, 14, 15, 3, 7, 2, 15, 14, 9, 4, 15, 8, 2, 12, 9, 13, 15, 10])
    (by unfold Digits DigitChar; decide) (by decide), .inl ⟨by decide, rfl⟩⟩, ?_⟩
  have hv : (value 16 [2, 3, 12, 6, 14, 15, 3, 7, 2, 15, 14, 9, 4, 15, 8, 2, 12, 9, 13, 15, 10] : Rat) /
      (16 : Nat) ^ "3c6ef372fe94f82c9dfa".toList.length = 2703240312412959446703610 / 16 ^ 20 := by
    decide +kernel
  rw [hv]
  have hlt : Real.sqrt 5 < (2703240312412959446703610 - 46000) / 16 ^ 20 := by
    rw [Real.sqrt_lt' (by norm_num)]
    norm_num
  push_cast
  refine lt_of_lt_of_le ?_ (le_abs_self _)
  have e : ((2703240312412959446703610 : ℝ) - 46000) / 16 ^ 20 = 2703240312412959446703610 / 16 ^ 20 - 46000 / 16 ^ 20 := by ring
  linarith

end Bcalc
