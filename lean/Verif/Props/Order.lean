import Verif.Proof.Strict
import Verif.Props.RootDigits

/-! # Roots that are no integers (C24), and the order of printed numbers (C93) -/

namespace Bcalc
open Spec

/-! ## C24 Only perfect powers have exact roots -/

theorem power_part {m : Machine} {args : Args} {p : Position} {a b v : Rat} (h2 : 2 ≤ args.radix)
    (h : (u8Add m args.precision args.extraPrecision >>= fun totalPrecision =>
      liftMath p (exponentiate m a b totalPrecision args.radix)) = .ok v) :
    ∃ f ε, rootPart f (a ^ b.num) b.den ε = .ok v := by
  cases hu : (u8Add m args.precision args.extraPrecision : Outcome Failure Nat) with
  | ok c =>
    rw [hu] at h
    simp only [Outcome.bind_ok] at h
    rcases exponentiate_cases m a b c args.radix h2 with ⟨_, _, hx⟩ | ⟨_, _, _, hx⟩ | ⟨_, _, hx⟩
    · rw [hx] at h; simp [liftMath, Outcome.mapErr] at h
    · rw [hx] at h; simp [liftMath, Outcome.mapErr] at h
    · refine ⟨m.fuel, tolerance args.radix ((c + 1) % 256), ?_⟩
      rw [hx] at h
      cases hr : rootPart m.fuel (a ^ b.num) b.den (tolerance args.radix ((c + 1) % 256)) with
      | ok w => rw [hr] at h; simpa [liftMath, Outcome.mapErr] using h
      | _ => rw [hr] at h; simp [liftMath, Outcome.mapErr] at h
  | _ => rw [hu] at h; simp at h

/-- A root (a power whose exponent is no integer) that is computed exactly is an integer: the exact value of a
root such as `sqrt 2.25` is never returned. -/
theorem C24_only_whole (m : Machine) (args : Args) (h2 : 2 ≤ args.radix)
    (p : Position) (n n' : Node) (env env1 env2 env3 : Env) (b e v : Rat)
    (h : n.execute m args env = (.ok b, env1)) (h' : n'.execute m args env1 = (.ok e, env2))
    (hv : (Node.binary .exponent p n n').execute m args env = (.ok v, env3))
    (he : e.den ≠ 1) (hx : v ^ e.den = b ^ e.num) : ∃ k : Int, v = k := by
  rw [executePower h h'] at hv
  obtain ⟨f, ε, hr⟩ := power_part h2 (Prod.mk.inj hv).1
  have hd : 2 ≤ e.den := by have := e.den_pos; omega
  rcases rootPart_strict hd hr with ⟨k, hk, _⟩ | hlt
  · exact ⟨k, hk⟩
  · rw [← hx, abs_pow] at hlt
    exact absurd hlt (lt_irrefl _)

/-- Every other root is returned strictly too large in magnitude. -/
theorem C24_too_large (m : Machine) (args : Args) (h2 : 2 ≤ args.radix)
    (p : Position) (n n' : Node) (env env1 env2 env3 : Env) (b e v : Rat)
    (h : n.execute m args env = (.ok b, env1)) (h' : n'.execute m args env1 = (.ok e, env2))
    (hv : (Node.binary .exponent p n n').execute m args env = (.ok v, env3))
    (he : e.den ≠ 1) (hw : ∀ k : Int, (k : Rat) ^ e.den ≠ b ^ e.num) : |b ^ e.num| < |v| ^ e.den := by
  rw [executePower h h'] at hv
  obtain ⟨f, ε, hr⟩ := power_part h2 (Prod.mk.inj hv).1
  have hd : 2 ≤ e.den := by have := e.den_pos; omega
  rcases rootPart_strict hd hr with ⟨k, _, hk⟩ | hlt
  · exact absurd hk (hw k)
  · exact hlt

/-- The same for `sqrt`: unless the operand is the square of an integer, the square of the result is larger than
the operand. -/
theorem C24_sqrt_too_large (m : Machine) (args : Args) (h2 : 2 ≤ args.radix)
    (p : Position) (n : Node) (env env1 env3 : Env) (b v : Rat)
    (h : n.execute m args env = (.ok b, env1))
    (hv : (Node.unary .squareRoot p n).execute m args env = (.ok v, env3))
    (hw : ∀ k : Int, (k : Rat) * k ≠ b) : b < v * v := by
  rw [executeSqrt h] at hv
  obtain ⟨f, ε, hr⟩ := power_part h2 (Prod.mk.inj hv).1
  rw [half_den, half_num, zpow_one] at hr
  rcases rootPart_strict (by omega) hr with ⟨k, _, hk⟩ | hlt
  · exact absurd (by rw [← hk]; ring) (hw k)
  · rw [sq_abs] at hlt
    calc b ≤ |b| := le_abs_self b
      _ < v ^ 2 := hlt
      _ = v * v := by ring

/-- 1.5 is the square root of 2.25, yet 1.50000 is printed: the digits show that it was not found exactly. -/
theorem C24_violation : oneShot (exMachine true) .default "sqrt 2.25".toList = .ok (.result "1.50000".toList) ∧
    oneShot (exMachine true) .default "1.5".toList = .ok (.result "1.5".toList) ∧ (1.5 : Rat) * 1.5 = 2.25 := by
  refine ⟨by decide +kernel, by decide +kernel, by norm_num⟩

/-- The operand 9/4 is no square of an integer, and its root is computed. -/
example : ((Node.unary .squareRoot ⟨0, 4⟩ (.number (9 / 4) ⟨5, 4⟩)).execute (exMachine true) .default (exEnv [])).1 =
      .ok (271050543121376108501863200217485427856445313 / 180700362080917405667908800144990285237630208) ∧
    ((1 / 2 : Rat).den ≠ 1) ∧ ∀ k : Int, (k : Rat) * k ≠ 9 / 4 := by
  refine ⟨by decide +kernel, by rw [half_den]; decide, fun k h => ?_⟩
  have h1 : (4 * (k * k) : Rat) = 9 := by rw [h]; norm_num
  have h2 : 4 * (k * k) = 9 := by exact_mod_cast h1
  omega

/-! ## C93 Printed numbers keep their order -/

theorem minus_no_wordChar : ¬ WordChar '-' := fun h => h.2 _ .minus

theorem slash_no_wordChar : ¬ WordChar '/' := fun h => h.2 _ .slash

/-- A text prints at most one number. -/
theorem C93_prints_one (radix : Nat) (h2 : 2 ≤ radix) (hr : radix ≤ 16) (text : Str) (q q' : Rat)
    (h : Prints radix text q) (h' : Prints radix text q') : q = q' := by
  obtain ⟨w, u, hn, h⟩ := h
  obtain ⟨w', u', hn', h'⟩ := h'
  have key : ∀ {w w' : Str} {u : Rat}, Numeral radix w u → w = '-' :: w' → False := by
    intro w w' u hn e
    subst e
    exact minus_no_wordChar (numeral_wordChar hn '-' List.mem_cons_self)
  rcases h with ⟨h, rfl⟩ | ⟨h, rfl⟩ <;> rcases h' with ⟨h', rfl⟩ | ⟨h', rfl⟩
  · rw [h] at h'; subst h'; exact numeral_unique h2 hr hn hn'
  · exact (key hn (h.symm.trans h')).elim
  · exact (key hn' (h'.symm.trans h)).elim
  · rw [h] at h'; cases h'; rw [numeral_unique h2 hr hn hn']

theorem split_slash : ∀ {w w' z z' : Str}, (∀ c ∈ w, WordChar c) → (∀ c ∈ w', WordChar c) →
    w ++ '/' :: z = w' ++ '/' :: z' → w = w' ∧ z = z' := by
  intro w
  induction w with
  | nil =>
    intro w' z z' _ hw' e
    cases w' with
    | nil => simpa using e
    | cons c w' =>
      simp only [List.nil_append, List.cons_append, List.cons.injEq] at e
      exact absurd (hw' c List.mem_cons_self) (e.1 ▸ slash_no_wordChar)
  | cons c w ih =>
    intro w' z z' hw hw' e
    cases w' with
    | nil =>
      simp only [List.nil_append, List.cons_append, List.cons.injEq] at e
      exact absurd (hw c List.mem_cons_self) (e.1 ▸ slash_no_wordChar)
    | cons c' w' =>
      simp only [List.cons_append, List.cons.injEq] at e
      obtain ⟨h1, h2⟩ := ih (fun x hx => hw x (by simp [hx])) (fun x hx => hw' x (by simp [hx])) e.2
      exact ⟨by rw [e.1, h1], h2⟩

/-- The text of an unsigned fraction. -/
def FractionText (t : Str) (a b : Nat) : Prop :=
  (b = 1 ∧ Numeral 10 t a) ∨ ∃ w w', t = w ++ '/' :: w' ∧ Numeral 10 w a ∧ Numeral 10 w' b

theorem fractionText_unique {t : Str} {a b a' b' : Nat} (h : FractionText t a b) (h' : FractionText t a' b') :
    a = a' ∧ b = b' := by
  have key : ∀ {w z : Str} {u : Rat}, Numeral 10 (w ++ '/' :: z) u → False := fun hn =>
    slash_no_wordChar (numeral_wordChar hn '/' (by simp))
  have cast : ∀ {w : Str} {a a' : Nat}, Numeral 10 w a → Numeral 10 w a' → a = a' := fun h h' => by
    exact_mod_cast numeral_unique (by decide) (by decide) h h'
  rcases h with ⟨rfl, hn⟩ | ⟨w, z, rfl, hn, hz⟩
  · rcases h' with ⟨rfl, hn'⟩ | ⟨w', z', rfl, hn', hz'⟩
    · exact ⟨cast hn hn', rfl⟩
    · exact (key hn).elim
  · rcases h' with ⟨rfl, hn'⟩ | ⟨w', z', e, hn', hz'⟩
    · exact (key hn').elim
    · obtain ⟨rfl, rfl⟩ := split_slash (numeral_wordChar hn) (numeral_wordChar hn') e
      exact ⟨cast hn hn', cast hz hz'⟩

theorem fractionText_no_minus {t t' : Str} {a b : Nat} (h : FractionText t a b) (e : t = '-' :: t') : False := by
  rcases h with ⟨_, hn⟩ | ⟨w, z, e', hn, _⟩
  · subst e; exact minus_no_wordChar (numeral_wordChar hn '-' List.mem_cons_self)
  · cases w with
    | nil => exact numeral_ne_nil hn rfl
    | cons c w =>
      rw [e] at e'
      simp only [List.cons_append, List.cons.injEq] at e'
      exact minus_no_wordChar (e'.1 ▸ numeral_wordChar hn c List.mem_cons_self)

/-- A text prints at most one fraction. -/
theorem C93_fraction_one (text : Str) (q q' : Rat) (h : PrintsFraction text q) (h' : PrintsFraction text q') :
    q = q' := by
  obtain ⟨a, b, t, _, hq, ht⟩ := h
  obtain ⟨a', b', t', _, hq', ht'⟩ := h'
  change FractionText t a b at ht
  change FractionText t' a' b' at ht'
  rcases hq with ⟨h, rfl⟩ | ⟨h, rfl⟩ <;> rcases hq' with ⟨h', rfl⟩ | ⟨h', rfl⟩
  · rw [h] at h'; subst h'; obtain ⟨rfl, rfl⟩ := fractionText_unique ht ht'; rfl
  · exact (fractionText_no_minus ht (h.symm.trans h')).elim
  · exact (fractionText_no_minus ht' (h'.symm.trans h)).elim
  · rw [h] at h'; cases h'; obtain ⟨rfl, rfl⟩ := fractionText_unique ht ht'; rfl

/-- Rounding magnitudes keeps the order, and numbers a unit apart remain apart. -/
theorem rounds_mono {radix precision : Nat} (h2 : 2 ≤ radix) {x y u u' : Rat} (h : RoundsTo radix precision x u)
    (h' : RoundsTo radix precision y u') :
    (x ≤ y → u ≤ u') ∧ (x + 1 / (radix : Rat) ^ precision ≤ y → u < u') := by
  obtain ⟨⟨k, rfl⟩, h1, h3⟩ := h
  obtain ⟨⟨k', rfl⟩, h1', h3'⟩ := h'
  have hpos : (0 : Rat) < (radix : Rat) ^ precision := by
    have : (0 : Rat) < radix := by exact_mod_cast (by omega : 0 < radix)
    positivity
  refine ⟨fun hxy => ?_, fun hxy => by linarith⟩
  have a : (k : Rat) / (radix : Rat) ^ precision - (k' : Rat) / (radix : Rat) ^ precision <
      1 / (radix : Rat) ^ precision := by linarith
  rw [← sub_div, div_lt_div_iff_of_pos_right hpos] at a
  have a' : (k : Rat) < ((k' + 1 : Nat) : Rat) := by push_cast; linarith
  have a'' := Nat.cast_lt.1 a'
  rw [div_le_div_iff_of_pos_right hpos]
  exact_mod_cast (by omega : k ≤ k')

theorem rounds_nonneg {radix precision : Nat} {x u : Rat} (h : RoundsTo radix precision x u) : 0 ≤ u := by
  obtain ⟨⟨k, rfl⟩, _⟩ := h
  positivity

/-- The number that a text displays, with its sign. -/
theorem displays_signed {args : Args} {v : Rat} {text : Str} (hf : args.fractional = false) (h : Displays args v text) :
    ∃ u : Rat, RoundsTo (outputRadix args) args.precision |v| u ∧
      Prints (outputRadix args) text (if v < 0 then -u else u) := by
  unfold Displays at h
  rw [if_neg (by simp [hf])] at h
  obtain ⟨w, u, hw, hn, hr⟩ := h
  refine ⟨u, hr, w, u, hn, ?_⟩
  unfold sign at hw
  by_cases hv : v < 0
  · rw [if_pos hv] at hw ⊢; exact .inr ⟨hw, rfl⟩
  · rw [if_neg hv] at hw ⊢; exact .inl ⟨hw, rfl⟩

/-- Rounding keeps the order, whatever the signs. -/
theorem signed_mono {radix precision : Nat} (h2 : 2 ≤ radix) {v v' u u' : Rat} (h : RoundsTo radix precision |v| u)
    (h' : RoundsTo radix precision |v'| u') :
    (v ≤ v' → (if v < 0 then -u else u) ≤ (if v' < 0 then -u' else u')) ∧
    (v + 1 / (radix : Rat) ^ precision ≤ v' → (if v < 0 then -u else u) < (if v' < 0 then -u' else u')) := by
  have hu := rounds_nonneg h
  have hu' := rounds_nonneg h'
  have hpos : (0 : Rat) < 1 / (radix : Rat) ^ precision := by
    have : (0 : Rat) < radix := by exact_mod_cast (by omega : 0 < radix)
    positivity
  obtain ⟨m1, m2⟩ := rounds_mono h2 h h'
  obtain ⟨m3, m4⟩ := rounds_mono h2 h' h
  by_cases hv : v < 0 <;> by_cases hv' : v' < 0
  · rw [if_pos hv, if_pos hv']
    rw [abs_of_neg hv, abs_of_neg hv'] at *
    exact ⟨fun hle => by linarith [m3 (by linarith)], fun hle => by linarith [m4 (by linarith)]⟩
  · rw [if_pos hv, if_neg hv']
    rw [abs_of_neg hv] at *
    rw [abs_of_nonneg (not_lt.1 hv')] at *
    refine ⟨fun _ => by linarith, fun hle => ?_⟩
    obtain ⟨_, _, h3⟩ := h
    obtain ⟨_, _, h3'⟩ := h'
    linarith
  · exact ⟨fun hle => by linarith [not_lt.1 hv], fun hle => by linarith [not_lt.1 hv]⟩
  · rw [if_neg hv, if_neg hv']
    rw [abs_of_nonneg (not_lt.1 hv), abs_of_nonneg (not_lt.1 hv')] at *
    exact ⟨m1, m2⟩

/-- The value behind an answer to a line that reads as an expression. -/
theorem answer_value {args : Args} (hv : ValidSettings args) {ρ : Valuation} {line text : Str} (ha : Ascii line)
    (hc : ¬ CommandLine line) (h : Answer args ρ line text) {ts : List PTok} {target : Option (Positioned Str)} {n : Node}
    (hl : Lexes args.radix 0 line ts) (hi : Input ts target n) :
    ∃ v, Value (askedTolerance args) ρ n v ∧ Displays args v text := by
  cases h with
  | blank hb =>
    exfalso
    have h1 : ∀ (l : Str) (p : Nat), (∀ c ∈ l, Blank c) → Lexes args.radix p l [] := by
      intro l
      induction l with
      | nil => intro p _; exact .done
      | cons c l ih => intro p hb; exact .blank (hb c (by simp)) (ih _ fun c hc => hb c (by simp [hc]))
    have e1 := tokenize_of_lexes hv.radix.1 hv.radix.2 ha hc hl
    rw [tokenize_of_lexes hv.radix.1 hv.radix.2 ha hc (h1 line 0 hb)] at e1
    cases e1
    exact input_nonempty hi rfl
  | value hl' hi' hval hd =>
    obtain ⟨_, _, rfl⟩ := C72_one_reading args.radix hv.radix.1 hv.radix.2 line ha hc _ _ _ _ _ _ hl hl' hi hi'
    exact ⟨_, hval, hd⟩

theorem outputRadix_valid {args : Args} (hv : ValidSettings args) : 2 ≤ outputRadix args ∧ outputRadix args ≤ 16 := by
  unfold outputRadix
  cases hc : args.convertToRadix with
  | none => exact hv.radix
  | some r => exact hv.output r hc

/-- Two texts that display values in order. -/
theorem displays_order {args : Args} (hv : ValidSettings args) {v v' : Rat} {text text' : Str}
    (h : Displays args v text) (h' : Displays args v' text') :
    (args.fractional = false → ∃ q q' : Rat, Prints (outputRadix args) text q ∧ Prints (outputRadix args) text' q' ∧
      (v ≤ v' → q ≤ q') ∧ ((v : ℝ) + lastPlace args ≤ v' → q < q')) ∧
    (args.fractional = true → PrintsFraction text v ∧ PrintsFraction text' v') := by
  refine ⟨fun hf => ?_, fun hf => ⟨displays_fraction hf h, displays_fraction hf h'⟩⟩
  obtain ⟨u, hu, hp⟩ := displays_signed hf h
  obtain ⟨u', hu', hp'⟩ := displays_signed hf h'
  obtain ⟨h1, h2⟩ := signed_mono (outputRadix_valid hv).1 hu hu'
  refine ⟨_, _, hp, hp', h1, fun hle => h2 ?_⟩
  unfold lastPlace at hle
  have : ((v + 1 / (outputRadix args : Rat) ^ args.precision : Rat) : ℝ) ≤ (v' : ℝ) := by push_cast; exact hle
  exact_mod_cast this

theorem answers_order {args : Args} (hv : ValidSettings args) {ρ ρ' : Valuation} {line line' text text' : Str}
    (ha : Ascii line) (ha' : Ascii line') (hc : ¬ CommandLine line) (hc' : ¬ CommandLine line')
    (h : Answer args ρ line text) (h' : Answer args ρ' line' text')
    {ts ts' : List PTok} {target target' : Option (Positioned Str)} {n n' : Node}
    (hl : Lexes args.radix 0 line ts) (hi : Input ts target n)
    (hl' : Lexes args.radix 0 line' ts') (hi' : Input ts' target' n') {x y δ δ' : ℝ}
    (hn : Near (askedTolerance args : ℝ) ρ n x δ) (hn' : Near (askedTolerance args : ℝ) ρ' n' y δ')
    (hxy : x + δ + δ' ≤ y) : InOrder args text text' (y - x - δ - δ') := by
  obtain ⟨v, hval, hd⟩ := answer_value hv ha hc h hl hi
  obtain ⟨v', hval', hd'⟩ := answer_value hv ha' hc' h' hl' hi'
  have h1 := abs_le.1 (value_near (askedTolerance_pos hv.radix.1) hn hval)
  have h2 := abs_le.1 (value_near (askedTolerance_pos hv.radix.1) hn' hval')
  obtain ⟨d1, d2⟩ := displays_order hv hd hd'
  constructor
  · intro hf
    obtain ⟨q, q', hq, hq', m1, m2⟩ := d1 hf
    refine ⟨q, q', hq, hq', m1 ?_, fun hg => m2 (by linarith [h1.1, h1.2, h2.1, h2.2])⟩
    have : (v : ℝ) ≤ v' := by linarith [h1.1, h1.2, h2.1, h2.2]
    exact_mod_cast this
  · intro hf
    obtain ⟨hq, hq'⟩ := d2 hf
    refine ⟨v, v', hq, hq', ?_, fun hg => ?_⟩
    · have : (v : ℝ) ≤ v' := by linarith [h1.1, h1.2, h2.1, h2.2]
      exact_mod_cast this
    · have : (v : ℝ) < v' := by linarith [h1.1, h1.2, h2.1, h2.2]
      exact_mod_cast this

/-- Two one-shot runs with the same settings.  If mathematics assigns the real numbers `x` and `y` to the two
expressions, roots being off by at most `δ` and `δ'` in all, and `x + δ + δ' ≤ y`, then the first number printed is
at most the second; and less, if the numbers are a unit in the last place apart. -/
theorem C93_one_shot (m m' : Machine) (args : Args) (line line' : Str) (hv : ValidSettings args)
    (hp : args.precision + args.extraPrecision ≤ 254) (ha : Ascii line) (ha' : Ascii line')
    (hc : ¬ CommandLine line) (hc' : ¬ CommandLine line')
    (ts ts' : List PTok) (target target' : Option (Positioned Str)) (n n' : Node)
    (hl : Lexes args.radix 0 line ts) (hi : Input ts target n)
    (hl' : Lexes args.radix 0 line' ts') (hi' : Input ts' target' n') (x y δ δ' : ℝ)
    (hn : Near (askedTolerance args : ℝ) (fun _ => none) n x δ)
    (hn' : Near (askedTolerance args : ℝ) (fun _ => none) n' y δ') (hxy : x + δ + δ' ≤ y)
    (text text' : Str) (ht : oneShot m args line = .ok (.result text))
    (ht' : oneShot m' args line' = .ok (.result text')) : InOrder args text text' (y - x - δ - δ') :=
  answers_order hv ha ha' hc hc' (C72_one_shot m args hv hp line hc text ht)
    (C72_one_shot m' args hv hp line' hc' text' ht') hl hi hl' hi' hn hn' hxy

/-- The same for lines typed in two sessions (or in one, at different times) with the same settings. -/
theorem C93_session (m m' : Machine) (ce ce' : CommandExecutor) (line line' : Str) (s s' : Session) (ρ ρ' : Valuation)
    (h : Ready s line) (h' : Ready s' line') (hs : s'.args = s.args)
    (hv : ValidSettings s.args) (hp : s.args.precision + s.args.extraPrecision ≤ 254)
    (ha : Ascii line) (ha' : Ascii line') (hc : ¬ CommandLine line) (hc' : ¬ CommandLine line')
    (hρ : SeenBy s line ρ) (hρ' : SeenBy s' line' ρ')
    (ts ts' : List PTok) (target target' : Option (Positioned Str)) (n n' : Node)
    (hl : Lexes s.args.radix 0 line ts) (hi : Input ts target n)
    (hl' : Lexes s.args.radix 0 line' ts') (hi' : Input ts' target' n') (x y δ δ' : ℝ)
    (hn : Near (askedTolerance s.args : ℝ) ρ n x δ)
    (hn' : Near (askedTolerance s.args : ℝ) ρ' n' y δ') (hxy : x + δ + δ' ≤ y)
    (text text' : Str) (ht : (calculate m ce line s).1 = .ok text)
    (ht' : (calculate m' ce' line' s').1 = .ok text') : InOrder s.args text text' (y - x - δ - δ') := by
  have hA := (C73_justified m ce line s ρ h hv hp hc hρ).1 text ht
  have hA' := (C73_justified m' ce' line' s' ρ' h' (hs ▸ hv) (hs ▸ hp) hc' hρ').1 text' ht'
  rw [hs] at hA'
  exact answers_order hv ha ha' hc hc' hA hA' hl hi hl' hi' hn hn' hxy

/-- The same text is never printed for numbers that are further apart than a unit in the last place (or, printed
as fractions, for different numbers). -/
theorem C93_same_text (args : Args) (hv : ValidSettings args) (text : Str) (gap : ℝ)
    (h : InOrder args text text gap) :
    (args.fractional = false → gap < lastPlace args) ∧ (args.fractional = true → gap ≤ 0) := by
  constructor
  · intro hf
    obtain ⟨q, q', hq, hq', _, hlt⟩ := h.1 hf
    have e := C93_prints_one _ (outputRadix_valid hv).1 (outputRadix_valid hv).2 text q q' hq hq'
    by_contra hc
    exact absurd (hlt (not_lt.1 hc)) (by rw [e]; exact lt_irrefl _)
  · intro hf
    obtain ⟨q, q', hq, hq', _, hlt⟩ := h.2 hf
    have e := C93_fraction_one text q q' hq hq'
    by_contra hc
    exact absurd (hlt (not_le.1 hc)) (by rw [e]; exact lt_irrefl _)

/-- `0-7/5` is printed before `sqrt 2`: the theorem applied to two runs with the usual settings. -/
example : oneShot (exMachine true) .default "0-7/5".toList = .ok (.result "-1.4".toList) ∧
    oneShot (exMachine true) .default "sqrt 2".toList = .ok (.result "1.41421".toList) ∧
    ∃ q q' : Rat, Prints 10 "-1.4".toList q ∧ Prints 10 "1.41421".toList q' ∧ q < q' := by
  have t1 : tokenize "0-7/5".toList 10 = .ok (.tokens [⟨.number 0, ⟨0, 1⟩⟩, ⟨.binary .subtract, ⟨1, 1⟩⟩,
    ⟨.number 7, ⟨2, 1⟩⟩, ⟨.binary .divide, ⟨3, 1⟩⟩, ⟨.number 5, ⟨4, 1⟩⟩]) := by decide +kernel
  have t2 : tokenize "sqrt 2".toList 10 = .ok (.tokens [⟨.unary .squareRoot, ⟨0, 4⟩⟩, ⟨.number 2, ⟨5, 1⟩⟩]) := by
    decide +kernel
  obtain ⟨a1, c1, l1⟩ := (C01_tokens_iff 10 (by decide) (by decide) _ _).1 t1
  obtain ⟨a2, c2, l2⟩ := (C01_tokens_iff 10 (by decide) (by decide) _ _).1 t2
  have i1 : Input [⟨.number 0, ⟨0, 1⟩⟩, ⟨.binary .subtract, ⟨1, 1⟩⟩, ⟨.number 7, ⟨2, 1⟩⟩, ⟨.binary .divide, ⟨3, 1⟩⟩,
      ⟨.number 5, ⟨4, 1⟩⟩] none (.binary .subtract ⟨1, 1⟩ (.number 0 ⟨0, 1⟩)
        (.binary .divide ⟨3, 1⟩ (.number 7 ⟨2, 1⟩) (.number 5 ⟨4, 1⟩))) :=
    (C10_parser_iff_grammar _ ⟨none, _⟩).1
      (C13_two_operators [_] [_] [_] _ _ _ .subtract .divide ⟨1, 1⟩ ⟨3, 1⟩ (.atom .number) (.atom .number) (.atom .number))
  have i2 : Input [⟨.unary .squareRoot, ⟨0, 4⟩⟩, ⟨.number 2, ⟨5, 1⟩⟩] none
      (.unary .squareRoot ⟨0, 4⟩ (.number 2 ⟨5, 1⟩)) :=
    .expression (.lift (.lift (.lift (.lift (.signed (.atom (.unary (.atom .number))))))))
  have r1 : oneShot (exMachine true) .default "0-7/5".toList = .ok (.result "-1.4".toList) := by decide +kernel
  have r2 : oneShot (exMachine true) .default "sqrt 2".toList = .ok (.result "1.41421".toList) := by decide +kernel
  refine ⟨r1, r2, ?_⟩
  have n1 : Near (askedTolerance .default : ℝ) (fun _ => none) (.binary .subtract ⟨1, 1⟩ (.number 0 ⟨0, 1⟩)
        (.binary .divide ⟨3, 1⟩ (.number 7 ⟨2, 1⟩) (.number 5 ⟨4, 1⟩))) (((0 : Rat) : ℝ) - ((7 : Rat) : ℝ) / ((5 : Rat) : ℝ)) 0 :=
    .more (.subtract .number (.divide .number .number (by norm_num))) (by norm_num)
  have n2 : Near (askedTolerance .default : ℝ) (fun _ => none) (.unary .squareRoot ⟨0, 4⟩ (.number 2 ⟨5, 1⟩))
      (Real.sqrt 2) (askedTolerance .default : ℝ) :=
    .more (.sqrt .number (Real.sqrt_pos.2 (by norm_num)) (by rw [Real.mul_self_sqrt (by norm_num)]; norm_num)) (by simp)
  have e : (askedTolerance .default : ℝ) ≤ 1 / 10 := by
    have : askedTolerance .default ≤ 1 / 10 := by decide +kernel
    have h : ((askedTolerance .default : Rat) : ℝ) ≤ ((1 / 10 : Rat) : ℝ) := by exact_mod_cast this
    simpa using h
  have hs : 1 ≤ Real.sqrt 2 := by rw [← Real.sqrt_one]; exact Real.sqrt_le_sqrt (by norm_num)
  have hp : lastPlace .default ≤ 1 := by
    have : lastPlace .default = 1 / ((10 : Nat) : ℝ) ^ 5 := rfl
    rw [this]; norm_num
  obtain ⟨q, q', hq, hq', _, hlt⟩ := (C93_one_shot (exMachine true) (exMachine true) .default _ _
    ⟨by decide, by decide, by decide⟩ (by decide) a1 a2 c1 c2 _ _ _ _ _ _ l1 i1 l2 i2 _ _ _ _ n1 n2
    (by norm_num; linarith) _ _ r1 r2).1 rfl
  exact ⟨q, q', hq, hq', hlt (by norm_num; linarith)⟩

end Bcalc
