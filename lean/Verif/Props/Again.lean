import Verif.Props.Order

/-! # Answers typed back in (C32) -/

namespace Bcalc
open Spec

theorem variables_none {ts : List PTok} (h : ∀ t ∈ ts, (∃ v, t.value = .number v) ∨ ∃ o, t.value = .binary o) :
    ∀ x p, (⟨.variable x, p⟩ : PTok) ∉ ts := by
  intro x p hx
  rcases h _ hx with ⟨v, e⟩ | ⟨o, e⟩ <;> cases e

/-- Reading of a text that consists of numerals and operators, whatever the state. -/
def ReadsAs (radix : Nat) (text : Str) (v : Rat) : Prop :=
  ∃ ts t, tokenize text radix = .ok (.tokens ts) ∧ (∀ x p, (⟨.variable x, p⟩ : PTok) ∉ ts) ∧
    SyntaxTree.new ts = .ok t ∧ ∀ m args id env, t.execute m args id env = (.ok v, env)

theorem ReadsAs.shows {args : Args} {text : Str} {v : Rat} (h : ReadsAs args.radix text v) {text' : Str}
    (hd : displayResult args v = .ok text') (m : Machine) : oneShot m args text = .ok (.result text') := by
  obtain ⟨ts, t, h3, _, h4, h5⟩ := h
  obtain ⟨ce, hce⟩ := commandExecutor_ok
  have hne : ts ≠ [] := by
    rintro rfl
    have hb : (match SyntaxTree.new [] with | .ok _ => true | _ => false) = false := by
      decide +kernel
    rw [h4] at hb
    exact absurd hb (by simp)
  have : calculate m ce text { args := args, db := none, inputs := none, vars := none } =
      (.ok text', { args := args, db := none, inputs := none, vars := none }) := by
    simp [calculate, recordInput, St.andThen, h3, calculateTokens, hne, h4, St.lift,
      Outcome.mapErr, executeTree, h5, hd]
  unfold oneShot
  rw [hce]
  simp [this, shown]

theorem ReadsAs.in_session {s : Session} {text : Str} {v : Rat} (h : ReadsAs s.args.radix text v) {text' : Str}
    (hd : displayResult s.args v = .ok text') (m : Machine) (hh : HashOk m) (id : Option Int)
    (hrec : (recordInput s).1 = .ok id) : (calculate m table text s).1 = .ok text' := by
  have h1 := h.shows hd m
  obtain ⟨ts, t, h3, hn, _⟩ := h
  rw [C68_as_in_session m hh text s ts h3 hn id hrec] at h1
  rcases hr : (calculate m table text s).1 with r | ⟨_ | _⟩ | _ | _ <;> rw [hr] at h1 <;> simp [shown] at h1
  rw [h1]

theorem minus_plain {w : Str} : ¬ CommandLine ('-' :: w) := by
  rintro ⟨pre, rest, he, hpre⟩
  cases pre with
  | nil => simp at he
  | cons c pre =>
    simp only [List.cons_append, List.cons.injEq] at he
    have := hpre c (by simp)
    rw [← he.1] at this
    revert this; unfold Blank; decide

theorem numeral_no_tab {radix : Nat} {w : Str} {u : Rat} (h : Numeral radix w u) : '\x0b' ∉ w := by
  intro hc
  rcases numeral_char h _ hc with e | e | ⟨d, hd, _⟩
  · revert e; decide
  · revert e; decide
  · unfold DigitChar at hd
    have h0 : '0'.toNat = 48 := rfl
    have ha : 'a'.toNat = 97 := rfl
    have hA : 'A'.toNat = 65 := rfl
    have hv : '\x0b'.toNat = 11 := rfl
    omega

theorem numeral_plain {radix : Nat} {w rest : Str} {u : Rat} (h : Numeral radix w u) : ¬ CommandLine (w ++ rest) := by
  rintro ⟨pre, r, he, hpre⟩
  have hw := numeral_wordChar h
  have ht := numeral_no_tab h
  cases w with
  | nil => exact numeral_ne_nil h rfl
  | cons c w =>
    have hc := hw c List.mem_cons_self
    cases pre with
    | nil =>
      simp only [List.cons_append, List.nil_append, List.cons.injEq] at he
      exact slash_no_wordChar (he.1 ▸ hc)
    | cons c' pre =>
      simp only [List.cons_append, List.cons.injEq] at he
      rcases hpre c' (by simp) with h | h
      · exact hc.1 (he.1 ▸ h)
      · exact ht (by rw [he.1, h]; exact List.mem_cons_self)

/-- A numeral with a sign reads as its number. -/
theorem reads_numeral {radix : Nat} (h2 : 2 ≤ radix) (hr : radix ≤ 16) {w : Str} {u : Rat} (v : Rat)
    (h : Numeral radix w u) : ReadsAs radix (sign v ++ w) (if v < 0 then -u else u) := by
  unfold sign
  by_cases hv : v < 0
  · simp only [if_pos hv]
    refine ⟨[⟨.binary .subtract, ⟨0, 1⟩⟩, ⟨.number u, ⟨1, w.length⟩⟩],
      ⟨none, .unary .negate ⟨0, 1⟩ (.number u ⟨1, w.length⟩)⟩, ?_, variables_none (by simp), ?_, ?_⟩
    · rw [C01_tokens_iff radix h2 hr]
      refine ⟨?_, minus_plain, .symbol .minus (lexes_numeral h)⟩
      intro c hc
      rcases List.mem_append.1 hc with hc | hc
      · rw [List.mem_singleton.1 hc]; decide
      · exact numeral_ascii h c hc
    · exact parse_of_expr (k := 0) (.signed (.minus (.atom .number))) (by omega)
    · intro m args id env
      simp [SyntaxTree.execute, Node.execute, St.andThen, St.lift, applyUnary]
  · simp only [if_neg hv, List.nil_append]
    refine ⟨[⟨.number u, ⟨0, w.length⟩⟩], ⟨none, .number u ⟨0, w.length⟩⟩, ?_, variables_none (by simp), ?_, ?_⟩
    · rw [C01_tokens_iff radix h2 hr]
      exact ⟨numeral_ascii h, word_not_command (numeral_wordChar h), lexes_numeral h⟩
    · exact parse_of_expr (k := 0) (.signed (.atom .number)) (by omega)
    · intro m args id env
      simp [SyntaxTree.execute, Node.execute, St.andThen, St.lift]

theorem lexes_fraction {radix pos : Nat} {w w' : Str} {a b : Rat} (h : Numeral radix w a) (h' : Numeral radix w' b) :
    Lexes radix pos (w ++ '/' :: w') [⟨.number a, ⟨pos, w.length⟩⟩, ⟨.binary .divide, ⟨pos + w.length, 1⟩⟩,
      ⟨.number b, ⟨pos + w.length + 1, w'.length⟩⟩] :=
  .word (numeral_ne_nil h) (numeral_wordChar h)
    (by rintro c cs e hw; cases e; exact slash_no_wordChar hw) (.number h) (.symbol .slash (lexes_numeral h'))

/-- A fraction with a sign reads as its number. -/
theorem reads_fraction {radix : Nat} (h2 : 2 ≤ radix) (hr : radix ≤ 16) {w w' : Str} {a b : Rat} (v : Rat)
    (h : Numeral radix w a) (h' : Numeral radix w' b) (hb : b ≠ 0) :
    ReadsAs radix (sign v ++ w ++ '/' :: w') (if v < 0 then -a / b else a / b) := by
  have hasc : Ascii (w ++ '/' :: w') := by
    intro c hc
    rcases List.mem_append.1 hc with hc | hc
    · exact numeral_ascii h c hc
    · rcases List.mem_cons.1 hc with rfl | hc
      · decide
      · exact numeral_ascii h' c hc
  unfold sign
  by_cases hv : v < 0
  · simp only [if_pos hv]
    refine ⟨[⟨.binary .subtract, ⟨0, 1⟩⟩, ⟨.number a, ⟨1, w.length⟩⟩, ⟨.binary .divide, ⟨1 + w.length, 1⟩⟩,
        ⟨.number b, ⟨1 + w.length + 1, w'.length⟩⟩],
      ⟨none, .binary .divide ⟨1 + w.length, 1⟩ (.unary .negate ⟨0, 1⟩ (.number a ⟨1, w.length⟩))
        (.number b ⟨1 + w.length + 1, w'.length⟩)⟩, ?_, variables_none (by simp), ?_, ?_⟩
    · rw [C01_tokens_iff radix h2 hr]
      refine ⟨?_, minus_plain, .symbol .minus (lexes_fraction h h')⟩
      intro c hc
      rcases List.mem_cons.1 hc with rfl | hc
      · decide
      · exact hasc c (by simpa using hc)
    · exact (C10_parser_iff_grammar _ ⟨none, _⟩).2 (.expression (.lift (.op (ts := [_, _]) (.lift (.lift (.lift (.signed (.minus (.atom .number)))))) rfl
        (.lift (.lift (.signed (.atom .number)))))))
    · intro m args id env
      simp [SyntaxTree.execute, Node.execute, St.andThen, St.lift, applyUnary, applyBinary, ratDiv, hb]
  · simp only [if_neg hv, List.nil_append]
    refine ⟨[⟨.number a, ⟨0, w.length⟩⟩, ⟨.binary .divide, ⟨0 + w.length, 1⟩⟩,
        ⟨.number b, ⟨0 + w.length + 1, w'.length⟩⟩],
      ⟨none, .binary .divide ⟨0 + w.length, 1⟩ (.number a ⟨0, w.length⟩)
        (.number b ⟨0 + w.length + 1, w'.length⟩)⟩, ?_, variables_none (by simp), ?_, ?_⟩
    · rw [C01_tokens_iff radix h2 hr]
      exact ⟨hasc, numeral_plain h, lexes_fraction h h'⟩
    · exact (C10_parser_iff_grammar _ ⟨none, _⟩).2 (.expression (.lift (.op (ts := [_]) (.lift (.lift (.lift (.signed (.atom .number))))) rfl
        (.lift (.lift (.signed (.atom .number)))))))
    · intro m args id env
      simp [SyntaxTree.execute, Node.execute, St.andThen, St.lift, applyBinary, ratDiv, hb]

/-- The text of any answer is the display of some number. -/
theorem answer_displayed {m : Machine} {ce : CommandExecutor} {line text : Str} {s s' : Session}
    (hv : ValidSettings s.args) (hc : ¬ CommandLine line) (h : calculate m ce line s = (.ok text, s')) :
    text = [] ∨ ∃ v, displayResult s.args v = .ok text := by
  have hlex : ∃ ts, tokenize line s.args.radix = .ok (.tokens ts) := by
    rw [calculate_eq] at h
    obtain ⟨id, s1, h1, h⟩ := andThen_ok h
    obtain ⟨ha, _⟩ := recordInput_args s
    rw [h1] at ha
    simp only at ha
    unfold afterRecording at h
    rw [ha] at h
    rcases tokenize_spec hv.radix.1 hv.radix.2 line with ⟨i, _, _, e⟩ | ⟨_, p, hp, hc', _⟩ |
      ⟨_, _, ⟨ts', e, _⟩ | ⟨w, st, e, _, _⟩⟩
    · rw [e] at h; cases h
    · exact absurd hc' hc
    · exact ⟨ts', e⟩
    · rw [e] at h; cases h
  obtain ⟨ts, ht⟩ := hlex
  by_cases hne : ts = []
  · left
    rw [calculate_eq] at h
    obtain ⟨id, s1, h1, h⟩ := andThen_ok h
    obtain ⟨ha, _⟩ := recordInput_args s
    rw [h1] at ha
    simp only at ha
    unfold afterRecording at h
    rw [ha, ht, hne] at h
    simp only at h
    unfold calculateTokens at h
    obtain ⟨_, s2, _, h⟩ := andThen_ok h
    simp only [if_true, Prod.mk.injEq, Outcome.ok.injEq] at h
    exact h.1.symm
  · obtain ⟨id, s1, s2, tree, v, h1, h2, h3, h4, h5, h6, h7, h8⟩ := calculate_tokens_ok h ht hne
    exact .inr ⟨v, h8⟩

/-- A displayed number, without commas and in the input radix, read back: the number that is printed. -/
theorem display_reads {args : Args} (hv : ValidSettings args) (hf : args.fractional = false) (hc : args.commas = false)
    (ho : outputRadix args = args.radix) {v : Rat} {text : Str} (h : displayResult args v = .ok text) :
    ∃ q : Rat, Prints args.radix text q ∧ ReadsAs args.radix text q ∧ Representable q args.radix args.precision := by
  have hr := hv.radix
  rw [← ho] at hr ⊢
  obtain ⟨w, hw, hn⟩ := shown_numeral hr.1 (by omega) v args.precision args.upper
  have e := displayResult_eq hf hr.1 hr.2 v
  rw [h, hc, hw] at e
  simp only [Outcome.ok.injEq] at e
  refine ⟨_, ?_, e ▸ reads_numeral hr.1 hr.2 v hn, ?_⟩
  · refine ⟨w, _, hn, ?_⟩
    have hcm : ∀ {w : Str}, ',' ∉ w → noCommas w = w := by
      intro w h
      unfold noCommas
      rw [List.filter_eq_self]
      intro c hc
      simp only [ne_eq, decide_eq_true_eq]
      rintro rfl
      exact h hc
    have h1 : ',' ∉ w := fun h => (numeral_wordChar hn ',' h).2 _ .comma
    rw [e]
    by_cases hv : v < 0
    · rw [if_pos hv, if_pos hv]
      exact .inr ⟨hcm (by simp [h1]), rfl⟩
    · rw [if_neg hv, if_neg hv]
      exact .inl ⟨hcm h1, rfl⟩
  · by_cases hv : v < 0
    · rw [if_pos hv]; exact ⟨-(units v (outputRadix args) args.precision : Int), by push_cast; ring⟩
    · rw [if_neg hv]; exact ⟨(units v (outputRadix args) args.precision : Int), by push_cast; rfl⟩

/-- What is displayed of a number that the last place can represent stands for this number. -/
theorem prints_of_representable {args : Args} (hv : ValidSettings args) (hf : args.fractional = false)
    (ho : outputRadix args = args.radix) {q : Rat} (hq : Representable q args.radix args.precision) {text : Str}
    (h : displayResult args q = .ok text) : Prints args.radix text q := by
  obtain ⟨text', ht, hd⟩ := displays_of_display args hv q
  rw [h] at ht
  cases ht
  obtain ⟨u, hu, hp⟩ := displays_signed hf hd
  rw [ho] at hu hp
  have hun := units_rounds hv.radix.1 q args.precision
  rw [units_exact hv.radix.1 hq] at hun
  rw [C30_rounded_unique _ _ hv.radix.1 _ _ _ hu hun] at hp
  by_cases hq0 : q < 0
  · rw [if_pos hq0, abs_of_neg hq0, neg_neg] at hp; exact hp
  · rw [if_neg hq0, abs_of_nonneg (not_lt.1 hq0)] at hp; exact hp

/-- Any answer that is printed without commas in the input radix can be given to the program again.  It is then read as
the number it prints, and printed as a text for this same number (zeros at the end may go); that text is printed
again to the letter. -/
theorem C32_again (m m' m'' : Machine) (args : Args) (hv : ValidSettings args) (hf : args.fractional = false)
    (hcm : args.commas = false) (ho : outputRadix args = args.radix) (line text : Str) (hc : ¬ CommandLine line)
    (hne : text ≠ []) (h : oneShot m args line = .ok (.result text)) :
    ∃ (q : Rat) (text' : Str), Prints args.radix text q ∧ oneShot m' args text = .ok (.result text') ∧
      Prints args.radix text' q ∧ oneShot m'' args text' = .ok (.result text') := by
  obtain ⟨r, args', hcl, hs⟩ := C68_nothing_kept m args line
  rw [hs] at h
  have : r = .ok text := by
    rcases r with t | ⟨_ | _⟩ | _ | _ <;> simp only [shown, Outcome.ok.injEq, reduceCtorEq, Shown.result.injEq] at h
    rw [h]
  subst this
  rcases answer_displayed hv hc hcl with h0 | ⟨v, hd⟩
  · exact absurd h0 hne
  obtain ⟨q, hp, hrd, hq⟩ := display_reads hv hf hcm ho hd
  obtain ⟨text', ht', _⟩ := displays_of_display args hv q
  have hp' := prints_of_representable hv hf ho hq ht'
  obtain ⟨q', hq', hrd', _⟩ := display_reads hv hf hcm ho ht'
  rw [C93_prints_one _ hv.radix.1 hv.radix.2 text' q' q hq' hp'] at hrd'
  exact ⟨q, text', hp, hrd.shows ht' m', hp', hrd'.shows ht' m''⟩

/-- The same in sessions: an answer typed into any session with the same settings that can record it. -/
theorem C32_again_session (m m' m'' : Machine) (ce : CommandExecutor) (line text : Str) (s s1 s2 s3 : Session)
    (hv : ValidSettings s.args) (hf : s.args.fractional = false) (hcm : s.args.commas = false)
    (ho : outputRadix s.args = s.args.radix) (hc : ¬ CommandLine line) (hne : text ≠ [])
    (h : calculate m ce line s = (.ok text, s1)) (hs2 : s2.args = s.args) (hs3 : s3.args = s.args)
    (hm' : HashOk m') (hm'' : HashOk m'') (id id' : Option Int) (hr2 : (recordInput s2).1 = .ok id)
    (hr3 : (recordInput s3).1 = .ok id') :
    ∃ (q : Rat) (text' : Str), Prints s.args.radix text q ∧ (calculate m' table text s2).1 = .ok text' ∧
      Prints s.args.radix text' q ∧ (calculate m'' table text' s3).1 = .ok text' := by
  rcases answer_displayed hv hc h with h0 | ⟨v, hd⟩
  · exact absurd h0 hne
  obtain ⟨q, hp, hrd, hq⟩ := display_reads hv hf hcm ho hd
  obtain ⟨text', ht', _⟩ := displays_of_display s.args hv q
  have hp' := prints_of_representable hv hf ho hq ht'
  obtain ⟨q', hq', hrd', _⟩ := display_reads hv hf hcm ho ht'
  rw [C93_prints_one _ hv.radix.1 hv.radix.2 text' q' q hq' hp'] at hrd'
  exact ⟨q, text', hp, ReadsAs.in_session (hs2 ▸ hrd) (hs2 ▸ ht') m' hm' id hr2, hp',
    ReadsAs.in_session (hs3 ▸ hrd') (hs3 ▸ ht') m'' hm'' id' hr3⟩

/-- Fractions are printed in decimal notation; if that is the input radix, they are read back exactly. -/
theorem fraction_reads {args : Args} (hf : args.fractional = true) (hr : args.radix = 10) {v : Rat} {text : Str}
    (h : displayResult args v = .ok text) : ReadsAs args.radix text v := by
  obtain ⟨a, b, _, hab, hd⟩ := C36_fraction args hf v
  rw [hr]
  rcases hd with ⟨rfl, w, ht, hw⟩ | ⟨hb, w, w', ht, hw, hw'⟩
  · rw [h] at ht
    simp only [Outcome.ok.injEq] at ht
    have := reads_numeral (by decide) (by decide) v hw
    rw [← ht] at this
    have e : (if v < 0 then -(a : Rat) else a) = v := by
      by_cases hv : v < 0
      · rw [if_pos hv]; rw [abs_of_neg hv] at hab; simp at hab; linarith
      · rw [if_neg hv]; rw [abs_of_nonneg (not_lt.1 hv)] at hab; simp at hab; linarith
    rwa [e] at this
  · rw [h] at ht
    simp only [Outcome.ok.injEq] at ht
    have := reads_fraction (by decide) (by decide) v hw hw' (by exact_mod_cast (by omega : b ≠ 0))
    rw [← ht] at this
    have e : (if v < 0 then -(a : Rat) / b else a / b) = v := by
      by_cases hv : v < 0
      · rw [if_pos hv, neg_div, ← hab, abs_of_neg hv, neg_neg]
      · rw [if_neg hv, ← hab, abs_of_nonneg (not_lt.1 hv)]
    rwa [e] at this

/-- With fractions, and decimal input, every answer that is given to the program again is printed again, to the
letter. -/
theorem C32_fraction_again (m m' : Machine) (args : Args) (hv : ValidSettings args) (hf : args.fractional = true)
    (hr : args.radix = 10) (line text : Str) (hc : ¬ CommandLine line) (hne : text ≠ [])
    (h : oneShot m args line = .ok (.result text)) : oneShot m' args text = .ok (.result text) := by
  obtain ⟨r, args', hcl, hs⟩ := C68_nothing_kept m args line
  rw [hs] at h
  have : r = .ok text := by
    rcases r with t | ⟨_ | _⟩ | _ | _ <;> simp only [shown, Outcome.ok.injEq, reduceCtorEq, Shown.result.injEq] at h
    rw [h]
  subst this
  rcases answer_displayed hv hc hcl with h0 | ⟨v, hd⟩
  · exact absurd h0 hne
  exact (fraction_reads hf hr hd).shows hd m'

/-- The same in sessions. -/
theorem C32_fraction_again_session (m m' : Machine) (ce : CommandExecutor) (line text : Str) (s s1 s2 : Session)
    (hv : ValidSettings s.args) (hf : s.args.fractional = true) (hr : s.args.radix = 10) (hc : ¬ CommandLine line)
    (hne : text ≠ []) (h : calculate m ce line s = (.ok text, s1)) (hs2 : s2.args = s.args)
    (hm' : HashOk m') (id : Option Int) (hr2 : (recordInput s2).1 = .ok id) :
    (calculate m' table text s2).1 = .ok text := by
  rcases answer_displayed hv hc h with h0 | ⟨v, hd⟩
  · exact absurd h0 hne
  exact ReadsAs.in_session (hs2 ▸ fraction_reads hf hr hd) (hs2 ▸ hd) m' hm' id hr2

/-- `sqrt 2.25`, its text typed back, and that again; a negative number that is printed as zero; a fraction. -/
example : oneShot (exMachine true) .default "sqrt 2.25".toList = .ok (.result "1.50000".toList) ∧
    oneShot (exMachine true) .default "1.50000".toList = .ok (.result "1.5".toList) ∧
    oneShot (exMachine true) .default "0-1/10^9".toList = .ok (.result "-0.00000".toList) ∧
    oneShot (exMachine true) .default "-0.00000".toList = .ok (.result "0".toList) ∧
    oneShot (exMachine true) { Args.default with fractional := true } "0-14/6".toList = .ok (.result "-7/3".toList) ∧
    oneShot (exMachine true) { Args.default with fractional := true } "-7/3".toList = .ok (.result "-7/3".toList) := by
  decide +kernel

/-- A session that can record the text. -/
example : (recordInput (exPlain "1.50000")).1 = .ok none ∧ ValidSettings (exPlain "1.50000").args :=
  ⟨by decide +kernel, ⟨by decide, by decide, by decide⟩⟩

/-- With another input radix the text of a fraction means another number. -/
theorem C32_violation :
    oneShot (exMachine true) { Args.default with fractional := true, radix := 16 } "a/3".toList =
      .ok (.result "10/3".toList) ∧
    oneShot (exMachine true) { Args.default with fractional := true, radix := 16 } "10/3".toList =
      .ok (.result "16/3".toList) := by
  decide +kernel

end Bcalc
