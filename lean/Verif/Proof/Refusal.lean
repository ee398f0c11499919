import Verif.Spec.Refusal
import Verif.Proof.Settings2

/-! # Why commands are refused -/

namespace Bcalc

open Spec

theorem fraction_eq (q : Rat) : ratDisplay q = fraction q := by
  have hs : (q.num < 0) ↔ q < 0 := Rat.num_neg
  have hi : ∀ i : Int, intDisplay i = (if i < 0 then ['-'] else []) ++ decimal i.natAbs := by
    intro i
    unfold intDisplay
    rw [decimal_eq]
  unfold ratDisplay fraction
  rw [hi q.num]
  simp only [hs]
  split
  · simp
  · rw [intDisplay_nat]

theorem called_eq (t : Token) : t.display = called t := by
  cases t with
  | number q => show "Number (".toList ++ ratDisplay q ++ ")".toList = _; rw [fraction_eq]; rfl
  | binary o => cases o <;> rfl
  | unary o => cases o <;> rfl
  | function f => cases f <;> rfl
  | «variable» x => rfl
  | assign => rfl
  | comma => rfl
  | openParen => rfl
  | closeParen => rfl

theorem through_eq {p q : Position} (h : p.stop ≤ q.start) : Position.fromSpan p q = through p q := by
  unfold Position.stop at h
  unfold Position.fromSpan through
  rw [Nat.min_eq_left (by omega), Nat.max_eq_right (by omega)]

theorem afterSign_loop {ts ts' : List PTok} (h : AfterSign ts ts') (acc : List (Positioned Int)) :
    ∃ neg, intListLoop ts acc none = intListLoop ts' acc neg ∧ (neg = none ∨ ∃ q, ts = ⟨.binary .subtract, q⟩ :: ts' ∧ neg = some q) := by
  rcases h with rfl | ⟨q, rfl⟩
  · exact ⟨none, rfl, .inl rfl⟩
  · exact ⟨some q, by rw [intListLoop], .inr ⟨q, rfl, rfl⟩⟩

theorem badInteger_loop {ts : List PTok} {t : Str} {p : Position} (h : BadInteger ts t p)
    (hs : ts.Pairwise fun a b => a.position.stop ≤ b.position.start) (acc : List (Positioned Int)) :
    intListLoop ts acc none = .err ⟨t, p⟩ := by
  induction h generalizing acc with
  | @later ts ts' t p n r h hn _ ih =>
    have hs' : ts'.Pairwise fun a b : PTok => a.position.stop ≤ b.position.start := by
      rcases h with rfl | ⟨q, rfl⟩
      · exact (List.pairwise_cons.1 hs).2
      · exact (List.pairwise_cons.1 (List.pairwise_cons.1 hs).2).2
    obtain ⟨neg, h1, h2⟩ := afterSign_loop h acc
    rw [h1, intListLoop.eq_def]
    have hden : ((n : Rat)).den = 1 := Rat.den_natCast n
    have hnum : ((n : Rat)).num = n := Rat.num_natCast n
    have hm : (n : Int) ≤ i64Max := by unfold maxI64 at hn; unfold i64Max; omega
    have hm' : i64Min ≤ (n : Int) := by unfold i64Min; omega
    have hm0 : ¬ (n : Int) = i64Min := by unfold i64Min; omega
    simp only [hden, hnum, ne_eq, not_true_eq_false, if_false, hm, hm', and_self, if_true]
    rcases h2 with rfl | ⟨q, _, rfl⟩
    · exact ih hs' _
    · simp only [hm0, if_false]
      exact ih hs' _
  | @fraction ts ts' p q h hq =>
    obtain ⟨neg, h1, h2⟩ := afterSign_loop h acc
    rw [h1, intListLoop.eq_def]
    simp only
    rw [if_pos hq, fraction_eq]
  | @big ts ts' p n h hn =>
    obtain ⟨neg, h1, h2⟩ := afterSign_loop h acc
    rw [h1, intListLoop.eq_def]
    have hden : ((n : Rat)).den = 1 := Rat.den_natCast n
    have hnum : ((n : Rat)).num = n := Rat.num_natCast n
    have hm : ¬ (n : Int) ≤ i64Max := by unfold maxI64 at hn; unfold i64Max; omega
    simp only [hden, hnum, ne_eq, not_true_eq_false, if_false, hm, and_false]
  | @other ts ts' t p h h1 h2 =>
    obtain ⟨neg, h3, h4⟩ := afterSign_loop h acc
    rw [h3]
    cases t with
    | number q => exact absurd rfl (h1 q)
    | binary o => cases o <;> first | exact absurd rfl h2 | (rw [intListLoop.eq_def]; simp only [called_eq])
    | _ => rw [intListLoop.eq_def]; simp only [called_eq]
  | @signs ts' q p =>
    rw [intListLoop, intListLoop]
    have := (List.pairwise_cons.1 hs).1 ⟨.binary .subtract, p⟩ (by simp)
    simp only [Positioned.newSpan]
    rw [through_eq this]
  | @sign q => rfl

theorem rat_nat {q : Rat} (h0 : 0 ≤ q) (h1 : q.den = 1) : ∃ n : Nat, q = n := by
  refine ⟨q.num.toNat, ?_⟩
  have hn : 0 ≤ q.num := Rat.num_nonneg.2 h0
  have : (q.num : Rat) = q := Rat.den_eq_one_iff q |>.1 h1
  have h2 : ((q.num.toNat : Int) : Rat) = (q.num : Rat) := by rw [Int.toNat_of_nonneg hn]
  rw [Int.cast_natCast] at h2
  rw [h2, this]

theorem integer_step {ts ts' : List PTok} {t : Token} {p : Position} (hs : AfterSign ts (⟨t, p⟩ :: ts'))
    (hh : ∀ v, t = .number v → 0 ≤ v) (ht : t ≠ .binary .subtract)
    (ih : (∃ ns, SignedInts ts' ns) ∨ ∃ t p, BadInteger ts' t p) :
    (∃ ns, SignedInts ts ns) ∨ ∃ t p, BadInteger ts t p := by
  by_cases h1 : ∃ q, t = .number q
  · obtain ⟨q, rfl⟩ := h1
    by_cases hq : q.den = 1
    · obtain ⟨n, rfl⟩ := rat_nat (hh q rfl) hq
      by_cases hn : n ≤ maxI64
      · rcases ih with ⟨ns, k⟩ | ⟨t, p', k⟩
        · rcases hs with rfl | ⟨r, rfl⟩
          · exact .inl ⟨_, .plain hn k⟩
          · exact .inl ⟨_, .negated hn k⟩
        · exact .inr ⟨t, p', .later hs hn k⟩
      · exact .inr ⟨_, _, .big hs (by omega)⟩
    · exact .inr ⟨_, _, .fraction hs hq⟩
  · exact .inr ⟨_, _, .other hs (fun q e => h1 ⟨q, e⟩) ht⟩

theorem integer_total : (ts : List PTok) → (∀ t ∈ ts, ∀ v, t.value = .number v → 0 ≤ v) →
    (∃ ns, SignedInts ts ns) ∨ ∃ t p, BadInteger ts t p
  | [], _ => .inl ⟨[], .nil⟩
  | [⟨t, p⟩], hh => by
    by_cases h2 : t = .binary .subtract
    · subst h2; exact .inr ⟨_, _, .sign⟩
    · exact integer_step (.inl rfl) (hh ⟨t, p⟩ (by simp)) h2 (.inl ⟨[], .nil⟩)
  | ⟨t, p⟩ :: ⟨t', p'⟩ :: ts, hh => by
    by_cases h2 : t = .binary .subtract
    · subst h2
      by_cases h4 : t' = .binary .subtract
      · subst h4; exact .inr ⟨_, _, .signs⟩
      · exact integer_step (.inr ⟨p, rfl⟩) (hh ⟨t', p'⟩ (by simp)) h4
          (integer_total ts fun t ht => hh t (by simp [ht]))
    · exact integer_step (.inl rfl) (hh ⟨t, p⟩ (by simp)) h2
        (integer_total (⟨t', p'⟩ :: ts) fun t ht => hh t (by simp at ht ⊢; exact .inr ht))

theorem signedInts_ordered {ts : List PTok} {ns : List (Positioned Int)} (h : SignedInts ts ns)
    (hs : ts.Pairwise fun a b => a.position.stop ≤ b.position.start) :
    ns.Pairwise (fun a b => a.position.stop ≤ b.position.start) ∧
    ∀ k, (∀ t ∈ ts, k ≤ t.position.start) → ∀ n ∈ ns, k ≤ n.position.start := by
  induction h with
  | nil => simp
  | @plain n p ts ns _ _ ih =>
    rw [List.pairwise_cons] at hs
    obtain ⟨h1, h2⟩ := ih hs.2
    refine ⟨List.pairwise_cons.2 ⟨fun a ha => ?_, h1⟩, fun k hk a ha => ?_⟩
    · exact h2 _ hs.1 a ha
    · rcases List.mem_cons.1 ha with rfl | ha
      · exact hk ⟨.number n, p⟩ (by simp)
      · exact h2 k (fun t ht => hk t (by simp [ht])) a ha
  | @negated n q p ts ns _ _ ih =>
    rw [List.pairwise_cons, List.pairwise_cons] at hs
    obtain ⟨h0, h3, h4⟩ := hs
    obtain ⟨h1, h2⟩ := ih h4
    have h5 := h0 ⟨.number n, p⟩ (by simp)
    refine ⟨List.pairwise_cons.2 ⟨fun a ha => ?_, h1⟩, fun k hk a ha => ?_⟩
    · have := h2 _ h3 a ha
      simp only [Position.stop] at this h5 ⊢
      omega
    · rcases List.mem_cons.1 ha with rfl | ha
      · exact hk ⟨.binary .subtract, q⟩ (by simp)
      · exact h2 k (fun t ht => hk t (by simp [ht])) a ha

theorem integersAt_iff {arguments : Str} (ha : Ascii arguments) (ps : List (Positioned Int)) :
    IntegersAt arguments ps ↔ tokenizeIntList arguments 10 = .ok ps := by
  rw [C08_int_list_iff 10 (by decide) (by decide)]
  exact ⟨fun ⟨h1, h2⟩ => ⟨ha, h1, h2⟩, fun ⟨_, h1, h2⟩ => ⟨h1, h2⟩⟩

theorem integersAt_ordered {arguments : Str} {ps : List (Positioned Int)} (h : IntegersAt arguments ps) :
    ps.Pairwise fun a b => a.position.stop ≤ b.position.start := by
  obtain ⟨_, ts, h1, h2⟩ := h
  exact (signedInts_ordered h2 (lexes_pairwise h1)).1

theorem slashed_tokenize {arguments : Str} (ha : Ascii arguments) (name : Str) (p : Position) (radix : Nat) :
    SlashedAt arguments name p ↔ ∃ args q, tokenize arguments radix = .ok (.command ⟨name, p⟩ ⟨args, q⟩) := by
  have hx : ∀ c : Positioned Str × Positioned Str, tokenize arguments radix = .ok (.command c.1 c.2) ↔
      maybeExtractCommand arguments = some (.command c.1 c.2) := by
    intro c
    unfold tokenize
    rw [findIdx?_ascii_none.2 ha]
    simp only
    cases hm : maybeExtractCommand arguments with
    | some c => simp
    | none =>
      simp only
      cases hl : tokenizeLoop radix 0 arguments [] [] <;> simp
  constructor
  · rintro ⟨pre, tail, h1, h2, h3, h4, rfl⟩
    have hn : NamedCommand arguments name tail.tail := by
      refine ⟨ha, pre, tail, h1, h2, h3, ?_⟩
      cases tail with
      | nil => exact .inl ⟨rfl, rfl⟩
      | cons c cs => exact .inr ⟨c, h4 c cs rfl, rfl⟩
    obtain ⟨p, q, ht⟩ := tokenize_named hn radix
    have hm := (hx (⟨name, p⟩, ⟨tail.tail, q⟩)).1 ht
    obtain ⟨pre', name', args', tail', hh, k1, k2, k3, k4⟩ := maybeExtractCommand_some hm
    simp only [ParsedInput.command.injEq, Positioned.mk.injEq] at hh
    obtain ⟨⟨rfl, rfl⟩, rfl, rfl⟩ := hh
    have k5 : (tail = [] ∧ tail.tail = []) ∨ ∃ b, Blank b ∧ tail = b :: tail.tail := by
      cases tail with
      | nil => exact .inl ⟨rfl, rfl⟩
      | cons c cs => exact .inr ⟨c, h4 c cs rfl, rfl⟩
    obtain ⟨rfl, _, _⟩ := commandSplit_unique (h1.symm.trans k1) h2 k2 h3 k3 k5 k4
    exact ⟨_, _, ht⟩
  · rintro ⟨args, q, h⟩
    have hm := (hx (⟨name, p⟩, ⟨args, q⟩)).1 h
    obtain ⟨pre', name', args', tail', hh, k1, k2, k3, k4⟩ := maybeExtractCommand_some hm
    simp only [ParsedInput.command.injEq, Positioned.mk.injEq] at hh
    obtain ⟨⟨rfl, rfl⟩, rfl, rfl⟩ := hh
    refine ⟨pre', tail', k1, k2, k3, ?_, rfl⟩
    rintro c cs rfl
    rcases k4 with ⟨h, _⟩ | ⟨b, hb, h⟩
    · cases h
    · rw [List.cons.injEq] at h
      rw [h.1]; exact hb

theorem slashed_command {arguments name : Str} {p : Position} (h : SlashedAt arguments name p) :
    CommandLine arguments := by
  obtain ⟨pre, tail, h1, h2, _⟩ := h
  exact ⟨pre, name ++ tail, by rw [h1]; simp, h2⟩

theorem badInteger_not {ts : List PTok} {t : Str} {p : Position} (h : BadInteger ts t p)
    (hs : ts.Pairwise fun a b => a.position.stop ≤ b.position.start) {ns : List (Positioned Int)}
    (hn : ∀ t ∈ ts, ∀ v, t.value = .number v → 0 ≤ v) : ¬ SignedInts ts ns := by
  intro k
  have := (intListLoop_iff ts [] ns hn hs).1.2 ⟨ns, by simp, k⟩
  rw [badInteger_loop h hs] at this
  cases this

theorem err_pos_iff {α : Type} (a b : Str) (p q : Position) :
    (Outcome.err ⟨a, p⟩ : Outcome (Positioned Str) α) = .err ⟨b, q⟩ ↔ a = b ∧ p = q := by
  constructor
  · intro h
    injection h with h
    injection h with h1 h2
    exact ⟨h1, h2⟩
  · rintro ⟨rfl, rfl⟩
    rfl

theorem slashNumber_text (name : Str) : (ParseError.invalidNumber ('/' :: name)).display =
    "Unable to parse number: '/".toList ++ name ++ "'".toList := by
  have e : "Unable to parse number: '/".toList = "Unable to parse number: '".toList ++ ['/'] := by decide
  show "Unable to parse number: '".toList ++ ('/' :: name) ++ "'".toList = _
  rw [e, List.append_assoc _ ['/'] name]
  rfl

theorem slashName_text (name : Str) : (ParseError.invalidVariable ('/' :: name)).display =
    "Invalid variable name: '/".toList ++ name ++ "'".toList := by
  have e : "Invalid variable name: '/".toList = "Invalid variable name: '".toList ++ ['/'] := by decide
  show "Invalid variable name: '".toList ++ ('/' :: name) ++ "'".toList = _
  rw [e, List.append_assoc _ ['/'] name]
  rfl

theorem listWord_text (w : Str) : listErrorMessage (.invalidNumber w) =
    "Invalid variable name: '".toList ++ w ++ "'".toList := rfl

theorem noIntegers_iff {arguments : Str} (ha : Ascii arguments) (t : Str) (p : Position) :
    tokenizeIntList arguments 10 = .err ⟨t, p⟩ ↔ NoIntegers arguments t p := by
  unfold tokenizeIntList
  rcases tokenize_spec (radix := 10) (by omega) (by omega) arguments with
    ⟨i, _, h, _⟩ | ⟨_, c, hp, h, he⟩ | ⟨_, hc, ⟨ts, he, h⟩ | ⟨w, s, he, hb, h⟩⟩
  · exact absurd ha h
  · obtain ⟨pre, name, args, tail, rfl, _⟩ := maybeExtractCommand_some hp
    rw [he]
    have hsl := (slashed_tokenize ha name ⟨pre.length, name.length + 1⟩ 10).2 ⟨_, _, he⟩
    simp only
    rw [err_pos_iff, slashNumber_text]
    constructor
    · rintro ⟨h1, rfl⟩
      rw [← h1]
      exact .slash hsl
    · intro k
      cases k with
      | slash k =>
        obtain ⟨args', q', k'⟩ := (slashed_tokenize ha _ _ 10).1 k
        rw [he] at k'
        simp only [Outcome.ok.injEq, ParsedInput.command.injEq, Positioned.mk.injEq] at k'
        obtain ⟨⟨rfl, rfl⟩, _⟩ := k'
        exact ⟨rfl, rfl⟩
      | word k _ => exact absurd h k
      | token k _ => exact absurd h k
  · rw [he]
    have hl := (h ts).2 rfl
    have hn := lexes_number_nonneg hl
    have hs := lexes_pairwise hl
    simp only
    constructor
    · intro k
      rcases integer_total ts hn with ⟨ns, k'⟩ | ⟨t', p', k'⟩
      · rw [(intListLoop_iff ts [] ns hn hs).1.2 ⟨ns, by simp, k'⟩] at k
        cases k
      · rw [badInteger_loop k' hs] at k
        simp only [Outcome.err.injEq, Positioned.mk.injEq] at k
        obtain ⟨rfl, rfl⟩ := k
        exact .token hc hl k'
    · intro k
      cases k with
      | slash k => exact absurd (slashed_command k) hc
      | word _ k =>
        have := (C03_badWord_iff 10 (by omega) (by omega) arguments ha hc _).2 ⟨_, _, k, rfl⟩
        rw [he] at this
        cases this
      | token _ k1 k2 =>
        rw [(h _).1 k1] at k2
        exact badInteger_loop k2 hs _
  · rw [he]
    simp only
    rw [err_pos_iff, listWord_text]
    constructor
    · rintro ⟨h1, rfl⟩
      rw [← h1]
      exact .word hc hb
    · intro k
      cases k with
      | slash k => exact absurd (slashed_command k) hc
      | word _ k =>
        obtain ⟨rfl, rfl⟩ := firstBadWord_unique hb k
        exact ⟨rfl, rfl⟩
      | token _ k1 _ => exact absurd k1 (h _)

theorem badName_loop {ts : List PTok} {t : Str} {p : Position} (h : BadName ts t p)
    (acc : List (Positioned Str)) : variableListLoop ts acc = .err ⟨t, p⟩ := by
  obtain ⟨ts1, t', ts2, rfl, h1, h2, rfl⟩ := h
  induction ts1 generalizing acc with
  | nil =>
    rw [List.nil_append, variableListLoop.eq_def]
    cases t' with
    | «variable» x => exact absurd rfl (h2 x)
    | _ => simp only [called_eq]
  | cons t ts ih =>
    obtain ⟨x, hx⟩ := h1 t (by simp)
    rw [List.cons_append, variableListLoop.eq_def]
    simp only [hx]
    exact ih _ fun t ht => h1 t (by simp [ht])

theorem name_total (ts : List PTok) : (∀ t ∈ ts, ∃ x, t.value = .variable x) ∨ ∃ t p, BadName ts t p := by
  induction ts with
  | nil => exact .inl (by simp)
  | cons t ts ih =>
    by_cases h : ∃ x, t.value = .variable x
    · rcases ih with k | ⟨t', p, ts1, u, ts2, rfl, k1, k2, rfl⟩
      · refine .inl fun u hu => ?_
        rcases List.mem_cons.1 hu with rfl | hu
        · exact h
        · exact k u hu
      · refine .inr ⟨_, p, t :: ts1, u, ts2, rfl, ?_, k2, rfl⟩
        intro u hu
        rcases List.mem_cons.1 hu with rfl | hu
        · exact h
        · exact k1 u hu
    · exact .inr ⟨_, t.position, [], t.value, ts, rfl, by simp, fun x e => h ⟨x, e⟩, rfl⟩

theorem names_loop {ts : List PTok} (h : ∀ t ∈ ts, ∃ x, t.value = .variable x) :
    ∃ ns, variableListLoop ts [] = .ok ns := by
  have : ∃ ns, List.Forall₂ (fun (t : PTok) (n : Positioned Str) => t.value = .variable n.value ∧
      n.position = t.position) ts ns := by
    induction ts with
    | nil => exact ⟨[], .nil⟩
    | cons t ts ih =>
      obtain ⟨x, hx⟩ := h t (by simp)
      obtain ⟨ns, k⟩ := ih fun t ht => h t (by simp [ht])
      exact ⟨⟨x, t.position⟩ :: ns, .cons ⟨hx, rfl⟩ k⟩
  obtain ⟨ns, k⟩ := this
  exact ⟨ns, (variableListLoop_iff _ _ _).2 ⟨ns, by simp, k⟩⟩

theorem noNames_iff {arguments : Str} (ha : Ascii arguments) (t : Str) (p : Position) :
    tokenizeVariableList arguments = .err ⟨t, p⟩ ↔ NoNames arguments t p := by
  unfold tokenizeVariableList
  rcases tokenize_spec (radix := 10) (by omega) (by omega) arguments with
    ⟨i, _, h, _⟩ | ⟨_, c, hp, h, he⟩ | ⟨_, hc, ⟨ts, he, h⟩ | ⟨w, s, he, hb, h⟩⟩
  · exact absurd ha h
  · obtain ⟨pre, name, args, tail, rfl, _⟩ := maybeExtractCommand_some hp
    rw [he]
    have hsl := (slashed_tokenize ha name ⟨pre.length, name.length + 1⟩ 10).2 ⟨_, _, he⟩
    simp only
    rw [err_pos_iff, slashName_text]
    constructor
    · rintro ⟨h1, rfl⟩
      rw [← h1]
      exact .slash hsl
    · intro k
      cases k with
      | slash k =>
        obtain ⟨args', q', k'⟩ := (slashed_tokenize ha _ _ 10).1 k
        rw [he] at k'
        simp only [Outcome.ok.injEq, ParsedInput.command.injEq, Positioned.mk.injEq] at k'
        obtain ⟨⟨rfl, rfl⟩, _⟩ := k'
        exact ⟨rfl, rfl⟩
      | word k _ => exact absurd h k
      | token k _ => exact absurd h k
  · rw [he]
    have hl := (h ts).2 rfl
    simp only
    constructor
    · intro k
      rcases name_total ts with k' | ⟨t', p', k'⟩
      · obtain ⟨ns, k'⟩ := names_loop k'
        rw [k'] at k
        cases k
      · rw [badName_loop k'] at k
        simp only [Outcome.err.injEq, Positioned.mk.injEq] at k
        obtain ⟨rfl, rfl⟩ := k
        exact .token hc hl k'
    · intro k
      cases k with
      | slash k => exact absurd (slashed_command k) hc
      | word _ k =>
        have := (C03_badWord_iff 10 (by omega) (by omega) arguments ha hc _).2 ⟨_, _, k, rfl⟩
        rw [he] at this
        cases this
      | token _ k1 k2 =>
        rw [(h _).1 k1] at k2
        exact badName_loop k2 _
  · rw [he]
    simp only
    rw [err_pos_iff, listWord_text]
    constructor
    · rintro ⟨h1, rfl⟩
      rw [← h1]
      exact .word hc hb
    · intro k
      cases k with
      | slash k => exact absurd (slashed_command k) hc
      | word _ k =>
        obtain ⟨rfl, rfl⟩ := firstBadWord_unique hb k
        exact ⟨rfl, rfl⟩
      | token _ k1 _ => exact absurd k1 (h _)

theorem names_iff {arguments : Str} (ha : Ascii arguments) :
    Names arguments ↔ ∃ ns, tokenizeVariableList arguments = .ok ns := by
  simp only [C09_variable_list_iff]
  constructor
  · rintro ⟨h1, ts, h2, h3⟩
    obtain ⟨ns, k⟩ := names_loop h3
    obtain ⟨ns', _, k⟩ := (variableListLoop_iff _ _ _).1 k
    exact ⟨ns', ha, h1, ts, h2, k⟩
  · rintro ⟨ns, _, h1, ts, h2, h3⟩
    refine ⟨h1, ts, h2, ?_⟩
    clear h2
    induction h3 with
    | nil => simp
    | cons h _ ih =>
      intro t ht
      rcases List.mem_cons.1 ht with rfl | ht
      · exact ⟨_, h.1⟩
      · exact ih t ht

theorem variableList_no_panic {arguments : Str} (ha : Ascii arguments) :
    (∃ ns, tokenizeVariableList arguments = .ok ns) ∨ ∃ e, tokenizeVariableList arguments = .err e := by
  unfold tokenizeVariableList
  rcases tokenize_spec (radix := 10) (by omega) (by omega) arguments with
    ⟨i, _, h, _⟩ | ⟨_, c, hp, h, he⟩ | ⟨_, hc, ⟨ts, he, h⟩ | ⟨w, s, he, hb, h⟩⟩
  · exact absurd ha h
  · obtain ⟨pre, name, args, tail, rfl, _⟩ := maybeExtractCommand_some hp
    rw [he]; simp
  · rw [he]
    rcases name_total ts with k' | ⟨t', p', k'⟩
    · obtain ⟨ns, k'⟩ := names_loop k'
      exact .inl ⟨ns, k'⟩
    · exact .inr ⟨_, badName_loop k' _⟩
  · rw [he]; simp

end Bcalc
