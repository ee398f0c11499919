import Verif.Proof.Refusal
import Verif.Props.Settings

/-! # Why commands are refused: the commands -/

namespace Bcalc

open Spec

/-! ## The topic of `/help` -/

theorem findIdx_blanks {pre rest : Str} (h : ∀ c ∈ pre, Blank c) (hr : ∀ c cs, rest = c :: cs → ¬ Blank c)
    (hne : rest ≠ []) : (pre ++ rest).findIdx (fun c => !isAsciiWs c) = pre.length ∧
      (pre ++ rest).findIdx? (fun c => !isAsciiWs c) = some pre.length := by
  obtain ⟨c, cs, rfl⟩ := List.exists_cons_of_ne_nil hne
  have hc : isAsciiWs c = false := by
    have := hr c cs rfl
    rw [← isAsciiWs_iff] at this
    simpa using this
  have hp : ∀ x ∈ pre, isAsciiWs x = true := fun x hx => (isAsciiWs_iff x).2 (h x hx)
  induction pre with
  | nil => simp [List.findIdx_cons, List.findIdx?_cons, hc]
  | cons a pre ih =>
    have ha := hp a (by simp)
    obtain ⟨h1, h2⟩ := ih (fun c hc => h c (by simp [hc])) (fun x hx => hp x (by simp [hx]))
    constructor
    · rw [List.cons_append, List.findIdx_cons, h1]; simp [ha]
    · rw [List.cons_append, List.findIdx?_cons, h2]; simp [ha]

theorem trim_topic {arguments topic : Str} {start : Nat} (h : Topic arguments topic start) (q : Position) :
    (⟨arguments, q⟩ : Positioned Str).trim = ⟨topic, ⟨q.start + start, topic.length⟩⟩ := by
  obtain ⟨pre, post, rfl, h1, h2, h3, h4, h5, rfl⟩ := h
  have k1 := (findIdx_blanks (pre := pre) (rest := topic ++ post) h1 (by
    intro c cs e
    cases topic with
    | nil => exact absurd rfl h3
    | cons a as =>
      rw [List.cons_append, List.cons.injEq] at e
      rw [← e.1]; exact h4 a as rfl) (by simp [h3])).2
  have k2 := (findIdx_blanks (pre := post.reverse) (rest := topic.reverse ++ pre.reverse) (by simpa using h2) (by
    intro c cs e
    have hr : topic.reverse ≠ [] := by simpa using h3
    obtain ⟨a, as, hr⟩ := List.exists_cons_of_ne_nil hr
    rw [hr, List.cons_append, List.cons.injEq] at e
    have : topic = as.reverse ++ [a] := by
      have := congrArg List.reverse hr
      simpa using this
    rw [← e.1]
    exact h5 a _ this) (by simp [h3])).1
  unfold Positioned.trim
  simp only
  rw [List.append_assoc, k1]
  simp only
  have e : (pre ++ (topic ++ post)).reverse = post.reverse ++ (topic.reverse ++ pre.reverse) := by simp
  rw [e, k2]
  have e2 : (List.drop pre.length (pre ++ (topic ++ post))).take
      ((pre ++ (topic ++ post)).length - post.reverse.length - pre.length) = topic := by
    rw [List.drop_left]
    have : (pre ++ (topic ++ post)).length - post.reverse.length - pre.length = topic.length := by
      simp; omega
    rw [this, List.take_left]
  rw [e2]

theorem trim_blank {arguments : Str} (h : ∀ c ∈ arguments, Blank c) (q : Position) :
    (⟨arguments, q⟩ : Positioned Str).trim.value = [] := by
  unfold Positioned.trim
  have : arguments.findIdx? (fun c => !isAsciiWs c) = none := by
    rw [List.findIdx?_eq_none_iff]
    intro c hc
    simp [(isAsciiWs_iff c).2 (h c hc)]
  simp only
  rw [this]

theorem topic_total (arguments : Str) : (∀ c ∈ arguments, Blank c) ∨ ∃ topic start, Topic arguments topic start := by
  by_cases h : ∀ c ∈ arguments, Blank c
  · exact .inl h
  · right
    have key : ∀ l : Str, (¬ ∀ c ∈ l, Blank c) → ∃ pre c rest, l = pre ++ c :: rest ∧ (∀ c ∈ pre, Blank c) ∧ ¬ Blank c := by
      intro l
      induction l with
      | nil => intro h; exact absurd (by simp) h
      | cons a l ih =>
        intro h
        by_cases ha : Blank a
        · obtain ⟨pre, c, rest, rfl, h1, h2⟩ := ih (by
            intro h'
            exact h (by
              intro c hc
              rcases List.mem_cons.1 hc with rfl | hc
              · exact ha
              · exact h' c hc))
          refine ⟨a :: pre, c, rest, rfl, ?_, h2⟩
          intro c hc
          rcases List.mem_cons.1 hc with rfl | hc
          · exact ha
          · exact h1 c hc
        · exact ⟨[], a, l, rfl, by simp, ha⟩
    obtain ⟨pre, c, rest, rfl, h1, h2⟩ := key _ h
    obtain ⟨post, d, rest', e, h3, h4⟩ := key (c :: rest).reverse (by
      intro h'
      exact h2 (h' c (by simp)))
    have e' : c :: rest = rest'.reverse ++ [d] ++ post.reverse := by
      have := congrArg List.reverse e
      simpa using this
    refine ⟨rest'.reverse ++ [d], pre.length, pre, post.reverse, by rw [e']; simp, h1, by simpa using h3, by simp,
      ?_, ?_, rfl⟩
    · intro x xs hx
      rw [hx, List.cons_append, List.cons.injEq] at e'
      rw [← e'.1]; exact h2
    · intro x xs hx
      have := List.append_inj_right' hx rfl
      rw [List.cons.injEq] at this
      rw [← this.1]; exact h4

/-! ## Where the arguments are -/

theorem ascii_arguments {line name arguments : Str} (h : NamedCommand line name arguments) : Ascii arguments := by
  obtain ⟨ha, pre, tail, rfl, _, _, h4⟩ := h
  rcases h4 with ⟨_, rfl⟩ | ⟨b, _, rfl⟩
  · intro c hc; cases hc
  · exact fun c hc => ha c (by simp [hc])

theorem command_place {line : Str} {name : Str} {p q : Position} {arguments : Str} {radix : Nat}
    (h : tokenize line radix = .ok (.command ⟨name, p⟩ ⟨arguments, q⟩)) :
    q = ⟨line.length - arguments.length, arguments.length⟩ := by
  have ha := (named_of_tokenize h).1
  unfold tokenize at h
  rw [findIdx?_ascii_none.2 ha] at h
  simp only at h
  cases hm : maybeExtractCommand line with
  | none =>
    rw [hm] at h
    simp only at h
    cases hl : tokenizeLoop radix 0 line [] [] <;> rw [hl] at h <;> simp at h
  | some c =>
    rw [hm] at h
    simp only [Outcome.ok.injEq] at h
    subst h
    obtain ⟨pre, name, args, tail, hh, _⟩ := maybeExtractCommand_some hm
    simp only [ParsedInput.command.injEq, Positioned.mk.injEq] at hh
    obtain ⟨_, rfl, rfl⟩ := hh
    rfl

/-! ## The commands -/

/-- The error of the integer list, as a failure. -/
theorem intListArgs_cases {arguments : Str} (ha : Ascii arguments) :
    (∃ ps, IntegersAt arguments ps ∧ intListArgs arguments = .ok ps) ∨
    ∃ t p, NoIntegers arguments t p ∧ intListArgs arguments = .err (.input t (some p)) := by
  unfold intListArgs
  rcases C08_no_crash 10 (by omega) (by omega) arguments with ⟨ps, h⟩ | ⟨⟨t, p⟩, h⟩
  · rw [h]; exact .inl ⟨ps, (integersAt_iff ha _).2 h, rfl⟩
  · rw [h]; exact .inr ⟨t, p, (noIntegers_iff ha _ _).1 h, rfl⟩

theorem integersAt_unique {arguments : Str} (ha : Ascii arguments) {ps ps' : List (Positioned Int)}
    (h : IntegersAt arguments ps) (h' : IntegersAt arguments ps') : ps = ps' := by
  rw [integersAt_iff ha] at h h'
  rw [h] at h'
  exact Outcome.ok.inj h'

theorem noIntegers_unique {arguments : Str} (ha : Ascii arguments) {t t' : Str} {p p' : Position}
    (h : NoIntegers arguments t p) (h' : NoIntegers arguments t' p') : t = t' ∧ p = p' := by
  rw [← noIntegers_iff ha] at h h'
  rw [h] at h'
  exact (err_pos_iff _ _ _ _).1 h'

theorem noIntegers_not {arguments : Str} (ha : Ascii arguments) {t : Str} {p : Position}
    (h : NoIntegers arguments t p) (ps : List (Positioned Int)) : ¬ IntegersAt arguments ps := by
  intro k
  rw [integersAt_iff ha] at k
  rw [(noIntegers_iff ha _ _).2 h] at k
  cases k

theorem tooMany_at {arguments : Str} {p q : Positioned Int} {ps : List (Positioned Int)}
    (h : IntegersAt arguments (p :: ps ++ [q])) :
    tooManyArguments p q = .input "Too many arguments".toList (some (through p.position q.position)) := by
  have := (List.pairwise_cons.1 (integersAt_ordered h)).1 q (by simp)
  unfold tooManyArguments inputError
  rw [through_eq this]

theorem last_split {α : Type} (a b : α) (l : List α) :
    ∃ mid, a :: b :: l = a :: mid ++ [(b :: l).getLast (by simp)] ∧ mid.length = l.length := by
  refine ⟨(b :: l).dropLast, ?_, by simp⟩
  rw [List.cons_append, List.dropLast_append_getLast]

theorem intListArgs_of {arguments : Str} (ha : Ascii arguments) {ps : List (Positioned Int)}
    (h : IntegersAt arguments ps) : intListArgs arguments = .ok ps := by
  unfold intListArgs
  rw [(integersAt_iff ha _).1 h]
  rfl

theorem intListArgs_not {arguments : Str} (ha : Ascii arguments) {t : Str} {p : Position}
    (h : NoIntegers arguments t p) : intListArgs arguments = .err (.input t (some p)) := by
  unfold intListArgs
  rw [(noIntegers_iff ha _ _).2 h]
  rfl

theorem getLast_snoc {α : Type} {b : α} {l ps : List α} {q : α} (h : ps ++ [q] = b :: l) :
    (b :: l).getLast (by simp) = q := by
  have : (ps ++ [q]).getLast (by simp) = q := by simp
  rw [← this]
  congr 1
  exact h.symm

theorem radix_many (p q : Positioned Int) (ps : List (Positioned Int)) :
    radixArgument (p :: ps ++ [q]) = .err (tooManyArguments p q) := by
  obtain ⟨b, l, e⟩ := List.exists_cons_of_ne_nil (show ps ++ [q] ≠ [] by simp)
  rw [List.cons_append, e, radixArgument, getLast_snoc e]

theorem histcap_many (p q : Positioned Int) (ps : List (Positioned Int)) :
    histcapArgument (p :: ps ++ [q]) = .err (tooManyArguments p q) := by
  obtain ⟨b, l, e⟩ := List.exists_cons_of_ne_nil (show ps ++ [q] ≠ [] by simp)
  rw [List.cons_append, e, histcapArgument, getLast_snoc e]

theorem precision_many (x : Nat) (p q : Positioned Int) (ps : List (Positioned Int)) (h : ps ≠ []) :
    precisionArgument x (p :: ps ++ [q]) = .err (tooManyArguments p q) := by
  obtain ⟨b, l, e⟩ := List.exists_cons_of_ne_nil h
  subst e
  obtain ⟨c, l', e⟩ := List.exists_cons_of_ne_nil (show l ++ [q] ≠ [] by simp)
  have : precisionArgument x (p :: b :: c :: l') =
      .err (tooManyArguments p ((b :: c :: l').getLast (by simp))) := by rw [precisionArgument]
  rw [List.cons_append, List.cons_append, e, this, getLast_snoc (ps := b :: l) (by rw [List.cons_append, e])]

theorem err_input_inj {α : Type} {t t' : Str} {p p' : Option Position}
    (h : (Outcome.err (Failure.input t p) : Outcome Failure α) = .err (.input t' p')) : t = t' ∧ p = p' := by
  injection h with h
  injection h with h1 h2
  exact ⟨h1, h2⟩

/-- What the one-argument integer commands make of their arguments. -/
theorem radix_refused {arguments : Str} (ha : Ascii arguments) (s : Session) (line : Str) {cmd : Cmd}
    (hc : cmd = .radix ∨ cmd = .convertToRadix) (hw : cmd = .convertToRadix → ¬ IsWord arguments "none")
    (t : Str) (p : Option Position) :
    (intListArgs arguments >>= radixArgument) = .err (.input t p) ↔ Objection s line arguments cmd t p := by
  have hk : most cmd = some 1 := by rcases hc with rfl | rfl <;> rfl
  constructor
  · rcases intListArgs_cases ha with ⟨ps, h, e⟩ | ⟨t', p', h, e⟩
    · rw [e, Outcome.bind_ok]
      match ps, h with
      | [], h => intro k; cases k
      | [⟨n, r⟩], h =>
        unfold radixArgument
        simp only
        intro k
        split at k
        · obtain ⟨rfl, rfl⟩ := err_input_inj k
          exact .small hc h ‹_›
        · split at k
          · obtain ⟨rfl, rfl⟩ := err_input_inj k
            exact .large hc h ‹_›
          · cases k
      | a :: b :: l, h =>
        obtain ⟨mid, e1, e2⟩ := last_split a b l
        rw [e1] at h
        rw [e1, radix_many, tooMany_at h]
        intro k
        obtain ⟨rfl, rfl⟩ := err_input_inj k
        exact .tooMany hk h (by omega)
    · rw [e]
      intro k
      obtain ⟨rfl, rfl⟩ := err_input_inj k
      exact .integers hk hw h
  · intro h
    cases h with
    | help => rcases hc with h | h <;> cases h
    | switch h => rcases hc with rfl | rfl <;> rcases h with h | h | h <;> cases h
    | integers _ _ h => rw [intListArgs_not ha h]; rfl
    | tooMany hk' h hl => rw [intListArgs_of ha h, Outcome.bind_ok, radix_many, tooMany_at h]
    | small _ h hn =>
      rw [intListArgs_of ha h, Outcome.bind_ok]
      unfold radixArgument
      simp only
      rw [if_pos hn]
      rfl
    | large _ h hn =>
      rw [intListArgs_of ha h, Outcome.bind_ok]
      unfold radixArgument
      simp only
      rw [if_neg (by omega), if_pos hn]
      rfl
    | precision => rcases hc with h | h <;> cases h
    | extra => rcases hc with h | h <;> cases h
    | sum => rcases hc with h | h <;> cases h
    | sums => rcases hc with h | h <;> cases h
    | capacity => rcases hc with h | h <;> cases h
    | noCapacity => rcases hc with h | h <;> cases h
    | names h => rcases hc with rfl | rfl <;> rcases h with h | h <;> cases h
    | noStore => rcases hc with h | h <;> cases h
    | noDatabase => rcases hc with h | h <;> cases h
    | noReload => rcases hc with h | h <;> cases h

theorem precision_refused {arguments : Str} (ha : Ascii arguments) (s : Session) (line : Str)
    (t : Str) (p : Option Position) :
    (intListArgs arguments >>= precisionArgument s.args.extraPrecision) = .err (.input t p) ↔
      Objection s line arguments .precision t p := by
  constructor
  · rcases intListArgs_cases ha with ⟨ps, h, e⟩ | ⟨t', p', h, e⟩
    · rw [e, Outcome.bind_ok]
      match ps, h with
      | [], h => intro k; cases k
      | [⟨n, r⟩], h =>
        intro k
        rw [precisionArgument] at k
        unfold precisionValues toU8 at k
        by_cases h1 : 0 ≤ n ∧ n < 256
        · simp only [h1, and_self, if_true] at k
          split at k
          · cases k
          · obtain ⟨rfl, rfl⟩ := err_input_inj k
            exact .sum h h1.1 (by omega) (by omega)
        · simp only [h1, if_false] at k
          obtain ⟨rfl, rfl⟩ := err_input_inj k
          exact .precision h (by simp) (by omega)
      | [⟨n, r⟩, ⟨n', r'⟩], h =>
        intro k
        rw [precisionArgument] at k
        unfold precisionValues toU8 at k
        by_cases h1 : 0 ≤ n ∧ n < 256
        · by_cases h2 : 0 ≤ n' ∧ n' < 256
          · simp only [h1, h2, and_self, if_true] at k
            split at k
            · cases k
            · have ho : r.stop ≤ r'.start := (List.pairwise_cons.1 (integersAt_ordered h)).1 ⟨n', r'⟩ (by simp)
              rw [inputError, through_eq ho] at k
              obtain ⟨rfl, rfl⟩ := err_input_inj k
              exact .sums h h1.1 (by omega) h2.1 (by omega) (by omega)
          · simp only [h1, h2, and_self, if_true, if_false] at k
            obtain ⟨rfl, rfl⟩ := err_input_inj k
            exact .extra h h1.1 (by omega) (by omega)
        · simp only [h1, if_false] at k
          obtain ⟨rfl, rfl⟩ := err_input_inj k
          exact .precision h (by simp) (by omega)
      | a :: b :: c :: l, h =>
        obtain ⟨mid, e1, e2⟩ := last_split a b (c :: l)
        rw [e1] at h
        rw [e1, precision_many _ _ _ _ (by intro h0; subst h0; cases e2), tooMany_at h]
        intro k
        obtain ⟨rfl, rfl⟩ := err_input_inj k
        exact .tooMany (k := 2) rfl h (by rw [e2]; simp)
    · rw [e]
      intro k
      obtain ⟨rfl, rfl⟩ := err_input_inj k
      exact .integers (k := 2) rfl (by rintro ⟨⟩) h
  · intro h
    cases h with
    | switch h => rcases h with h | h | h <;> cases h
    | integers _ _ h => rw [intListArgs_not ha h]; rfl
    | @tooMany _ k p ps q hk' h hl =>
      have : ps ≠ [] := by
        rintro rfl
        cases hk'
        exact absurd hl (by simp)
      rw [intListArgs_of ha h, Outcome.bind_ok, precision_many _ _ _ _ this, tooMany_at h]
    | small hc => rcases hc with h | h <;> cases h
    | large hc => rcases hc with h | h <;> cases h
    | @precision n p ps h hl hn =>
      rw [intListArgs_of ha h, Outcome.bind_ok]
      have h1 : ¬ (0 ≤ n ∧ n < 256) := by omega
      match ps, hl with
      | [], _ =>
        rw [precisionArgument]
        unfold precisionValues toU8
        simp only [h1, if_false]
        rfl
      | [_], _ =>
        rw [precisionArgument]
        unfold precisionValues toU8
        simp only [h1, if_false]
        rfl
      | _ :: _ :: _, hl => simp at hl
    | @extra n p n' p' h h1 h2 h3 =>
      have h1 : (0 ≤ n ∧ n < 256) := by omega
      have h2 : ¬ (0 ≤ n' ∧ n' < 256) := by omega
      rw [intListArgs_of ha h, Outcome.bind_ok, precisionArgument]
      unfold precisionValues toU8
      simp only [h1, h2, and_self, if_true, if_false]
      rfl
    | @sum n p h h1 h2 h3 =>
      have h1 : (0 ≤ n ∧ n < 256) := by omega
      rw [intListArgs_of ha h, Outcome.bind_ok, precisionArgument]
      unfold precisionValues toU8
      simp only [h1, and_self, if_true]
      rw [if_neg (by omega)]
      rfl
    | @sums n p n' p' h h1 h2 h3 h4 h5 =>
      have h1 : (0 ≤ n ∧ n < 256) := by omega
      have h2 : (0 ≤ n' ∧ n' < 256) := by omega
      rw [intListArgs_of ha h, Outcome.bind_ok, precisionArgument]
      unfold precisionValues toU8
      simp only [h1, h2, and_self, if_true]
      have ho : p.stop ≤ p'.start := (List.pairwise_cons.1 (integersAt_ordered h)).1 ⟨n', p'⟩ (by simp)
      rw [if_neg (by omega), inputError, through_eq ho]
    | names h => rcases h with h | h <;> cases h

/-- The arguments of `/histcap`. -/
theorem histcap_argument {arguments : Str} (ha : Ascii arguments) :
    (∃ ps, IntegersAt arguments ps ∧ ps.length ≤ 1 ∧ (∀ p ∈ ps, 1 ≤ p.value) ∧
      (intListArgs arguments >>= histcapArgument) = .ok (ps.head?.map (·.value))) ∨
    (∃ t p, NoIntegers arguments t p ∧ (intListArgs arguments >>= histcapArgument) = .err (.input t (some p))) ∨
    (∃ n p, IntegersAt arguments [⟨n, p⟩] ∧ n < 1 ∧ (intListArgs arguments >>= histcapArgument) =
      .err (.input "Maximum history size must be at least 1".toList (some p))) ∨
    (∃ p ps q, IntegersAt arguments (p :: ps ++ [q]) ∧ (intListArgs arguments >>= histcapArgument) =
      .err (.input "Too many arguments".toList (some (through p.position q.position)))) := by
  rcases intListArgs_cases ha with ⟨ps, h, e⟩ | ⟨t', p', h, e⟩
  · rw [e, Outcome.bind_ok]
    match ps, h with
    | [], h => exact .inl ⟨[], h, by simp, by simp, rfl⟩
    | [⟨n, r⟩], h =>
      by_cases hn : n < 1
      · refine .inr (.inr (.inl ⟨n, r, h, hn, ?_⟩))
        unfold histcapArgument validateMaxHistorySize
        simp only
        rw [if_pos hn]
      · refine .inl ⟨_, h, by simp, by simpa using (by omega : 1 ≤ n), ?_⟩
        unfold histcapArgument validateMaxHistorySize
        simp only
        rw [if_neg hn]
        rfl
    | a :: b :: l, h =>
      obtain ⟨mid, e1, e2⟩ := last_split a b l
      rw [e1] at h
      rw [e1, histcap_many, tooMany_at h]
      exact .inr (.inr (.inr ⟨_, _, _, h, rfl⟩))
  · rw [e]
    exact .inr (.inl ⟨t', p', h, rfl⟩)

theorem histcap_refused {arguments : Str} (ha : Ascii arguments) (s : Session) (line : Str) (q : Position)
    (t : Str) (p : Option Position) :
    (executeHistcap ⟨arguments, q⟩ s).1 = .err (.input t p) ↔ Objection s line arguments .histcap t p := by
  have hu : ∀ {ps ps'}, IntegersAt arguments ps → IntegersAt arguments ps' → ps = ps' := integersAt_unique ha
  unfold executeHistcap
  simp only
  rcases histcap_argument ha with ⟨ps, h1, h2, h3, e⟩ | ⟨t', p', h, e⟩ | ⟨n, r, h, hn, e⟩ | ⟨a, l, b, h, e⟩
  · rw [e]
    simp only
    cases hd : s.db with
    | none =>
      simp only
      constructor
      · intro k
        obtain ⟨rfl, rfl⟩ := err_input_inj k
        exact .noCapacity hd h1 h2 h3
      · intro k
        cases k with
        | switch h => rcases h with h | h | h <;> cases h
        | integers _ _ k => exact absurd h1 (noIntegers_not ha k _)
        | tooMany hk k hl =>
          cases hk
          rw [hu h1 k] at h2
          simp at h2
        | small hc => rcases hc with h | h <;> cases h
        | large hc => rcases hc with h | h <;> cases h
        | capacity k hn =>
          rw [hu h1 k] at h3
          have := h3 _ (List.mem_singleton.2 rfl)
          simp only at this
          omega
        | noCapacity => rfl
        | names h => rcases h with h | h <;> cases h
    | some db =>
      simp only
      constructor
      · intro k
        exfalso
        cases hh : ps.head?.map (·.value) with
        | some size =>
          rw [hh] at k
          simp only at k
          rcases hx : db.setMaxHistorySize size with ⟨r, db'⟩
          rw [hx] at k
          rcases r with _ | _ | _ | _ <;> simp at k
        | none =>
          rw [hh] at k
          simp only at k
          rcases hx : db.getMaxHistorySize with ⟨r, db'⟩
          rw [hx] at k
          rcases r with _ | _ | _ | _ <;> simp at k
      · intro k
        exfalso
        cases k with
        | switch h => rcases h with h | h | h <;> cases h
        | integers _ _ k => exact absurd h1 (noIntegers_not ha k _)
        | tooMany hk k hl =>
          cases hk
          rw [hu h1 k] at h2
          simp at h2
        | small hc => rcases hc with h | h <;> cases h
        | large hc => rcases hc with h | h <;> cases h
        | capacity k hn =>
          rw [hu h1 k] at h3
          have := h3 _ (List.mem_singleton.2 rfl)
          simp only at this
          omega
        | noCapacity k => rw [hd] at k; cases k
        | names h => rcases h with h | h <;> cases h
  · rw [e]
    simp only
    constructor
    · intro k
      obtain ⟨rfl, rfl⟩ := err_input_inj k
      exact .integers (k := 1) rfl (by rintro ⟨⟩) h
    · intro k
      cases k with
      | switch h => rcases h with h | h | h <;> cases h
      | integers _ _ k =>
        obtain ⟨rfl, rfl⟩ := noIntegers_unique ha h k
        rfl
      | tooMany hk k hl => exact absurd k (noIntegers_not ha h _)
      | small hc => rcases hc with h | h <;> cases h
      | large hc => rcases hc with h | h <;> cases h
      | capacity k hn => exact absurd k (noIntegers_not ha h _)
      | noCapacity _ k => exact absurd k (noIntegers_not ha h _)
      | names h => rcases h with h | h <;> cases h
  · rw [e]
    simp only
    constructor
    · intro k
      obtain ⟨rfl, rfl⟩ := err_input_inj k
      exact .capacity h hn
    · intro k
      cases k with
      | switch h => rcases h with h | h | h <;> cases h
      | integers _ _ k => exact absurd h (noIntegers_not ha k _)
      | tooMany hk k hl =>
        have := congrArg List.length (hu h k)
        simp at this
      | small hc => rcases hc with h | h <;> cases h
      | large hc => rcases hc with h | h <;> cases h
      | capacity k hn =>
        have := hu h k
        simp only [List.cons.injEq, Positioned.mk.injEq, and_true] at this
        rw [this.2]
      | noCapacity _ k _ h3 =>
        rw [← hu h k] at h3
        have := h3 _ (List.mem_singleton.2 rfl)
        simp only at this
        omega
      | names h => rcases h with h | h <;> cases h
  · rw [e]
    simp only
    constructor
    · intro k
      obtain ⟨rfl, rfl⟩ := err_input_inj k
      exact .tooMany (k := 1) rfl h (by omega)
    · intro k
      cases k with
      | switch h => rcases h with h | h | h <;> cases h
      | integers _ _ k => exact absurd h (noIntegers_not ha k _)
      | tooMany hk k hl =>
        have := hu h k
        rw [List.cons_append, List.cons_append, List.cons.injEq] at this
        have h2 := List.append_inj' this.2 rfl
        rw [this.1, (List.cons.inj h2.2).1]
      | small hc => rcases hc with h | h <;> cases h
      | large hc => rcases hc with h | h <;> cases h
      | capacity k hn =>
        have := congrArg List.length (hu h k)
        simp at this
      | noCapacity _ k hl _ =>
        rw [← hu h k] at hl
        simp at hl
      | names h => rcases h with h | h <;> cases h

theorem reloadLoop_runtime (l : List Str) (vars : VariableStore) (db : SavedData) (out : Str) (touched : List Str)
    (t : Str) (p : Option Position) : (reloadLoop l vars db out touched).1 ≠ .err (.input t p) := by
  induction l generalizing vars db out touched with
  | nil => simp [reloadLoop]
  | cons n l ih =>
    unfold reloadLoop
    simp only
    rcases vars.reload n db with ⟨r, vars', db'⟩
    rcases r with _ | _ | _ | _
    · exact fun h => ih _ _ _ _ h
    · simp
    · simp
    · simp

theorem purgeLoop_runtime (l : List Str) (vars : VariableStore) (db : Option SavedData)
    (t : Str) (p : Option Position) : (purgeLoop l vars db).1 ≠ .err (.input t p) := by
  induction l generalizing vars db with
  | nil => simp [purgeLoop]
  | cons n l ih =>
    unfold purgeLoop
    rcases vars.purge n db with ⟨r, vars', db'⟩
    rcases r with _ | _ | _ | _
    · exact fun h => ih _ _ h
    · simp
    · simp
    · simp

theorem noNames_not {arguments : Str} (ha : Ascii arguments) {t : Str} {p : Position}
    (h : NoNames arguments t p) : ¬ Names arguments := by
  intro k
  obtain ⟨ns, k⟩ := (names_iff ha).1 k
  rw [(noNames_iff ha _ _).2 h] at k
  cases k

theorem noNames_unique {arguments : Str} (ha : Ascii arguments) {t t' : Str} {p p' : Position}
    (h : NoNames arguments t p) (h' : NoNames arguments t' p') : t = t' ∧ p = p' := by
  rw [← noNames_iff ha] at h h'
  rw [h] at h'
  exact (err_pos_iff _ _ _ _).1 h'

theorem reload_refused {arguments : Str} (ha : Ascii arguments) (m : Machine) (s : Session) (line : Str)
    (q : Position) (t : Str) (p : Option Position) :
    (executeReloadVar m ⟨arguments, q⟩ s).1 = .err (.input t p) ↔ Objection s line arguments .reloadVar t p := by
  unfold executeReloadVar
  simp only
  rcases variableList_no_panic ha with ⟨ns, e⟩ | ⟨⟨t', p'⟩, e⟩
  · have hn := (names_iff ha).2 ⟨ns, e⟩
    rw [e]
    simp only
    cases hd : s.db with
    | none =>
      simp only
      constructor
      · intro k
        obtain ⟨rfl, rfl⟩ := err_input_inj k
        exact .noDatabase hd hn
      · intro k
        cases k with
        | switch h => rcases h with h | h | h <;> cases h
        | integers hk => cases hk
        | tooMany hk => cases hk
        | small hc => rcases hc with h | h <;> cases h
        | large hc => rcases hc with h | h <;> cases h
        | names _ k => exact absurd hn (noNames_not ha k)
        | noDatabase => rfl
        | noReload k => rw [hd] at k; cases k
    | some db =>
      simp only
      cases hv : s.vars with
      | none =>
        simp only
        constructor
        · intro k
          obtain ⟨rfl, rfl⟩ := err_input_inj k
          exact .noReload (by rw [hd]; rfl) hv hn
        · intro k
          cases k with
          | switch h => rcases h with h | h | h <;> cases h
          | integers hk => cases hk
          | tooMany hk => cases hk
          | small hc => rcases hc with h | h <;> cases h
          | large hc => rcases hc with h | h <;> cases h
          | names _ k => exact absurd hn (noNames_not ha k)
          | noDatabase k => rw [hd] at k; cases k
          | noReload k => rfl
      | some vars =>
        simp only
        constructor
        · intro k
          exact absurd k (reloadLoop_runtime _ _ _ _ _ t p)
        · intro k
          exfalso
          cases k with
          | switch h => rcases h with h | h | h <;> cases h
          | integers hk => cases hk
          | tooMany hk => cases hk
          | small hc => rcases hc with h | h <;> cases h
          | large hc => rcases hc with h | h <;> cases h
          | names _ k => exact absurd hn (noNames_not ha k)
          | noDatabase k => rw [hd] at k; cases k
          | noReload _ k => rw [hv] at k; cases k
  · have hn := (noNames_iff ha _ _).1 e
    rw [e]
    simp only
    constructor
    · intro k
      obtain ⟨rfl, rfl⟩ := err_input_inj k
      exact .names (.inl rfl) hn
    · intro k
      cases k with
      | switch h => rcases h with h | h | h <;> cases h
      | integers hk => cases hk
      | tooMany hk => cases hk
      | small hc => rcases hc with h | h <;> cases h
      | large hc => rcases hc with h | h <;> cases h
      | names _ k =>
        obtain ⟨rfl, rfl⟩ := noNames_unique ha hn k
        rfl
      | noDatabase _ k => exact absurd k (noNames_not ha hn)
      | noReload _ _ k => exact absurd k (noNames_not ha hn)

theorem purge_refused {arguments : Str} (ha : Ascii arguments) (m : Machine) (s : Session) (line : Str)
    (q : Position) (t : Str) (p : Option Position) :
    (executePurgeVar m ⟨arguments, q⟩ s).1 = .err (.input t p) ↔ Objection s line arguments .purgeVar t p := by
  unfold executePurgeVar
  simp only
  rcases variableList_no_panic ha with ⟨ns, e⟩ | ⟨⟨t', p'⟩, e⟩
  · have hn := (names_iff ha).2 ⟨ns, e⟩
    rw [e]
    simp only
    cases hv : s.vars with
    | none =>
      simp only
      constructor
      · intro k
        obtain ⟨rfl, rfl⟩ := err_input_inj k
        exact .noStore hv hn
      · intro k
        cases k with
        | switch h => rcases h with h | h | h <;> cases h
        | integers hk => cases hk
        | tooMany hk => cases hk
        | small hc => rcases hc with h | h <;> cases h
        | large hc => rcases hc with h | h <;> cases h
        | names _ k => exact absurd hn (noNames_not ha k)
        | noStore => rfl
    | some vars =>
      simp only
      constructor
      · intro k
        exact absurd k (purgeLoop_runtime _ _ _ t p)
      · intro k
        exfalso
        cases k with
        | switch h => rcases h with h | h | h <;> cases h
        | integers hk => cases hk
        | tooMany hk => cases hk
        | small hc => rcases hc with h | h <;> cases h
        | large hc => rcases hc with h | h <;> cases h
        | names _ k => exact absurd hn (noNames_not ha k)
        | noStore k => rw [hv] at k; cases k
  · have hn := (noNames_iff ha _ _).1 e
    rw [e]
    simp only
    constructor
    · intro k
      obtain ⟨rfl, rfl⟩ := err_input_inj k
      exact .names (.inr rfl) hn
    · intro k
      cases k with
      | switch h => rcases h with h | h | h <;> cases h
      | integers hk => cases hk
      | tooMany hk => cases hk
      | small hc => rcases hc with h | h <;> cases h
      | large hc => rcases hc with h | h <;> cases h
      | names _ k =>
        obtain ⟨rfl, rfl⟩ := noNames_unique ha hn k
        rfl
      | noStore _ k => exact absurd k (noNames_not ha hn)

theorem switch_refused {cmd : Cmd} (hc : Switch cmd) (s : Session) (line arguments : Str)
    (get : Args → Bool) (set : Args → Bool → Args) (t : Str) (p : Option Position) :
    (executeBool get set ⟨arguments, ⟨line.length - arguments.length, arguments.length⟩⟩ s).1 = .err (.input t p) ↔
      Objection s line arguments cmd t p := by
  unfold executeBool
  have hno : ∀ t p, Objection s line arguments cmd t p → (¬ ∀ c ∈ arguments, Space c) ∧ (∀ b, ¬ Says arguments b) ∧
      t = "Invalid argument".toList ∧ p = some ⟨line.length - arguments.length, arguments.length⟩ := by
    intro t p k
    rcases hc with rfl | rfl | rfl <;>
    · cases k with
      | switch _ h1 h2 => exact ⟨h1, h2, rfl, rfl⟩
      | integers hk => cases hk
      | tooMany hk => cases hk
      | small hc => rcases hc with h | h <;> cases h
      | large hc => rcases hc with h | h <;> cases h
      | names hc _ => rcases hc with h | h <;> cases h
  by_cases h1 : ∀ c ∈ arguments, Space c
  · rw [boolArgument_space h1]
    simp only
    constructor
    · intro k; cases k
    · intro k; exact absurd h1 (hno _ _ k).1
  · by_cases h2 : ∃ b, Says arguments b
    · obtain ⟨b, h2⟩ := h2
      rw [boolArgument_says h2]
      simp only
      constructor
      · intro k; cases k
      · intro k; exact absurd h2 ((hno _ _ k).2.1 b)
    · rw [boolArgument_else h1 fun b h => h2 ⟨b, h⟩]
      simp only
      constructor
      · intro k
        obtain ⟨rfl, rfl⟩ := err_input_inj k
        exact .switch hc h1 fun b h => h2 ⟨b, h⟩
      · intro k
        obtain ⟨_, _, rfl, rfl⟩ := hno _ _ k
        rfl

theorem help_refused {line arguments : Str} (s : Session) (q : Position)
    (hq : q = ⟨line.length - arguments.length, arguments.length⟩) (t : Str) (p : Option Position) :
    executeHelp table ⟨arguments, q⟩ s = .err (.input t p) ↔ Objection s line arguments .help t p := by
  have hinv : ∀ t p, Objection s line arguments .help t p → ∃ name start, Topic arguments name start ∧
      (∀ n cmd, (n, cmd) ∈ commandNames → n.toList ≠ name) ∧
      t = "No such command: '".toList ++ name ++ "'".toList ∧
      p = some ⟨line.length - arguments.length + start, name.length⟩ := by
    intro t p k
    cases k with
    | help h1 h2 => exact ⟨_, _, h1, h2, rfl, rfl⟩
    | switch h => rcases h with h | h | h <;> cases h
    | integers hk => cases hk
    | tooMany hk => cases hk
    | small hc => rcases hc with h | h <;> cases h
    | large hc => rcases hc with h | h <;> cases h
    | names hc _ => rcases hc with h | h <;> cases h
  rcases topic_total arguments with h | ⟨topic, start, h⟩
  · unfold executeHelp
    simp only
    rw [if_pos (trim_blank h q)]
    constructor
    · intro k; cases k
    · intro k
      obtain ⟨name, start, h1, _⟩ := hinv _ _ k
      have h2 := trim_topic h1 q
      have h3 := trim_blank h q
      rw [h2] at h3
      obtain ⟨_, _, _, _, _, hne, _⟩ := h1
      exact absurd h3 hne
  · have ht := trim_topic h q
    have hne : topic ≠ [] := by obtain ⟨_, _, _, _, _, hne, _⟩ := h; exact hne
    have hres : executeHelp table ⟨arguments, q⟩ s = match table.resolve topic with
        | some cmd => .ok (msg (cmd.longHelp s))
        | none => .err (noSuchCommand ⟨topic, ⟨q.start + start, topic.length⟩⟩) := by
      unfold executeHelp
      simp only
      rw [ht]
      simp only
      rw [if_neg hne]
      rfl
    rw [hres]
    cases hr : table.resolve topic with
    | some cmd =>
      simp only
      constructor
      · intro k; cases k
      · intro k
        obtain ⟨name, start', h1, h2, _⟩ := hinv _ _ k
        have h3 := trim_topic h1 q
        rw [ht] at h3
        simp only [Positioned.mk.injEq] at h3
        obtain ⟨n, k1, k2⟩ := (C66_names table new_table topic cmd).1 hr
        rw [h3.1] at k2
        exact absurd k2.symm (h2 n cmd k1)
    | none =>
      simp only
      constructor
      · intro k
        obtain ⟨rfl, rfl⟩ := err_input_inj k
        rw [hq]
        refine .help h fun n cmd hm e => ?_
        have := (C66_names table new_table topic cmd).2 ⟨n, hm, e.symm⟩
        rw [hr] at this
        cases this
      · intro k
        obtain ⟨name, start', h1, h2, rfl, rfl⟩ := hinv _ _ k
        have h3 := trim_topic h1 q
        rw [ht] at h3
        simp only [Positioned.mk.injEq, Position.mk.injEq] at h3
        obtain ⟨rfl, h4, _⟩ := h3
        unfold noSuchCommand
        simp only
        rw [h4, hq]

/-- A command complains exactly when there is an objection to it. -/
theorem command_refused {line arguments name : Str} (hn : NamedCommand line name arguments) (cmd : Cmd) (m : Machine)
    (s : Session) (q : Position) (hq : q = ⟨line.length - arguments.length, arguments.length⟩)
    (t : Str) (p : Option Position) :
    (cmd.execute m table ⟨arguments, q⟩ s).1 = .err (.input t p) ↔ Objection s line arguments cmd t p := by
  have ha := ascii_arguments hn
  cases cmd with
  | help => exact help_refused s q hq t p
  | reloadVar => exact reload_refused ha m s line q t p
  | purgeVar => exact purge_refused ha m s line q t p
  | histcap => exact histcap_refused ha s line q t p
  | fractional => subst hq; exact switch_refused (.inl rfl) s line arguments _ _ t p
  | upper => subst hq; exact switch_refused (.inr (.inl rfl)) s line arguments _ _ t p
  | commas => subst hq; exact switch_refused (.inr (.inr rfl)) s line arguments _ _ t p
  | radix =>
    rw [← radix_refused ha s line (.inl rfl) (by rintro ⟨⟩)]
    unfold Cmd.execute executeRadix
    simp only
    rcases (intListArgs arguments >>= radixArgument) with ⟨_ | _⟩ | _ | _ | _ <;> simp
  | precision =>
    rw [← precision_refused ha s line]
    unfold Cmd.execute executePrecision
    simp only
    rcases (intListArgs arguments >>= precisionArgument s.args.extraPrecision) with ⟨_ | _⟩ | _ | _ | _ <;> simp
  | convertToRadix =>
    unfold Cmd.execute executeConvertToRadix
    simp only
    by_cases hw : IsWord arguments "none"
    · rw [if_pos ((isWord_iff none_chars _).1 hw)]
      constructor
      · intro k; cases k
      · intro k
        exfalso
        have hi : ∀ ns, ¬ Integers arguments ns := fun ns k => integers_not_none k hw
        have hi' : ∀ ns, ¬ IntegersAt arguments ns := by
          rintro ns ⟨k1, ts, k2, k3⟩
          exact hi _ ⟨ha, k1, ts, ns, k2, k3, rfl⟩
        cases k with
        | switch h => rcases h with h | h | h <;> cases h
        | integers _ k => exact k rfl hw
        | tooMany _ k => exact hi' _ k
        | small _ k => exact hi' _ k
        | large _ k => exact hi' _ k
        | names hc _ => rcases hc with h | h <;> cases h
    · rw [if_neg fun h => hw ((isWord_iff none_chars _).2 h), ← radix_refused ha s line (.inr rfl) fun _ => hw]
      rcases (intListArgs arguments >>= radixArgument) with ⟨_ | _⟩ | _ | _ | _
      · cases s.args.convertToRadix <;> simp
      all_goals simp

/-- A refused command leaves the session alone. -/
theorem execute_refused_state {m : Machine} {ce : CommandExecutor} {cmd : Cmd} {arguments : Positioned Str}
    {s : Session} {t : Str} {p : Option Position}
    (h : (cmd.execute m ce arguments s).1 = .err (.input t p)) : (cmd.execute m ce arguments s).2 = s := by
  have hb : ∀ get set, (executeBool get set arguments s).1 = .err (.input t p) →
      (executeBool get set arguments s).2 = s := by
    intro get set
    unfold executeBool
    rcases boolArgument arguments with ⟨_ | _⟩ | _ | _ | _
    · exact fun _ => rfl
    · exact fun h => by cases h
    all_goals exact fun _ => rfl
  cases cmd with
  | help => rfl
  | reloadVar =>
    revert h
    unfold Cmd.execute executeReloadVar
    simp only
    rcases tokenizeVariableList arguments.value with ns | _ | _ | _
    · simp only
      cases hd : s.db with
      | none => exact fun _ => rfl
      | some db =>
        cases hv : s.vars with
        | none => exact fun _ => rfl
        | some vars => exact fun h => absurd h (reloadLoop_runtime _ _ _ _ _ t p)
    all_goals exact fun _ => rfl
  | purgeVar =>
    revert h
    unfold Cmd.execute executePurgeVar
    simp only
    rcases tokenizeVariableList arguments.value with ns | _ | _ | _
    · simp only
      cases hv : s.vars with
      | none => exact fun _ => rfl
      | some vars => exact fun h => absurd h (purgeLoop_runtime _ _ _ t p)
    all_goals exact fun _ => rfl
  | histcap =>
    revert h
    unfold Cmd.execute executeHistcap
    simp only
    rcases (intListArgs arguments.value >>= histcapArgument) with input | _ | _ | _
    · simp only
      cases hd : s.db with
      | none => exact fun _ => rfl
      | some db =>
        intro h
        exfalso
        cases input with
        | some size =>
          simp only at h
          rcases hx : db.setMaxHistorySize size with ⟨r, db'⟩
          rw [hx] at h
          rcases r with _ | _ | _ | _ <;> simp at h
        | none =>
          simp only at h
          rcases hx : db.getMaxHistorySize with ⟨r, db'⟩
          rw [hx] at h
          rcases r with _ | _ | _ | _ <;> simp at h
    all_goals exact fun _ => rfl
  | fractional => exact hb _ _ h
  | upper => exact hb _ _ h
  | commas => exact hb _ _ h
  | radix =>
    revert h
    unfold Cmd.execute executeRadix
    simp only
    rcases (intListArgs arguments.value >>= radixArgument) with ⟨_ | _⟩ | _ | _ | _
    · exact fun _ => rfl
    · exact fun h => by cases h
    all_goals exact fun _ => rfl
  | precision =>
    revert h
    unfold Cmd.execute executePrecision
    simp only
    rcases (intListArgs arguments.value >>= precisionArgument s.args.extraPrecision) with ⟨_ | _⟩ | _ | _ | _
    · exact fun _ => rfl
    · exact fun h => by cases h
    all_goals exact fun _ => rfl
  | convertToRadix =>
    revert h
    unfold Cmd.execute executeConvertToRadix
    simp only
    split
    · exact fun h => by cases h
    · rcases (intListArgs arguments.value >>= radixArgument) with ⟨_ | _⟩ | _ | _ | _
      · cases s.args.convertToRadix <;> exact fun _ => rfl
      · exact fun h => by cases h
      all_goals exact fun _ => rfl

theorem touchAll_runtime (id : Option Int) (names : List Str) (s : Session) (t : Str) (p : Option Position) :
    (touchAll id names s).1 ≠ .err (.input t p) := by
  induction names generalizing s with
  | nil => simp [touchAll]
  | cons n names ih =>
    unfold touchAll St.andThen touchOne
    cases hv : s.vars with
    | none => exact ih s
    | some vars =>
      simp only
      rcases vars.touch n id s.db with ⟨r, vars', db'⟩
      rcases r with _ | _ | _ | _
      · exact ih _
      · simp [Outcome.mapErr]
      · simp [Outcome.mapErr]
      · simp [Outcome.mapErr]

/-- Recording does not matter for objections. -/
theorem objection_recorded {s : Session} {line arguments : Str} {cmd : Cmd} {t : Str} {p : Option Position} :
    Objection (recordInput s).2 line arguments cmd t p ↔ Objection s line arguments cmd t p := by
  have key : ∀ s s' : Session, s'.args = s.args → s'.vars = s.vars → s'.db.isSome = s.db.isSome →
      Objection s line arguments cmd t p → Objection s' line arguments cmd t p := by
    intro s s' h1 h2 h3 k
    have hn : s.db = none → s'.db = none := by
      intro h
      rw [h] at h3
      simpa using h3
    cases k with
    | help k1 k2 => exact .help k1 k2
    | switch k1 k2 k3 => exact .switch k1 k2 k3
    | integers k1 k2 k3 => exact .integers k1 k2 k3
    | tooMany k1 k2 k3 => exact .tooMany k1 k2 k3
    | small k1 k2 k3 => exact .small k1 k2 k3
    | large k1 k2 k3 => exact .large k1 k2 k3
    | precision k1 k2 k3 => exact .precision k1 k2 k3
    | extra k1 k2 k3 k4 => exact .extra k1 k2 k3 k4
    | sum k1 k2 k3 k4 => exact .sum k1 k2 k3 (by rw [h1]; exact k4)
    | sums k1 k2 k3 k4 k5 k6 => exact .sums k1 k2 k3 k4 k5 k6
    | capacity k1 k2 => exact .capacity k1 k2
    | noCapacity k1 k2 k3 k4 => exact .noCapacity (hn k1) k2 k3 k4
    | names k1 k2 => exact .names k1 k2
    | noStore k1 k2 => exact .noStore (by rw [h2, k1]) k2
    | noDatabase k1 k2 => exact .noDatabase (hn k1) k2
    | noReload k1 k2 k3 => exact .noReload (by rw [h3]; exact k1) (by rw [h2, k2]) k3
  have h := recordInput_args s
  have h3 : (recordInput s).2.db.isSome = s.db.isSome := by
    have : OptRel (AddOp s.inputs) s.db (recordInput s).2.db := recordInput_db s
    cases h1 : s.db <;> cases h2 : (recordInput s).2.db <;> rw [h1, h2] at this <;> simp [OptRel] at this ⊢
  exact ⟨key _ _ h.1.symm h.2.symm h3.symm, key _ _ h.1 h.2 h3⟩

/-- The outcome of a command line, up to touching the variables it mentions. -/
theorem calculate_refused {m : Machine} {line : Str} {s s1 : Session} {id : Option Int}
    (hrec : recordInput s = (.ok id, s1)) {name arguments : Positioned Str}
    (ht : tokenize line s.args.radix = .ok (.command name arguments)) {cmd : Cmd}
    (hc : table.resolve name.value = some cmd) (t : Str) (p : Option Position) :
    ((calculate m table line s).1 = .err (.input t p) ↔ (cmd.execute m table arguments s1).1 = .err (.input t p)) ∧
    ((calculate m table line s).1 = .err (.input t p) → (calculate m table line s).2 = s1) := by
  have hargs := (recordInput_args s).1
  rw [calculate_eq, andThen_of_ok hrec]
  unfold afterRecording
  rw [hrec] at hargs
  rw [hargs, ht]
  simp only
  unfold calculateCommand CommandExecutor.executeCommand
  have hst := execute_refused_state (m := m) (ce := table) (cmd := cmd) (arguments := arguments) (s := s1) (t := t) (p := p)
  rcases hx : cmd.execute m table arguments s1 with ⟨r, s2⟩
  rw [hx] at hst
  unfold St.andThen
  simp only
  rw [hc]
  simp only
  rw [hx]
  rcases r with ⟨out, touched⟩ | e | k | _
  · simp only
    cases s2.vars with
    | none => simp
    | some v =>
      have hne := touchAll_runtime id touched s2 t p
      simp only
      rcases hz : touchAll id touched s2 with ⟨r, s3⟩
      rw [hz] at hne
      rcases r with _ | e | _ | _
      · simp
      · have : e ≠ .input t p := fun h => hne (by rw [h])
        simp [this]
      · simp
      · simp
  · simp only
    exact ⟨⟨fun h => by injection h with h; rw [h], fun h => by injection h with h; rw [h]⟩,
      fun h => hst (by injection h with h; rw [h])⟩
  · exact ⟨by simp, by simp⟩
  · exact ⟨by simp, by simp⟩

end Bcalc
