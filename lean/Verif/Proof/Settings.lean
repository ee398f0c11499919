import Verif.Spec.Settings
import Verif.Proof.Table
import Verif.Proof.Display
import Verif.Props.Lexical

/-! # Commands and settings -/

namespace Bcalc
open Spec

theorem commandSplit_unique {pre pre' name name' tail tail' args args' : Str}
    (h : pre ++ '/' :: name ++ tail = pre' ++ '/' :: name' ++ tail')
    (h1 : ∀ c ∈ pre, Space c) (h1' : ∀ c ∈ pre', Space c)
    (h2 : ∀ c ∈ name, ¬ Blank c) (h2' : ∀ c ∈ name', ¬ Blank c)
    (h3 : (tail = [] ∧ args = []) ∨ ∃ b, Blank b ∧ tail = b :: args)
    (h3' : (tail' = [] ∧ args' = []) ∨ ∃ b, Blank b ∧ tail' = b :: args') :
    pre = pre' ∧ name = name' ∧ args = args' := by
  have hslash : ¬ Space '/' := by unfold Space Blank; decide
  induction pre generalizing pre' with
  | nil =>
    cases pre' with
    | cons c pre' =>
      simp only [List.nil_append, List.cons_append, List.cons.injEq] at h
      exact absurd (h.1 ▸ h1' c (by simp)) hslash
    | nil =>
      refine ⟨rfl, ?_⟩
      simp only [List.nil_append, List.cons_append, List.cons.injEq, true_and] at h
      clear h1 h1'
      induction name generalizing name' with
      | nil =>
        cases name' with
        | nil =>
          refine ⟨rfl, ?_⟩
          simp only [List.nil_append] at h
          subst h
          rcases h3 with ⟨rfl, rfl⟩ | ⟨b, _, rfl⟩ <;> rcases h3' with ⟨h, h'⟩ | ⟨b, _, h⟩ <;> simp_all
        | cons c name' =>
          rcases h3 with ⟨rfl, rfl⟩ | ⟨b, hb, rfl⟩
          · simp at h
          · simp only [List.nil_append, List.cons_append, List.cons.injEq] at h
            exact absurd (h.1 ▸ hb) (h2' c (by simp))
      | cons c name ih =>
        cases name' with
        | nil =>
          rcases h3' with ⟨rfl, rfl⟩ | ⟨b, hb, rfl⟩
          · simp at h
          · simp only [List.nil_append, List.cons_append, List.cons.injEq] at h
            exact absurd (h.1 ▸ hb) (h2 c (by simp))
        | cons c' name' =>
          simp only [List.cons_append, List.cons.injEq] at h
          obtain ⟨k1, k2⟩ := ih (fun c hc => h2 c (by simp [hc])) (fun c hc => h2' c (by simp [hc])) h.2
          exact ⟨by rw [h.1, k1], k2⟩
  | cons c pre ih =>
    cases pre' with
    | nil =>
      simp only [List.nil_append, List.cons_append, List.cons.injEq] at h
      exact absurd (h.1 ▸ h1 c (by simp)) hslash
    | cons c' pre' =>
      simp only [List.cons_append, List.cons.injEq] at h
      obtain ⟨k1, k2⟩ := ih (pre' := pre') (by simpa using h.2) (fun c hc => h1 c (by simp [hc]))
        (fun c hc => h1' c (by simp [hc]))
      exact ⟨by rw [h.1, k1], k2⟩

theorem tokenize_named {line name arguments : Str} (h : NamedCommand line name arguments) (radix : Nat) :
    ∃ p q, tokenize line radix = .ok (.command ⟨name, p⟩ ⟨arguments, q⟩) := by
  obtain ⟨ha, pre, tail, h1, h2, h3, h4⟩ := h
  have hc : CommandLine line := ⟨pre, name ++ tail, by rw [h1]; simp, h2⟩
  rcases tokenize_spec (radix := 10) (by decide) (by decide) line with ⟨i, _, hn, _⟩ | ⟨_, p, hp, _, _⟩ |
    ⟨_, hn, _⟩
  · exact absurd ha hn
  · unfold tokenize
    rw [findIdx?_ascii_none.2 ha, hp]
    obtain ⟨pre', name', args', tail', rfl, k1, k2, k3, k4⟩ := maybeExtractCommand_some hp
    obtain ⟨rfl, rfl, rfl⟩ := commandSplit_unique (h1.symm.trans k1) h2 k2 h3 k3 h4 k4
    exact ⟨_, _, rfl⟩
  · exact absurd hc hn

theorem named_of_tokenize {line : Str} {radix : Nat} {name arguments : Positioned Str}
    (h : tokenize line radix = .ok (.command name arguments)) :
    NamedCommand line name.value arguments.value := by
  unfold tokenize at h
  cases ha : line.findIdx? (fun c => !isAscii c) with
  | some i => rw [ha] at h; cases h
  | none =>
    rw [ha] at h
    refine ⟨findIdx?_ascii_none.1 ha, ?_⟩
    simp only at h
    cases hp : maybeExtractCommand line with
    | none =>
      rw [hp] at h
      simp only at h
      cases hl : tokenizeLoop radix 0 line [] [] <;> rw [hl] at h <;> simp at h
    | some p =>
      rw [hp] at h
      simp only [Outcome.ok.injEq] at h
      subst h
      obtain ⟨pre', name', args', tail', hh, k1, k2, k3, k4⟩ := maybeExtractCommand_some hp
      simp only [ParsedInput.command.injEq] at hh
      obtain ⟨rfl, rfl⟩ := hh
      exact ⟨pre', tail', k1, k2, k3, k4⟩

theorem resolve_named {name : String} {cmd : Cmd} (h : (name, cmd) ∈ commandNames) :
    table.resolve name.toList = some cmd :=
  (resolve_iff _ _).2 (List.mem_map.2 ⟨_, h, rfl⟩)

/-- A command line: what is tokenized and what it resolves to. -/
theorem isCommand_iff {line : Str} {cmd : Cmd} {arguments : Str} (radix : Nat) :
    IsCommand line cmd arguments ↔ ∃ name p q, tokenize line radix = .ok (.command ⟨name, p⟩ ⟨arguments, q⟩) ∧
      table.resolve name = some cmd := by
  constructor
  · rintro ⟨name, h1, h2⟩
    obtain ⟨p, q, h3⟩ := tokenize_named h2 radix
    exact ⟨_, p, q, h3, resolve_named h1⟩
  · rintro ⟨name, p, q, h1, h2⟩
    have := (resolve_iff _ _).1 h2
    obtain ⟨⟨n, c⟩, h3, h4⟩ := List.mem_map.1 this
    simp only [Prod.mk.injEq] at h4
    obtain ⟨rfl, rfl⟩ := h4
    exact ⟨n, h3, named_of_tokenize h1⟩

/-- The message of a command's result. -/
def msgOf : Outcome Failure CmdResult → Outcome Failure Str
  | .ok r => .ok r.1
  | .err e => .err e
  | .panic k => .panic k
  | .diverge => .diverge

/-- Commands other than `/reloadvar`: recording, then the command. -/
theorem calculate_command {m : Machine} {ce : CommandExecutor} {line : Str} {s s1 : Session} {id : Option Int}
    (hrec : recordInput s = (.ok id, s1)) {name arguments : Positioned Str}
    (ht : tokenize line s.args.radix = .ok (.command name arguments)) {cmd : Cmd}
    (hc : ce.resolve name.value = some cmd) (hcmd : cmd ≠ .reloadVar) :
    calculate m ce line s =
      (msgOf (cmd.execute m ce arguments s1).1, (cmd.execute m ce arguments s1).2) := by
  have hargs := (recordInput_args s).1
  rw [calculate_eq, andThen_of_ok hrec]
  unfold afterRecording
  rw [hrec] at hargs
  rw [hargs, ht]
  simp only
  unfold calculateCommand CommandExecutor.executeCommand
  rcases hx : cmd.execute m ce arguments s1 with ⟨r, s2⟩
  unfold St.andThen
  simp only
  rw [hc]
  simp only
  rw [hx]
  rcases r with ⟨out, touched⟩ | e | k | _
  · have := msg_touched hcmd m ce arguments s1 hx
    subst this
    simp only [msgOf]
    cases hv : s2.vars <;> rfl
  · rfl
  · rfl
  · rfl

theorem calculate_rec_fail {m : Machine} {ce : CommandExecutor} {line : Str} {s : Session}
    (h : ∀ id, (recordInput s).1 ≠ .ok id) :
    (∀ out, (calculate m ce line s).1 ≠ .ok out) ∧ (calculate m ce line s).2 = (recordInput s).2 := by
  rw [calculate_eq]
  unfold St.andThen
  rcases hr : recordInput s with ⟨r, s1⟩
  rw [hr] at h
  cases r with
  | ok id => exact absurd rfl (h id)
  | err e => exact ⟨by simp, rfl⟩
  | panic e => exact ⟨by simp, rfl⟩
  | diverge => exact ⟨by simp, rfl⟩

/-! ## Decimal numbers -/

theorem digitChar_eq {d : Nat} (h : d < 10) : digitChar d = d.digitChar := by
  have : ∀ d : Fin 10, digitChar d = Nat.digitChar d := by decide
  exact this ⟨d, h⟩

theorem decimal_eq (n : Nat) : natToStr 10 n = decimal n := by
  unfold decimal
  induction n using Nat.strongRecOn with
  | _ n ih =>
    unfold natToStr
    by_cases h0 : n = 0
    · subst h0; rw [if_pos rfl, Nat.toDigits_zero]
    · rw [if_neg h0, Nat.toDigits_eq_if (by decide)]
      rw [Nat.digits_def' (by decide) (Nat.pos_of_ne_zero h0)]
      have hm : n % 10 < 10 := Nat.mod_lt _ (by decide)
      simp only [List.reverse_cons, List.map_append, List.map_cons, List.map_nil, digitChar_eq hm]
      by_cases hl : n < 10
      · rw [if_pos hl, Nat.div_eq_of_lt hl, Nat.mod_eq_of_lt hl]
        simp
      · rw [if_neg hl, ← ih (n / 10) (by omega)]
        unfold natToStr
        rw [if_neg (by omega)]

theorem intDisplay_nat (n : Nat) : intDisplay (n : Int) = decimal n := by
  unfold intDisplay
  rw [if_neg (by omega), Int.natAbs_natCast, decimal_eq]
  rfl

/-! ## Words and switches -/

theorem space_iff (c : Char) : isTrimWs c = true ↔ Space c := isTrimWs_iff c

theorem trimStart_append {pre w : Str} (h : ∀ c ∈ pre, Space c) (hw : ∀ c cs, w = c :: cs → ¬ Space c) :
    trimStart (pre ++ w) = w := by
  unfold trimStart
  induction pre with
  | nil =>
    cases w with
    | nil => rfl
    | cons c cs =>
      have : isTrimWs c = false := by
        have := hw c cs rfl
        rw [← space_iff] at this
        simpa using this
      simp [this]
  | cons c pre ih =>
    rw [List.cons_append, List.dropWhile_cons_of_pos ((space_iff c).2 (h c (by simp)))]
    exact ih fun c hc => h c (by simp [hc])

theorem trimBoth_eq {pre w post : Str} (h1 : ∀ c ∈ pre, Space c) (h2 : ∀ c ∈ post, Space c)
    (hw : ∀ c ∈ w, ¬ Space c) : trimBoth (pre ++ w ++ post) = w := by
  unfold trimBoth
  by_cases h0 : w = []
  · subst h0
    have : trimStart (pre ++ [] ++ post) = [] := by
      have := trimStart_append (pre := pre ++ post) (w := []) (by
        intro c hc; rcases List.mem_append.1 hc with h | h
        · exact h1 c h
        · exact h2 c h) (by simp)
      simpa using this
    rw [this]
    rfl
  · have h3 : trimStart (pre ++ w ++ post) = w ++ post := by
      rw [List.append_assoc]
      refine trimStart_append h1 ?_
      intro c cs h
      cases w with
      | nil => exact absurd rfl h0
      | cons d ds =>
        simp only [List.cons_append, List.cons.injEq] at h
        rw [← h.1]
        exact hw d (by simp)
    rw [h3, List.reverse_append, trimStart_append (by simpa using h2), List.reverse_reverse]
    intro c cs h
    exact hw c (by
      have : c ∈ w.reverse := by rw [h]; simp
      simpa using this)

theorem trimBoth_split (s : Str) : ∃ pre post, s = pre ++ trimBoth s ++ post ∧ (∀ c ∈ pre, Space c) ∧
    ∀ c ∈ post, Space c := by
  obtain ⟨pre, h1, h2, _⟩ := trimStart_split s
  obtain ⟨post, h3, h4, _⟩ := trimStart_split (trimStart s).reverse
  refine ⟨pre, post.reverse, ?_, h2, fun c hc => h4 c (by simpa using hc)⟩
  unfold trimBoth
  have := congrArg List.reverse h3
  rw [List.reverse_reverse, List.reverse_append] at this
  rw [List.append_assoc, ← this]
  exact h1

theorem lower_eq (c : Char) :
    (if 65 ≤ c.toNat ∧ c.toNat ≤ 90 then Char.ofNat (c.toNat + 32) else c) = c.toLower := by
  by_cases h : 65 ≤ c.toNat ∧ c.toNat ≤ 90
  · have hall : ∀ n : Fin 91, 65 ≤ n.val →
        Char.ofNat (n.val + 32) = (Char.ofNat n.val).toLower := by decide
    rw [if_pos h]
    have := hall ⟨c.toNat, by omega⟩ h.1
    rw [Char.ofNat_toNat] at this
    exact this
  · unfold Char.toLower
    have : ¬ (c.val ≥ 'A'.val ∧ c.val ≤ 'Z'.val) := by
      rintro ⟨h1, h2⟩
      exact h ⟨UInt32.le_iff_toNat_le.1 h1, UInt32.le_iff_toNat_le.1 h2⟩
    rw [if_neg h, dif_neg this]

theorem asciiLower_eq (s : Str) : asciiLower s = s.map Char.toLower := by
  unfold asciiLower
  exact List.map_congr_left fun c _ => lower_eq c

theorem space_lower (c : Char) : Space c.toLower ↔ Space c := by
  rw [← lower_eq]
  by_cases h : 65 ≤ c.toNat ∧ c.toNat ≤ 90
  · rw [if_pos h]
    have hall : ∀ n : Fin 91, 65 ≤ n.val →
        isTrimWs (Char.ofNat (n.val + 32)) = isTrimWs (Char.ofNat n.val) := by decide
    have := hall ⟨c.toNat, by omega⟩ h.1
    rw [Char.ofNat_toNat] at this
    rw [← space_iff, ← space_iff, this]
  · rw [if_neg h]

theorem isWord_iff {word : String} (hw : ∀ c ∈ word.toList, ¬ Space c) (arguments : Str) :
    IsWord arguments word ↔ trimBoth (asciiLower arguments) = word.toList := by
  rw [asciiLower_eq]
  constructor
  · rintro ⟨pre, w, post, rfl, h1, h2, h3⟩
    rw [List.map_append, List.map_append, h1]
    refine trimBoth_eq ?_ ?_ hw
    · intro c hc
      obtain ⟨d, hd, rfl⟩ := List.mem_map.1 hc
      exact (space_lower d).2 (h2 d hd)
    · intro c hc
      obtain ⟨d, hd, rfl⟩ := List.mem_map.1 hc
      exact (space_lower d).2 (h3 d hd)
  · intro h
    obtain ⟨pre, post, h1, h2, h3⟩ := trimBoth_split (arguments.map Char.toLower)
    rw [h] at h1
    obtain ⟨pw, post', rfl, h4, rfl⟩ := List.map_eq_append_iff.1 h1
    obtain ⟨pre', w, rfl, rfl, h5⟩ := List.map_eq_append_iff.1 h4
    refine ⟨pre', w, post', rfl, h5, fun c hc => ?_, fun c hc => ?_⟩
    · exact (space_lower c).1 (h2 _ (List.mem_map_of_mem hc))
    · exact (space_lower c).1 (h3 _ (List.mem_map_of_mem hc))

theorem allSpace_iff (arguments : Str) :
    trimBoth (asciiLower arguments) = [] ↔ ∀ c ∈ arguments, Space c := by
  rw [asciiLower_eq]
  constructor
  · intro h c hc
    obtain ⟨pre, post, h1, h2, h3⟩ := trimBoth_split (arguments.map Char.toLower)
    rw [h] at h1
    rw [← space_lower]
    have : c.toLower ∈ arguments.map Char.toLower := List.mem_map_of_mem hc
    rw [h1] at this
    simp only [List.append_nil, List.mem_append] at this
    exact this.elim (h2 _) (h3 _)
  · intro h
    have := trimBoth_eq (pre := arguments.map Char.toLower) (w := []) (post := []) (by
      intro c hc
      obtain ⟨d, hd, rfl⟩ := List.mem_map.1 hc
      exact (space_lower d).2 (h d hd)) (by simp) (by simp)
    simpa using this

theorem boolArgument_says {arguments : Positioned Str} {b : Bool} (h : Says arguments.value b) :
    boolArgument arguments = .ok (some b) := by
  unfold boolArgument
  simp only
  have n1 : ∀ c ∈ "true".toList, ¬ Space c := by simp only [← space_iff]; decide
  have n2 : ∀ c ∈ "t".toList, ¬ Space c := by simp only [← space_iff]; decide
  have n3 : ∀ c ∈ "false".toList, ¬ Space c := by simp only [← space_iff]; decide
  have n4 : ∀ c ∈ "f".toList, ¬ Space c := by simp only [← space_iff]; decide
  cases b with
  | true =>
    rcases h with h | h
    · rw [(isWord_iff n1 _).1 h]; rfl
    · rw [(isWord_iff n2 _).1 h]; rfl
  | false =>
    rcases h with h | h
    · rw [(isWord_iff n3 _).1 h]; rfl
    · rw [(isWord_iff n4 _).1 h]; rfl

theorem boolArgument_space {arguments : Positioned Str} (h : ∀ c ∈ arguments.value, Space c) :
    boolArgument arguments = .ok none := by
  unfold boolArgument
  simp only
  rw [if_pos ((allSpace_iff _).2 h)]

theorem boolArgument_else {arguments : Positioned Str} (h : ¬ ∀ c ∈ arguments.value, Space c)
    (h' : ∀ b, ¬ Says arguments.value b) :
    boolArgument arguments = .err (inputError "Invalid argument" arguments.position) := by
  have n1 : ∀ c ∈ "true".toList, ¬ Space c := by simp only [← space_iff]; decide
  have n2 : ∀ c ∈ "t".toList, ¬ Space c := by simp only [← space_iff]; decide
  have n3 : ∀ c ∈ "false".toList, ¬ Space c := by simp only [← space_iff]; decide
  have n4 : ∀ c ∈ "f".toList, ¬ Space c := by simp only [← space_iff]; decide
  have ht := h' true
  have hf := h' false
  unfold Says at ht hf
  simp only [isWord_iff n1, isWord_iff n2] at ht
  simp only [isWord_iff n3, isWord_iff n4] at hf
  unfold boolArgument
  simp only
  rw [if_neg fun h0 => h ((allSpace_iff _).1 h0), if_neg (fun h0 => hf h0.symm),
    if_neg (fun h0 => ht h0.symm)]

/-! ## Integers -/

theorem integers_iff (arguments : Str) (ns : List Int) :
    Integers arguments ns ↔ ∃ ps, tokenizeIntList arguments 10 = .ok ps ∧ ps.map (·.value) = ns := by
  constructor
  · rintro ⟨h1, h2, ts, ps, h3, h4, h5⟩
    exact ⟨ps, (C08_int_list_iff 10 (by decide) (by decide) _ _).2 ⟨h1, h2, ts, h3, h4⟩, h5⟩
  · rintro ⟨ps, h, h5⟩
    obtain ⟨h1, h2, ts, h3, h4⟩ := (C08_int_list_iff 10 (by decide) (by decide) _ _).1 h
    exact ⟨h1, h2, ts, ps, h3, h4, h5⟩

theorem intListArgs_ok {arguments : Str} {ps : List (Positioned Int)}
    (h : tokenizeIntList arguments 10 = .ok ps) : intListArgs arguments = .ok ps := by
  unfold intListArgs; rw [h]; rfl

theorem lexes_blanks {radix pos : Nat} {text : Str} (h : ∀ c ∈ text, Blank c) : Lexes radix pos text [] := by
  induction text generalizing pos with
  | nil => exact .done
  | cons c cs ih => exact .blank (h c (by simp)) (ih fun c hc => h c (by simp [hc]))

theorem integers_blank {arguments : Str} (h : ∀ c ∈ arguments, Blank c) : Integers arguments [] := by
  refine ⟨?_, ?_, [], [], lexes_blanks h, .nil, rfl⟩
  · intro c hc
    rcases h c hc with rfl | rfl | rfl | rfl | rfl <;> decide
  · rintro ⟨pre, rest, rfl, _⟩
    have := h '/' (by simp)
    rw [← isAsciiWs_iff] at this
    exact absurd this (by decide)

theorem blank_of_lexes {radix pos : Nat} {text : Str} {ts : List PTok} (h : Lexes radix pos text ts)
    (ht : ts = []) : ∀ c ∈ text, Blank c := by
  induction h with
  | done => simp
  | blank hb _ ih =>
    intro c hc
    rcases List.mem_cons.1 hc with rfl | hc
    · exact hb
    · exact ih ht c hc
  | symbol => cases ht
  | word => cases ht

theorem blank_of_integers {arguments : Str} (h : Integers arguments []) : ∀ c ∈ arguments, Blank c := by
  obtain ⟨_, _, ts, ps, h3, h4, h5⟩ := h
  have : ps = [] := by simpa using h5
  subst this
  cases h4
  exact blank_of_lexes h3 rfl

theorem lower_n {c : Char} (h : c.toLower = 'n') : c.toNat = 78 ∨ c.toNat = 110 := by
  rw [← lower_eq] at h
  by_cases hc : 65 ≤ c.toNat ∧ c.toNat ≤ 90
  · rw [if_pos hc] at h
    have hall : ∀ n : Fin 91, 65 ≤ n.val → Char.ofNat (n.val + 32) = 'n' → n.val = 78 := by decide
    exact .inl (hall ⟨c.toNat, by omega⟩ hc.1 h)
  · rw [if_neg hc] at h
    subst h; exact .inr rfl

theorem digits_no_n {s : Str} {ds : List Nat} (h : Digits 10 s ds) : ∀ c ∈ s, c.toLower ≠ 'n' := by
  unfold Digits at h
  induction h with
  | nil => simp
  | cons h _ ih =>
    intro c hc
    rcases List.mem_cons.1 hc with rfl | hc
    · intro hn
      have h0 : '0'.toNat = 48 := rfl
      rcases h with ⟨⟨h1, h2⟩ | ⟨h1, _⟩, h3⟩
      · rcases lower_n hn with h | h <;> omega
      · omega
    · exact ih c hc

/-- Words that stand for decimal numbers contain no letter n. -/
theorem word_no_n {w : Str} {v : Rat} (h : Word 10 w (.number v)) : ∀ c ∈ w, c.toLower ≠ 'n' := by
  intro c hc
  by_cases hu : c = '_'
  · subst hu; decide
  have hc' : c ∈ noUnderscores w := by
    unfold noUnderscores
    exact List.mem_filter.2 ⟨hc, by simpa using hu⟩
  cases h with
  | number hn =>
    cases hn with
    | whole hd _ => exact digits_no_n hd c hc'
    | point hp hd _ =>
      rw [hp] at hc'
      rcases List.mem_append.1 hc' with h | h
      · exact digits_no_n hd c (List.mem_append.2 (.inl h))
      · rcases List.mem_cons.1 h with rfl | h
        · decide
        · exact digits_no_n hd c (List.mem_append.2 (.inr h))

theorem lexes_no_n {pos : Nat} {text : Str} {ts : List PTok} (h : Lexes 10 pos text ts)
    (ht : ∀ t ∈ ts, t.value = .binary .subtract ∨ ∃ v, t.value = .number v) :
    ∀ c ∈ text, c.toLower ≠ 'n' := by
  induction h with
  | done => simp
  | blank hb _ ih =>
    intro c hc
    rcases List.mem_cons.1 hc with rfl | hc
    · rcases hb with rfl | rfl | rfl | rfl | rfl <;> decide
    · exact ih ht c hc
  | symbol hs _ ih =>
    intro c hc
    rcases List.mem_cons.1 hc with rfl | hc
    · cases hs <;> decide
    · exact ih (fun t h => ht t (by simp [h])) c hc
  | word _ _ _ hw _ ih =>
    intro c hc
    rcases List.mem_append.1 hc with hc | hc
    · rcases ht _ (List.mem_cons_self) with h | ⟨v, h⟩
      · simp only at h
        subst h
        cases hw
      · simp only at h
        subst h
        exact word_no_n hw c hc
    · exact ih (fun t h => ht t (by simp [h])) c hc

theorem signedInts_kinds {ts : List PTok} {ps : List (Positioned Int)} (h : SignedInts ts ps) :
    ∀ t ∈ ts, t.value = .binary .subtract ∨ ∃ v, t.value = .number v := by
  induction h with
  | nil => simp
  | plain _ _ ih =>
    intro t ht
    rcases List.mem_cons.1 ht with rfl | ht
    · exact .inr ⟨_, rfl⟩
    · exact ih t ht
  | negated _ _ ih =>
    intro t ht
    rcases List.mem_cons.1 ht with rfl | ht
    · exact .inl rfl
    rcases List.mem_cons.1 ht with rfl | ht
    · exact .inr ⟨_, rfl⟩
    · exact ih t ht

theorem none_chars : ∀ c ∈ "none".toList, ¬ Space c := by simp only [← space_iff]; decide

theorem integers_not_none {arguments : Str} {ns : List Int} (h : Integers arguments ns) :
    ¬ IsWord arguments "none" := by
  rintro ⟨pre, w, post, rfl, h1, _, _⟩
  obtain ⟨_, _, ts, ps, h3, h4, _⟩ := h
  cases w with
  | nil => simp at h1
  | cons c w =>
    have hc : c.toLower = 'n' := by
      have := congrArg List.head? h1
      simpa using this
    exact lexes_no_n h3 (signedInts_kinds h4) c (by simp) hc

/-! ## The setting commands -/

/-- A setting command that is given a proper argument sets the setting. -/
theorem setting_set {m : Machine} {ce : CommandExecutor} {cmd : Cmd} {arguments : Positioned Str}
    {s : Session} {a' : Args} (h : Requests arguments.value s.args cmd a') :
    cmd.execute m ce arguments s = (.ok (msg doneMsg), { s with args := a' }) := by
  cases h with
  | @radix n h h2 h16 =>
    obtain ⟨ps, hp, hv⟩ := (integers_iff _ _).1 h
    obtain ⟨p, rfl, hv0⟩ := List.map_eq_singleton_iff.1 hv
    unfold Cmd.execute executeRadix
    simp only
    rw [intListArgs_ok hp]
    simp only [Outcome.bind_ok, radixArgument]
    rw [hv0, if_neg (by omega), if_neg (by omega)]
    rfl
  | @output n h h2 h16 =>
    obtain ⟨ps, hp, hv⟩ := (integers_iff _ _).1 h
    obtain ⟨p, rfl, hv0⟩ := List.map_eq_singleton_iff.1 hv
    unfold Cmd.execute executeConvertToRadix
    simp only
    rw [if_neg fun h0 => integers_not_none h ((isWord_iff none_chars _).2 h0), intListArgs_ok hp]
    simp only [Outcome.bind_ok, radixArgument]
    rw [hv0, if_neg (by omega), if_neg (by omega)]
    rfl
  | noOutput h =>
    unfold Cmd.execute executeConvertToRadix
    simp only
    rw [if_pos ((isWord_iff none_chars _).1 h)]
  | @precision n h hn =>
    obtain ⟨ps, hp, hv⟩ := (integers_iff _ _).1 h
    obtain ⟨p, rfl, hv0⟩ := List.map_eq_singleton_iff.1 hv
    unfold Cmd.execute executePrecision
    simp only
    rw [intListArgs_ok hp]
    simp only [Outcome.bind_ok, precisionArgument, precisionValues, toU8]
    rw [hv0, if_pos (by omega)]
    simp only
    rw [Int.toNat_natCast, if_pos (by omega)]
  | @precisions n k h hn =>
    obtain ⟨ps, hp, hv⟩ := (integers_iff _ _).1 h
    obtain ⟨p, ps, rfl, hv0, hv'⟩ := List.map_eq_cons_iff.1 hv
    obtain ⟨q, rfl, hv1⟩ := List.map_eq_singleton_iff.1 hv'
    unfold Cmd.execute executePrecision
    simp only
    rw [intListArgs_ok hp]
    simp only [Outcome.bind_ok, precisionArgument, precisionValues, toU8]
    rw [hv0, hv1, if_pos (by omega), if_pos (by omega)]
    simp only
    rw [Int.toNat_natCast, Int.toNat_natCast, if_pos (by omega)]
  | fractional h =>
    unfold Cmd.execute executeFractional executeBool
    simp only
    rw [boolArgument_says h]
  | upper h =>
    unfold Cmd.execute executeUpper executeBool
    simp only
    rw [boolArgument_says h]
  | commas h =>
    unfold Cmd.execute executeCommas executeBool
    simp only
    rw [boolArgument_says h]

/-- Without an argument it shows the setting. -/
theorem setting_show {m : Machine} {ce : CommandExecutor} {cmd : Cmd} (hs : Setting cmd)
    {arguments : Positioned Str} (s : Session) (h : NoArgument arguments.value cmd) :
    cmd.execute m ce arguments s = (.ok (msg (settingText s.args cmd)), s) := by
  have hb : (∀ c ∈ arguments.value, Blank c) → tokenizeIntList arguments.value 10 = .ok [] := by
    intro h
    obtain ⟨ps, hp, hv⟩ := (integers_iff _ _).1 (integers_blank h)
    have : ps = [] := by simpa using hv
    rw [this] at hp
    exact hp
  cases cmd with
  | help => cases hs
  | reloadVar => cases hs
  | purgeVar => cases hs
  | histcap => cases hs
  | fractional =>
    unfold Cmd.execute executeFractional executeBool
    simp only
    rw [boolArgument_space h]
    rfl
  | upper =>
    unfold Cmd.execute executeUpper executeBool
    simp only
    rw [boolArgument_space h]
    rfl
  | commas =>
    unfold Cmd.execute executeCommas executeBool
    simp only
    rw [boolArgument_space h]
    rfl
  | radix =>
    have hp := hb h
    unfold Cmd.execute executeRadix
    simp only
    rw [intListArgs_ok hp]
    simp only [Outcome.bind_ok, radixArgument]
    rw [intDisplay_nat s.args.radix]
    rfl
  | convertToRadix =>
    have hp := hb h
    unfold Cmd.execute executeConvertToRadix
    simp only
    rw [if_neg fun h0 => integers_not_none (integers_blank h) ((isWord_iff none_chars _).2 h0),
      intListArgs_ok hp]
    simp only [Outcome.bind_ok, radixArgument]
    have e : settingText s.args .convertToRadix = match s.args.convertToRadix with
      | none => "None".toList
      | some r => decimal r := rfl
    rw [e]
    cases s.args.convertToRadix with
    | none => rfl
    | some r => simp only; rw [intDisplay_nat]
  | precision =>
    have hp := hb h
    unfold Cmd.execute executePrecision
    simp only
    rw [intListArgs_ok hp]
    simp only [Outcome.bind_ok, precisionArgument]
    rw [intDisplay_nat, intDisplay_nat]
    rfl

theorem integers_of_ok {arguments : Str} {ps : List (Positioned Int)}
    (h : tokenizeIntList arguments 10 = .ok ps) : Integers arguments (ps.map (·.value)) :=
  (integers_iff _ _).2 ⟨ps, h, rfl⟩

/-- Anything else is an error, without effect. -/
theorem setting_else {m : Machine} {ce : CommandExecutor} {cmd : Cmd} (hs : Setting cmd)
    {arguments : Positioned Str} {s : Session} (h : ¬ NoArgument arguments.value cmd)
    (h' : ∀ a', ¬ Requests arguments.value s.args cmd a') :
    ∃ t p, cmd.execute m ce arguments s = (.err (.input t p), s) := by
  have hb : ∀ (get : Args → Bool) (set : Args → Bool → Args), (¬ ∀ c ∈ arguments.value, Space c) →
      (∀ b, ¬ Says arguments.value b) → ∃ t p, executeBool get set arguments s = (.err (.input t p), s) := by
    intro get set h h1
    unfold executeBool
    rw [boolArgument_else h h1]
    exact ⟨_, _, rfl⟩
  have hr : (¬ ∀ c ∈ arguments.value, Blank c) → (∀ n : Nat, Integers arguments.value [(n : Int)] → 2 ≤ n → n ≤ 16 → False) →
      ∃ t p, (intListArgs arguments.value >>= radixArgument) = .err (.input t p) := by
    intro h h1
    rcases C08_no_crash 10 (by decide) (by decide) arguments.value with ⟨ps, hp⟩ | ⟨e, hp⟩
    · rw [intListArgs_ok hp]
      have hi := integers_of_ok hp
      simp only [Outcome.bind_ok]
      match ps, hi with
      | [], hi => exact absurd (blank_of_integers hi) h
      | [p], hi =>
        simp only [radixArgument]
        by_cases h2 : p.value < 2
        · rw [if_pos h2]; exact ⟨_, _, rfl⟩
        · rw [if_neg h2]
          by_cases h3 : p.value > 16
          · rw [if_pos h3]; exact ⟨_, _, rfl⟩
          · refine (h1 p.value.toNat ?_ (by omega) (by omega)).elim
            rw [Int.toNat_of_nonneg (by omega)]
            exact hi
      | p :: q :: ps, hi => exact ⟨_, _, rfl⟩
    · unfold intListArgs
      rw [hp]
      exact ⟨_, _, rfl⟩
  cases cmd with
  | help => cases hs
  | reloadVar => cases hs
  | purgeVar => cases hs
  | histcap => cases hs
  | fractional => exact hb (·.fractional) (fun a b => { a with fractional := b }) h fun b hb => h' _ (.fractional hb)
  | upper => exact hb (·.upper) (fun a b => { a with upper := b }) h fun b hb => h' _ (.upper hb)
  | commas => exact hb (·.commas) (fun a b => { a with commas := b }) h fun b hb => h' _ (.commas hb)
  | radix =>
    obtain ⟨t, p, hx⟩ := hr h fun n h1 h2 h3 => h' _ (.radix h1 h2 h3)
    unfold Cmd.execute executeRadix
    simp only
    rw [hx]
    exact ⟨_, _, rfl⟩
  | convertToRadix =>
    obtain ⟨t, p, hx⟩ := hr h fun n h1 h2 h3 => h' _ (.output h1 h2 h3)
    unfold Cmd.execute executeConvertToRadix
    simp only
    rw [if_neg fun h0 => h' _ (.noOutput ((isWord_iff none_chars _).2 h0)), hx]
    exact ⟨_, _, rfl⟩
  | precision =>
    unfold Cmd.execute executePrecision
    simp only
    rcases C08_no_crash 10 (by decide) (by decide) arguments.value with ⟨ps, hp⟩ | ⟨e, hp⟩
    · rw [intListArgs_ok hp]
      have hi := integers_of_ok hp
      simp only [Outcome.bind_ok]
      match ps, hi with
      | [], hi => exact absurd (blank_of_integers hi) h
      | [p], hi =>
        simp only [precisionArgument, precisionValues, toU8]
        by_cases h2 : 0 ≤ p.value ∧ p.value < 256
        · rw [if_pos h2]
          simp only
          by_cases h3 : p.value.toNat + s.args.extraPrecision < 256
          · refine (h' _ (.precision (n := p.value.toNat) ?_ (by omega))).elim
            rw [Int.toNat_of_nonneg h2.1]
            exact hi
          · rw [if_neg h3]; exact ⟨_, _, rfl⟩
        · rw [if_neg h2]; exact ⟨_, _, rfl⟩
      | [p, q], hi =>
        simp only [precisionArgument, precisionValues, toU8]
        by_cases h2 : 0 ≤ p.value ∧ p.value < 256
        · rw [if_pos h2]
          simp only
          by_cases h4 : 0 ≤ q.value ∧ q.value < 256
          · rw [if_pos h4]
            simp only
            by_cases h3 : p.value.toNat + q.value.toNat < 256
            · refine (h' _ (.precisions (n := p.value.toNat) (k := q.value.toNat) ?_ (by omega))).elim
              rw [Int.toNat_of_nonneg h2.1, Int.toNat_of_nonneg h4.1]
              exact hi
            · rw [if_neg h3]; exact ⟨_, _, rfl⟩
          · rw [if_neg h4]; exact ⟨_, _, rfl⟩
        · rw [if_neg h2]; exact ⟨_, _, rfl⟩
      | p :: q :: r :: ps, hi => exact ⟨_, _, rfl⟩
    · unfold intListArgs
      rw [hp]
      exact ⟨_, _, rfl⟩

end Bcalc
