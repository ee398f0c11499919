import Verif.Proof.Lexical3

/-! # Properties C01 - C09: reading an input line -/

namespace Bcalc
open Spec

/-! ## C01 Tokens tile the input exactly -/

/-- A line is accepted as the tokens `ts` exactly when it is an ASCII line, no command, and `ts` is
its decomposition into blanks, symbols and maximal words. -/
theorem C01_tokens_iff (radix : Nat) (h2 : 2 ≤ radix) (hr : radix ≤ 16) (line : Str)
    (ts : List PTok) :
    tokenize line radix = .ok (.tokens ts) ↔
      Ascii line ∧ ¬ CommandLine line ∧ Lexes radix 0 line ts :=
  tokenize_tokens_iff h2 hr line ts

/-- The tokens of an accepted line are in order, do not overlap, are non-empty, lie in the line,
each is the lexeme found at its place, and everything outside of them is blank. -/
theorem C01_tokens_tile (radix : Nat) (h2 : 2 ≤ radix) (hr : radix ≤ 16) (line : Str)
    (ts : List PTok) (h : tokenize line radix = .ok (.tokens ts)) :
    ts.Pairwise (fun a b => a.position.start + a.position.width ≤ b.position.start) ∧
    (∀ t ∈ ts, 0 < t.position.width ∧ t.position.start + t.position.width ≤ line.length ∧
      Lexeme radix (textAt line t.position) t.value) ∧
    (∀ i c, line[i]? = some c →
      (∀ t ∈ ts, ¬ (t.position.start ≤ i ∧ i < t.position.start + t.position.width)) →
      Blank c) := by
  obtain ⟨_, _, hl⟩ := (tokenize_tokens_iff h2 hr line ts).1 h
  refine ⟨lexes_pairwise hl, ?_, ?_⟩
  · intro t ht
    have h1 := lexes_start_le hl t ht
    have h3 := lexes_textAt [] hl rfl t ht
    simp [Position.stop] at h1
    exact ⟨by omega, by omega, by simpa using h3⟩
  · intro i c hi hno
    exact lexes_gap hl i c hi (by simpa [Position.stop] using hno)

/-- A concrete case: the line `1 +$x` has three tokens. -/
example : tokenize "1 +$x".toList 10 = .ok (.tokens
    [⟨.number 1, ⟨0, 1⟩⟩, ⟨.binary .add, ⟨2, 1⟩⟩, ⟨.variable "$x".toList, ⟨3, 2⟩⟩]) := by
  decide +kernel

/-! ## C02 Numeric literals denote their exact value -/

/-- A word is read as the number `v` exactly when it is a numeral of the radix denoting `v`. -/
theorem C02_number_iff (radix : Nat) (h2 : 2 ≤ radix) (hr : radix ≤ 16) (w : Str)
    (hne : w ≠ []) (hw : ∀ c ∈ w, WordChar c) (v : Rat) :
    tokenize w radix = .ok (.tokens [⟨.number v, ⟨0, w.length⟩⟩]) ↔ Numeral radix w v := by
  have hlex : Lexes radix 0 w [⟨.number v, ⟨0, w.length⟩⟩] ↔ Word radix w (.number v) := by
    have := lexes_word_iff (radix := radix) (pos := 0) (rest := [])
      (ts := [⟨.number v, ⟨0, w.length⟩⟩]) hne hw boundary_nil
    simp only [List.append_nil] at this
    rw [this]
    constructor
    · rintro ⟨t, ts', h1, h3, _⟩
      simp at h3
      rw [h3.1]; exact h1
    · intro h; exact ⟨_, _, h, rfl, .done⟩
  rw [tokenize_tokens_iff h2 hr, hlex]
  constructor
  · rintro ⟨_, _, h⟩; cases h; assumption
  · intro h; exact ⟨numeral_ascii h, word_not_command hw, .number h⟩

/-- Wherever a number token occurs in an accepted line, the text at its place is a numeral denoting
its value, and denotes nothing else. -/
theorem C02_number_in_line (radix : Nat) (h2 : 2 ≤ radix) (hr : radix ≤ 16) (line : Str)
    (ts : List PTok) (h : tokenize line radix = .ok (.tokens ts)) (v : Rat) (p : Position)
    (ht : ⟨.number v, p⟩ ∈ ts) (v' : Rat) : Numeral radix (textAt line p) v' ↔ v' = v := by
  obtain ⟨_, _, hl⟩ := (tokenize_tokens_iff h2 hr line ts).1 h
  have h3 := lexes_textAt [] hl rfl _ ht
  simp only [List.nil_append] at h3
  have hn : Numeral radix (textAt line p) v := by
    generalize textAt line p = x at h3
    rcases h3 with ⟨c, _, hc⟩ | ⟨_, _, hw⟩
    · cases hc
    · cases hw; assumption
  exact ⟨fun h' => numeral_unique h2 hr h' hn, fun h' => h' ▸ hn⟩

/-- `f_f.8` in hexadecimal is 255.5. -/
example : tokenize "f_f.8".toList 16 = .ok (.tokens [⟨.number (511 / 2), ⟨0, 5⟩⟩]) := by
  decide +kernel

/-! ## C03 Bad words are rejected at the right place -/

/-- A line with a non-ASCII character is rejected at the first one. -/
theorem C03_nonAscii (radix : Nat) (pre : Str) (c : Char) (rest : Str) (hp : Ascii pre)
    (hc : 128 ≤ c.toNat) :
    tokenize (pre ++ c :: rest) radix = .err ⟨.nonAscii, ⟨pre.length, 1⟩⟩ := by
  have : (pre ++ c :: rest).findIdx? (fun c => !isAscii c) = some pre.length := by
    rw [List.findIdx?_append]
    have h1 : pre.findIdx? (fun c => !isAscii c) = none := findIdx?_ascii_none.2 hp
    rw [h1, List.findIdx?_cons]
    have : (!isAscii c) = true := by simp [isAscii]; omega
    simp [this]
  unfold tokenize
  rw [this]
  rfl

/-- An ASCII line that is no command is rejected exactly when it has a first bad word; the error
names that word and carries its place. -/
theorem C03_badWord_iff (radix : Nat) (h2 : 2 ≤ radix) (hr : radix ≤ 16) (line : Str)
    (ha : Ascii line) (hc : ¬ CommandLine line) (e : Positioned ParseError) :
    tokenize line radix = .err e ↔
      ∃ w start, FirstBadWord radix line w start ∧
        e = ⟨.invalidNumber w, ⟨start, w.length⟩⟩ := by
  rcases tokenize_spec h2 hr line with ⟨i, _, h, _⟩ | ⟨_, p, _, h, _⟩ |
    ⟨_, _, ⟨ts, he, h⟩ | ⟨w, s, he, h, h'⟩⟩
  · exact absurd ha h
  · exact absurd h hc
  · rw [he]
    simp only [reduceCtorEq, false_iff, not_exists, not_and]
    rintro w start ⟨pre, rest, us, rfl, _, k1, k2, k3, k4, k5, k6⟩
    have hl := (h ts).2 rfl
    rw [List.append_assoc] at hl
    obtain ⟨_, _, _, _, hl⟩ := lexes_split_apart hl (.inl k4)
    rw [lexes_word_iff k1 k2 k3] at hl
    obtain ⟨t, _, ht, _⟩ := hl
    exact absurd ht (k6 t)
  · rw [he]
    constructor
    · intro h1; simp at h1; exact ⟨w, s, h, h1.symm⟩
    · rintro ⟨w', s', k1, rfl⟩
      obtain ⟨rfl, rfl⟩ := firstBadWord_unique h k1
      rfl

/-- No line with a maximal word that stands for nothing is accepted. -/
theorem C03_no_bad_word_accepted (radix : Nat) (h2 : 2 ≤ radix) (hr : radix ≤ 16)
    (pre w rest : Str) (hne : w ≠ []) (hw : ∀ c ∈ w, WordChar c) (hb : Boundary rest)
    (hp : ∀ p c, pre = p ++ [c] → ¬ WordChar c) (hbad : ∀ t, ¬ Word radix w t)
    (ts : List PTok) : tokenize (pre ++ w ++ rest) radix ≠ .ok (.tokens ts) := by
  intro h
  obtain ⟨_, _, hl⟩ := (tokenize_tokens_iff h2 hr _ ts).1 h
  rw [List.append_assoc] at hl
  obtain ⟨_, _, _, _, hl⟩ := lexes_split_apart hl (.inl hp)
  rw [lexes_word_iff hne hw hb] at hl
  obtain ⟨t, _, ht, _⟩ := hl
  exact hbad t ht

/-- In radix 10 the first bad word of `1+ 2x+y` is `2x`. -/
example : tokenize "1+ 2x+y".toList 10 = .err ⟨.invalidNumber "2x".toList, ⟨3, 2⟩⟩ ∧
    Ascii "1+ 2x+y".toList ∧ tokenize "1+é+y".toList 10 = .err ⟨.nonAscii, ⟨2, 1⟩⟩ := by
  refine ⟨by decide +kernel, ?_, by decide +kernel⟩
  unfold Ascii; decide +kernel

/-! ## C04 Commands are recognised and split faithfully -/

theorem C04_command_iff (radix : Nat) (h2 : 2 ≤ radix) (hr : radix ≤ 16) (line : Str)
    (ha : Ascii line) :
    (∃ name args, tokenize line radix = .ok (.command name args)) ↔ CommandLine line := by
  rcases tokenize_spec h2 hr line with ⟨i, _, h, _⟩ | ⟨_, p, hp, h, he⟩ |
    ⟨_, hc, ⟨ts, he, h⟩ | ⟨w, s, he, h, h'⟩⟩
  · exact absurd ha h
  · obtain ⟨_, _, _, _, rfl, _⟩ := maybeExtractCommand_some hp
    rw [he]; simp [h]
  · rw [he]; simp [hc]
  · rw [he]; simp [hc]

/-- The line is white space, a slash, the name (without blanks), and then nothing or a blank and the
argument text; the reported places are those of the slash with the name, and of the arguments. -/
theorem C04_command_split (radix : Nat) (h2 : 2 ≤ radix) (hr : radix ≤ 16) (line : Str)
    (name args : Positioned Str) (h : tokenize line radix = .ok (.command name args)) :
    ∃ pre tail, line = pre ++ '/' :: name.value ++ tail ∧
      (∀ c ∈ pre, Blank c ∨ c = '\x0b') ∧ (∀ c ∈ name.value, ¬ Blank c) ∧
      ((tail = [] ∧ args.value = []) ∨ ∃ b, Blank b ∧ tail = b :: args.value) ∧
      textAt line name.position = '/' :: name.value ∧ name.position.start = pre.length ∧
      textAt line args.position = args.value ∧
      args.position.start + args.value.length = line.length := by
  rcases tokenize_spec h2 hr line with ⟨i, _, _, he⟩ | ⟨_, p, hp, _, he⟩ |
    ⟨_, _, ⟨ts, he, _⟩ | ⟨w, s, he, _, _⟩⟩
  · rw [he] at h; cases h
  · obtain ⟨pre, n, a, tail, rfl, k1, k2, k3, k4⟩ := maybeExtractCommand_some hp
    rw [he] at h
    simp at h
    obtain ⟨rfl, rfl⟩ := h
    have hlen : a.length ≤ line.length := by
      rw [k1]
      rcases k4 with ⟨rfl, rfl⟩ | ⟨b, _, rfl⟩
      · simp
      · simp; omega
    have hdrop : line.drop (line.length - a.length) = a := by
      have hsuf : a <:+ line := by
        rw [k1]
        rcases k4 with ⟨rfl, rfl⟩ | ⟨b, _, rfl⟩
        · exact List.nil_suffix
        · exact ⟨pre ++ '/' :: n ++ [b], by simp⟩
      exact (List.suffix_iff_eq_drop.1 hsuf).symm
    refine ⟨pre, tail, k1, k2, k3, k4, ?_, rfl, ?_, by simp; omega⟩
    · unfold textAt; rw [k1]; simp
    · unfold textAt
      simp only
      rw [hdrop]; simp
  · rw [he] at h; cases h
  · rw [he] at h; cases h

example : tokenize " /histcap  12".toList 10 =
    .ok (.command ⟨"histcap".toList, ⟨1, 8⟩⟩ ⟨" 12".toList, ⟨10, 3⟩⟩) := by decide +kernel

/-! ## C05 Tokenizing never crashes -/

theorem C05_no_crash (radix : Nat) (h2 : 2 ≤ radix) (hr : radix ≤ 16) (line : Str) :
    (∃ p, tokenize line radix = .ok p) ∨ (∃ e, tokenize line radix = .err e) := by
  rcases tokenize_spec h2 hr line with ⟨i, _, _, he⟩ | ⟨_, p, hp, _, he⟩ |
    ⟨_, _, ⟨ts, he, _⟩ | ⟨w, s, he, _, _⟩⟩
  · exact .inr ⟨_, he⟩
  · exact .inl ⟨_, he⟩
  · exact .inl ⟨_, he⟩
  · exact .inr ⟨_, he⟩

/-- The bound on the radix matters: with radix 37 a number word makes the library panic. -/
example : tokenize "1".toList 37 = .panic .radixAssertion := by decide +kernel

/-! ## C06 Blank space around tokens does not matter -/

theorem C06_insert_blanks (radix : Nat) (h2 : 2 ≤ radix) (hr : radix ≤ 16) (a blanks b : Str)
    (hb : ∀ c ∈ blanks, Blank c) (ts : List PTok)
    (h : tokenize (a ++ b) radix = .ok (.tokens ts))
    (hgap : ∀ t ∈ ts, t.position.start + t.position.width ≤ a.length ∨
      a.length ≤ t.position.start) :
    tokenize (a ++ blanks ++ b) radix = .ok (.tokens (ts.map (movedBy a.length blanks.length))) := by
  obtain ⟨hasc, hcmd, hl⟩ := (tokenize_tokens_iff h2 hr _ ts).1 h
  rw [tokenize_tokens_iff h2 hr]
  refine ⟨?_, ?_, ?_⟩
  · intro c hc
    simp at hc
    rcases hc with hc | hc | hc
    · exact hasc c (by simp [hc])
    · rcases hb c hc with rfl | rfl | rfl | rfl | rfl <;> decide
    · exact hasc c (by simp [hc])
  · rintro ⟨pre, rest, h1, h3⟩
    apply hcmd
    -- the slash is in `a` or in `b`
    rw [List.append_assoc] at h1
    rcases List.append_eq_append_iff.1 h1 with ⟨x, q1, q2⟩ | ⟨x, q1, q2⟩
    · rcases List.append_eq_append_iff.1 q2 with ⟨y, r1, r2⟩ | ⟨y, r1, r2⟩
      · refine ⟨a ++ y, rest, by rw [r2]; simp, ?_⟩
        intro c hc
        apply h3 c
        rw [q1, r1]
        simp at hc ⊢; tauto
      · cases y with
        | nil =>
          refine ⟨a, rest, by simp at r2; rw [← r2], ?_⟩
          intro c hc; apply h3 c; rw [q1]; simp [hc]
        | cons z zs =>
          simp at r2
          have := hb z (by rw [r1]; simp)
          rw [← r2.1] at this
          exact absurd (Or.inl this) slash_not_white
    · cases x with
      | nil =>
        simp at q1 q2
        subst q1
        rcases blanks with _ | ⟨z, zs⟩
        · refine ⟨a, rest, by simp at q2; rw [← q2], h3⟩
        · simp at q2
          have := hb z (by simp)
          rw [← q2.1] at this
          exact absurd (Or.inl this) slash_not_white
      | cons z zs =>
        simp at q2
        obtain ⟨rfl, rfl⟩ := q2
        exact ⟨pre, zs ++ b, by rw [q1]; simp, h3⟩
  · obtain ⟨hap, ts1, ts2, rfl, l1, l2⟩ := lexes_split hl (by simpa [Position.stop] using hgap)
    have hbl : ∀ pos, Lexes radix pos blanks [] := by
      intro pos
      clear h hgap
      induction blanks generalizing pos with
      | nil => exact .done
      | cons c cs ih =>
        exact .blank (hb c (by simp)) (ih (fun x hx => hb x (by simp [hx])) (pos + 1))
    have m1 : ts1.map (movedBy a.length blanks.length) = ts1 := by
      conv_rhs => rw [← List.map_id ts1]
      apply List.map_congr_left
      intro t ht
      have := lexes_start_le l1 t ht
      simp [Position.stop] at this
      unfold movedBy
      rw [if_neg (by omega)]; rfl
    have m2 : ts2.map (movedBy a.length blanks.length) = ts2.map (shiftTok blanks.length) := by
      apply List.map_congr_left
      intro t ht
      have := lexes_start_le l2 t ht
      unfold movedBy shiftTok
      rw [if_pos (by omega)]
    rw [List.map_append, m1, m2, List.append_assoc]
    rcases hb' : blanks with _ | ⟨z, zs⟩
    · simp only [List.nil_append, List.length_nil]
      have : ts2.map (shiftTok 0) = ts2 := by
        conv_rhs => rw [← List.map_id ts2]
        apply List.map_congr_left; intro t _; rfl
      rw [this]; exact hl
    · rw [← hb']
      have hz : Boundary (blanks ++ b) := by
        rw [hb']; exact boundary_cons (blank_not_wordChar (hb z (by rw [hb']; simp)))
      apply lexes_append l1 (.inr hz)
      have := lexes_append (hbl (0 + a.length)) (b := b) (us := ts2.map (shiftTok blanks.length))
        (.inl (by
          intro p c hc
          exact blank_not_wordChar (hb c (by rw [hc]; simp)))) (lexes_shift _ l2)
      simpa using this

example : tokenize "1+2".toList 10 = .ok (.tokens
      [⟨.number 1, ⟨0, 1⟩⟩, ⟨.binary .add, ⟨1, 1⟩⟩, ⟨.number 2, ⟨2, 1⟩⟩]) ∧
    tokenize "1 \t+2".toList 10 = .ok (.tokens
      [⟨.number 1, ⟨0, 1⟩⟩, ⟨.binary .add, ⟨3, 1⟩⟩, ⟨.number 2, ⟨4, 1⟩⟩]) := by
  constructor <;> decide +kernel

/-! ## C07 Underscores and digit case do not change a number -/

/-- Replacing a numeral anywhere in an accepted line by a word with the same digits (up to
underscores and letter case) keeps the line accepted with the same tokens; only the places change. -/
theorem C07_same_digits (radix : Nat) (h2 : 2 ≤ radix) (hr : radix ≤ 16) (pre w w' rest : Str)
    (v : Rat) (hv : Numeral radix w v) (hs : SameDigits w w')
    (hb : Boundary rest) (hp : ∀ p c, pre = p ++ [c] → ¬ WordChar c)
    (ts : List PTok) (h : tokenize (pre ++ w ++ rest) radix = .ok (.tokens ts)) :
    ∃ ts', tokenize (pre ++ w' ++ rest) radix = .ok (.tokens ts') ∧
      ts'.map (·.value) = ts.map (·.value) := by
  obtain ⟨hasc, hcmd, hl⟩ := (tokenize_tokens_iff h2 hr _ ts).1 h
  have hv' := numeral_sameDigits hs hv
  have hw := numeral_wordChar hv
  have hw' := numeral_wordChar hv'
  have hne := numeral_ne_nil hv
  have hne' := numeral_ne_nil hv'
  rw [List.append_assoc] at hl
  obtain ⟨ts1, ts2, rfl, l1, l2⟩ := lexes_split_apart hl (.inl hp)
  rw [lexes_word_iff hne hw hb] at l2
  obtain ⟨t, ts3, ht, rfl, l3⟩ := l2
  have htv : t = .number v := by
    rcases endWord_spec h2 hr [] hne hw (Nat.le_refl _) with ⟨u, _, hu⟩ | ⟨_, hu⟩
    · rw [(hu t).1 ht, (hu (.number v)).1 (.number hv)]
    · exact absurd ht (hu t)
  subst htv
  -- move the tail to its new place
  have key : ∀ {pos s us} (pos' : Nat), Lexes radix pos s us →
      ∃ us', Lexes radix pos' s us' ∧ us'.map (·.value) = us.map (·.value) := by
    intro pos s us pos' hl
    induction hl generalizing pos' with
    | done => exact ⟨[], .done, rfl⟩
    | blank hc _ ih => obtain ⟨us', k1, k2⟩ := ih (pos' + 1); exact ⟨us', .blank hc k1, k2⟩
    | symbol hc _ ih =>
      obtain ⟨us', k1, k2⟩ := ih (pos' + 1)
      exact ⟨_, .symbol hc k1, by simp [k2]⟩
    | @word pos w t rest ts q1 q2 q3 q4 _ ih =>
      obtain ⟨us', k1, k2⟩ := ih (pos' + w.length)
      exact ⟨_, .word q1 q2 q3 q4 k1, by simp [k2]⟩
  obtain ⟨us, u1, u2⟩ := key (0 + pre.length + w'.length) l3
  refine ⟨ts1 ++ ⟨.number v, ⟨0 + pre.length, w'.length⟩⟩ :: us, ?_, by simp [u2]⟩
  rw [tokenize_tokens_iff h2 hr]
  refine ⟨?_, ?_, ?_⟩
  · intro c hc
    simp at hc
    rcases hc with hc | hc | hc
    · exact hasc c (by simp [hc])
    · exact numeral_ascii hv' c hc
    · exact hasc c (by simp [hc])
  · rintro ⟨q, r, h1, h3⟩
    apply hcmd
    rw [List.append_assoc] at h1
    rcases List.append_eq_append_iff.1 h1 with ⟨x, q1, q2⟩ | ⟨x, q1, q2⟩
    · -- the slash would be in or right of the numeral, which has a character that is not white
      exfalso
      have hch : ∃ c cs, w' = c :: cs ∧ WordChar c ∧ c ≠ '\x0b' := by
        obtain ⟨c, cs, rfl⟩ := List.exists_cons_of_ne_nil hne'
        refine ⟨c, cs, rfl, hw' c (by simp), ?_⟩
        rcases numeral_char hv' c (by simp) with rfl | rfl | ⟨d, hd, _⟩
        · decide
        · decide
        · rintro rfl
          have h0 : '0'.toNat = 48 := rfl
          have ha : 'a'.toNat = 97 := rfl
          have hA : 'A'.toNat = 65 := rfl
          have h1 : '\x0b'.toNat = 11 := rfl
          unfold DigitChar at hd; omega
      obtain ⟨c, cs, rfl, hcw, hvt⟩ := hch
      cases x with
      | nil =>
        simp at q2
        rw [q2.1] at hcw
        exact Symbol.slash.not_wordChar hcw
      | cons y ys =>
        simp at q2
        have := h3 c (by rw [q1, q2.1]; simp)
        rcases this with this | this
        · exact hcw.1 this
        · exact hvt this
    · cases x with
      | nil =>
        simp at q2
        obtain ⟨c, cs, rfl⟩ := List.exists_cons_of_ne_nil hne'
        simp at q2
        have := hw' c (by simp)
        rw [← q2.1] at this
        exact absurd this Symbol.slash.not_wordChar
      | cons z zs =>
        simp at q2
        obtain ⟨rfl, rfl⟩ := q2
        exact ⟨q, zs ++ (w ++ rest), by rw [q1]; simp, h3⟩
  · rw [List.append_assoc]
    exact lexes_append l1 (.inl hp) (.word hne' hw' hb (.number hv') u1)

/-- Words with the same digits are numerals of the same value, or both are none. -/
theorem C07_same_value (radix : Nat) (w w' : Str) (hs : SameDigits w w') (v : Rat) :
    Numeral radix w v ↔ Numeral radix w' v :=
  ⟨numeral_sameDigits hs, numeral_sameDigits (sameDigits_symm hs)⟩

example : SameDigits "f_f".toList "_Ff".toList ∧
    tokenize "1+f_f".toList 16 = .ok (.tokens
      [⟨.number 1, ⟨0, 1⟩⟩, ⟨.binary .add, ⟨1, 1⟩⟩, ⟨.number 255, ⟨2, 3⟩⟩]) ∧
    tokenize "1+_Ff".toList 16 = .ok (.tokens
      [⟨.number 1, ⟨0, 1⟩⟩, ⟨.binary .add, ⟨1, 1⟩⟩, ⟨.number 255, ⟨2, 3⟩⟩]) := by
  refine ⟨?_, by decide +kernel, by decide +kernel⟩
  show List.Forall₂ _ ['f', 'f'] ['F', 'f']
  exact .cons (by decide) (.cons (by decide) .nil)

/-! ## C08 Integer argument lists are read exactly -/

theorem C08_int_list_iff (radix : Nat) (h2 : 2 ≤ radix) (hr : radix ≤ 16) (text : Str)
    (ns : List (Positioned Int)) :
    tokenizeIntList text radix = .ok ns ↔
      Ascii text ∧ ¬ CommandLine text ∧ ∃ ts, Lexes radix 0 text ts ∧ SignedInts ts ns := by
  unfold tokenizeIntList
  rcases tokenize_spec h2 hr text with ⟨i, _, h, he⟩ | ⟨_, p, hp, h, he⟩ |
    ⟨ha, hc, ⟨ts, he, h⟩ | ⟨w, s, he, _, h⟩⟩
  · rw [he]; simp [h]
  · obtain ⟨_, _, _, _, rfl, _⟩ := maybeExtractCommand_some hp
    rw [he]; simp [h]
  · rw [he]
    have hl := (h ts).2 rfl
    simp only [ha, hc, not_false_eq_true, true_and]
    rw [(intListLoop_iff ts [] ns (lexes_number_nonneg hl) (lexes_pairwise hl)).1]
    constructor
    · rintro ⟨ns', rfl, k⟩; exact ⟨ts, hl, by simpa using k⟩
    · rintro ⟨ts', k1, k2⟩
      rw [(h ts').1 k1] at k2
      exact ⟨ns, by simp, k2⟩
  · rw [he]; simp [h]

/-- Reading an integer list never panics (so no negation overflows) and always finishes. -/
theorem C08_no_crash (radix : Nat) (h2 : 2 ≤ radix) (hr : radix ≤ 16) (text : Str) :
    (∃ ns, tokenizeIntList text radix = .ok ns) ∨ (∃ e, tokenizeIntList text radix = .err e) := by
  unfold tokenizeIntList
  rcases tokenize_spec h2 hr text with ⟨i, _, h, he⟩ | ⟨_, p, hp, h, he⟩ |
    ⟨ha, hc, ⟨ts, he, h⟩ | ⟨w, s, he, _, h⟩⟩
  · rw [he]; simp
  · obtain ⟨_, _, _, _, rfl, _⟩ := maybeExtractCommand_some hp
    rw [he]; simp
  · rw [he]
    have hl := (h ts).2 rfl
    have hk := intListLoop_iff ts [] [] (lexes_number_nonneg hl) (lexes_pairwise hl)
    simp only
    cases hx : intListLoop ts [] none with
    | ok a => simp
    | err e => simp
    | panic k => exact absurd hx (hk.2.2.1 none k)
    | diverge => exact absurd hx (hk.2.2.2 none)
  · rw [he]; simp

/-- The bound is exact: the smallest 64-bit integer cannot be written. -/
example : tokenizeIntList "9223372036854775807 -5".toList 10 =
      .ok [⟨9223372036854775807, ⟨0, 19⟩⟩, ⟨-5, ⟨20, 2⟩⟩] ∧
    (∃ e, tokenizeIntList "-9223372036854775808".toList 10 = .err e) := by
  constructor
  · decide +kernel
  · exact ⟨⟨"Value must be representable as a 64-bit signed integer".toList, ⟨1, 19⟩⟩,
      by decide +kernel⟩

/-! ## C09 Variable argument lists contain only variables -/

theorem C09_variable_list_iff (text : Str) (ns : List (Positioned Str)) :
    tokenizeVariableList text = .ok ns ↔
      Ascii text ∧ ¬ CommandLine text ∧ ∃ ts, Lexes 10 0 text ts ∧
        List.Forall₂ (fun t n => t.value = Token.variable n.value ∧ n.position = t.position)
          ts ns := by
  unfold tokenizeVariableList
  rcases tokenize_spec (radix := 10) (by omega) (by omega) text with
    ⟨i, _, h, he⟩ | ⟨_, p, hp, h, he⟩ | ⟨ha, hc, ⟨ts, he, h⟩ | ⟨w, s, he, _, h⟩⟩
  · rw [he]; simp [h]
  · obtain ⟨_, _, _, _, rfl, _⟩ := maybeExtractCommand_some hp
    rw [he]; simp [h]
  · rw [he]
    have hl := (h ts).2 rfl
    simp only [ha, hc, not_false_eq_true, true_and]
    rw [variableListLoop_iff]
    constructor
    · rintro ⟨ns', rfl, k⟩; exact ⟨ts, hl, by simpa using k⟩
    · rintro ⟨ts', k1, k2⟩
      rw [(h ts').1 k1] at k2
      exact ⟨ns, by simp, k2⟩
  · rw [he]; simp [h]

example : tokenizeVariableList "$a  $bc".toList =
    .ok [⟨"$a".toList, ⟨0, 2⟩⟩, ⟨"$bc".toList, ⟨4, 3⟩⟩] := by decide +kernel

end Bcalc
