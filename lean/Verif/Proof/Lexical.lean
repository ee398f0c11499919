import Verif.Spec.Lexical
import Mathlib.Tactic.Ring
import Mathlib.Tactic.NormNum
import Mathlib.Tactic.FieldSimp

/-! # Lemmas relating the tokenizer to the lexical specification -/

namespace Bcalc
open Spec

theorem isAsciiWs_iff (c : Char) : isAsciiWs c = true ↔ Blank c := by
  simp [isAsciiWs, Blank, or_assoc]

theorem singleCharToken_iff (c : Char) (t : Token) : singleCharToken c = some t ↔ Symbol c t := by
  constructor
  · intro h
    unfold singleCharToken at h
    repeat' split at h
    all_goals first
      | (subst_vars; simp only [Option.some.injEq] at h; subst h; constructor)
      | simp at h
  · intro h; cases h <;> rfl

theorem singleCharToken_none_iff (c : Char) : singleCharToken c = none ↔ ∀ t, ¬ Symbol c t := by
  simp only [← singleCharToken_iff]
  cases singleCharToken c <;> simp

theorem wordChar_iff (c : Char) :
    WordChar c ↔ isAsciiWs c = false ∧ singleCharToken c = none := by
  unfold WordChar
  rw [singleCharToken_none_iff, ← isAsciiWs_iff]
  simp

theorem Spec.Symbol.not_blank {c t} (h : Symbol c t) : ¬ Blank c := by
  cases h <;> simp [Blank]

theorem Spec.Symbol.not_wordChar {c t} (h : Symbol c t) : ¬ WordChar c := fun hw => hw.2 t h

theorem blank_not_wordChar {c} (h : Blank c) : ¬ WordChar c := fun hw => hw.1 h

theorem wordChar_cases (c : Char) : Blank c ∨ (∃ t, Symbol c t) ∨ WordChar c := by
  by_cases h : Blank c
  · exact .inl h
  · by_cases h2 : ∃ t, Symbol c t
    · exact .inr (.inl h2)
    · exact .inr (.inr ⟨h, by simpa using h2⟩)

/-! ## Digits and numerals -/

theorem digitVal_lt_iff {c : Char} {radix d : Nat} (hr : radix ≤ 36) :
    (digitVal c < radix ∧ digitVal c = d) ↔ (DigitChar c d ∧ d < radix) := by
  have h0 : '0'.toNat = 48 := rfl
  have ha : 'a'.toNat = 97 := rfl
  have hA : 'A'.toNat = 65 := rfl
  unfold digitVal DigitChar
  rw [h0, ha, hA]
  split
  · constructor
    · rintro ⟨h1, h2⟩; exact ⟨.inl (by omega), by omega⟩
    · rintro ⟨h1 | h1, h2⟩ <;> omega
  · split
    · constructor
      · rintro ⟨h1, h2⟩; exact ⟨.inr (by omega), by omega⟩
      · rintro ⟨h1 | h1, h2⟩ <;> omega
    · split
      · constructor
        · rintro ⟨h1, h2⟩; exact ⟨.inr (by omega), by omega⟩
        · rintro ⟨h1 | h1, h2⟩ <;> omega
      · constructor
        · rintro ⟨h1, h2⟩; omega
        · rintro ⟨h1 | h1, h2⟩ <;> omega

theorem digitChar_ne_underscore {c d} (h : DigitChar c d) : c ≠ '_' := by
  rintro rfl
  have h1 : '_'.toNat = 95 := rfl
  have h0 : '0'.toNat = 48 := rfl
  have ha : 'a'.toNat = 97 := rfl
  have hA : 'A'.toNat = 65 := rfl
  unfold DigitChar at h; omega

theorem digitChar_ne_point {c d} (h : DigitChar c d) : c ≠ '.' := by
  rintro rfl
  have h1 : '.'.toNat = 46 := rfl
  have h0 : '0'.toNat = 48 := rfl
  have ha : 'a'.toNat = 97 := rfl
  have hA : 'A'.toNat = 65 := rfl
  unfold DigitChar at h; omega

theorem Digits.cons_iff {radix c s ds} :
    Digits radix (c :: s) ds ↔ ∃ d ds', ds = d :: ds' ∧ DigitChar c d ∧ d < radix ∧
      Digits radix s ds' := by
  unfold Digits
  constructor
  · intro h; cases h with | cons h1 h2 => exact ⟨_, _, rfl, h1.1, h1.2, h2⟩
  · rintro ⟨d, ds', rfl, h1, h2, h3⟩; exact .cons ⟨h1, h2⟩ h3

theorem Digits.nil_iff {radix ds} : Digits radix [] ds ↔ ds = [] := by
  unfold Digits; exact List.forall₂_nil_left_iff

theorem digits_mem {radix s ds} (h : Digits radix s ds) :
    ∀ c ∈ s, ∃ d, DigitChar c d ∧ d < radix := by
  intro c hc
  induction h with
  | nil => cases hc
  | cons h1 _ ih =>
    rcases List.mem_cons.1 hc with rfl | h
    · exact ⟨_, h1⟩
    · exact ih h

theorem digits_point_not_mem {radix s ds} (h : Digits radix s ds) : '.' ∉ s := by
  intro hm
  obtain ⟨d, hd, _⟩ := digits_mem h _ hm
  exact digitChar_ne_point hd rfl

theorem digits_length_eq {radix s ds} (h : Digits radix s ds) : s.length = ds.length :=
  List.Forall₂.length_eq h

theorem parseDigits_iff {radix : Nat} (hr : radix ≤ 36) (s : Str) (hs : '_' ∉ s) (acc n : Nat) :
    parseDigits radix s acc = some n ↔
      ∃ ds, Digits radix s ds ∧ n = ds.foldl (fun acc d => acc * radix + d) acc := by
  induction s generalizing acc with
  | nil => simp [parseDigits, Digits.nil_iff, eq_comm]
  | cons c cs ih =>
    simp only [List.mem_cons, not_or] at hs
    rw [parseDigits, if_neg (Ne.symm hs.1)]
    split
    · rename_i hlt
      rw [ih hs.2]
      have hd := (digitVal_lt_iff (d := digitVal c) hr).1 ⟨hlt, rfl⟩
      constructor
      · rintro ⟨ds, h1, h2⟩
        exact ⟨digitVal c :: ds, Digits.cons_iff.2 ⟨_, _, rfl, hd.1, hd.2, h1⟩, by simpa using h2⟩
      · rintro ⟨ds, h1, h2⟩
        obtain ⟨d, ds', rfl, h3, h4, h5⟩ := Digits.cons_iff.1 h1
        have := (digitVal_lt_iff (c := c) hr).2 ⟨h3, h4⟩
        exact ⟨ds', h5, by rw [this.2]; simpa using h2⟩
    · rename_i hlt
      simp only [reduceCtorEq, false_iff, not_exists, not_and]
      intro ds h1
      obtain ⟨d, ds', rfl, h3, h4, h5⟩ := Digits.cons_iff.1 h1
      have := (digitVal_lt_iff (c := c) hr).2 ⟨h3, h4⟩
      exact absurd this.1 hlt

theorem cleanNumber_some (w clean : Str) (i : Nat) :
    cleanNumber w clean (some i) = (clean ++ noUnderscores w, some i) := by
  induction w generalizing clean with
  | nil => simp [cleanNumber, noUnderscores]
  | cons c cs ih =>
    unfold cleanNumber
    by_cases hc : c = '_'
    · subst hc; simp [ih, noUnderscores]
    · simp only [hc, if_false, reduceCtorEq, and_false]
      rw [ih]; simp [noUnderscores, hc]

theorem cleanNumber_none (w clean : Str) :
    ('.' ∉ noUnderscores w ∧ cleanNumber w clean none = (clean ++ noUnderscores w, none)) ∨
    ∃ ip fp, noUnderscores w = ip ++ '.' :: fp ∧ '.' ∉ ip ∧
      cleanNumber w clean none = (clean ++ ip ++ fp, some (clean.length + ip.length)) := by
  induction w generalizing clean with
  | nil => left; simp [cleanNumber, noUnderscores]
  | cons c cs ih =>
    unfold cleanNumber
    by_cases hc : c = '_'
    · subst hc
      have : noUnderscores ('_' :: cs) = noUnderscores cs := by simp [noUnderscores]
      rw [this, if_pos rfl]
      exact ih clean
    · have hn : noUnderscores (c :: cs) = c :: noUnderscores cs := by simp [noUnderscores, hc]
      rw [if_neg hc]
      by_cases hp : c = '.'
      · subst hp
        right
        refine ⟨[], noUnderscores cs, by simp [hn], by simp, ?_⟩
        simp [cleanNumber_some]
      · simp only [hp, false_and, if_false]
        rw [hn]
        rcases ih (clean ++ [c]) with ⟨h1, h2⟩ | ⟨ip, fp, h1, h2, h3⟩
        · left; exact ⟨by simp [h1, Ne.symm hp], by simp [h2]⟩
        · right
          refine ⟨c :: ip, fp, by simp [h1], by simp [h2, Ne.symm hp], ?_⟩
          rw [h3]; simp; omega

/-- Splitting at the first point is unique among digit strings. -/
theorem split_point_unique {ip fp ip' fp' : Str} (h : ip ++ '.' :: fp = ip' ++ '.' :: fp')
    (h1 : '.' ∉ ip) (h2 : '.' ∉ ip') : ip = ip' ∧ fp = fp' := by
  induction ip generalizing ip' with
  | nil =>
    cases ip' with
    | nil => simpa using h
    | cons a as => simp at h; simp [← h.1] at h2
  | cons b bs ih =>
    cases ip' with
    | nil => simp at h; simp [h.1] at h1
    | cons a as =>
      simp at h h1 h2
      obtain ⟨r1, r2⟩ := ih h.2 h1.2 h2.2
      exact ⟨by rw [h.1, r1], r2⟩

/-- No sign character occurs in a word. -/
theorem wordChar_ne_sign {c : Char} (h : WordChar c) : c ≠ '+' ∧ c ≠ '-' :=
  ⟨fun e => h.2 _ (e ▸ Symbol.plus), fun e => h.2 _ (e ▸ Symbol.minus)⟩

theorem parseBigInt_clean {ε : Type} {radix : Nat} (h2 : 2 ≤ radix) (hr : radix ≤ 36) (s : Str)
    (hs : ∀ c ∈ s, WordChar c ∧ c ≠ '_') :
    (parseBigInt s radix : Outcome ε _) =
      .ok (if s = [] then none else (parseDigits radix s 0).map Int.ofNat) := by
  unfold parseBigInt
  rw [if_pos ⟨h2, hr⟩]
  cases s with
  | nil => rfl
  | cons c cs =>
    have hc := hs c (by simp)
    have := wordChar_ne_sign hc.1
    have e1 : c ≠ '-' := this.2
    have e2 : c ≠ '+' := this.1
    have e3 : c ≠ '_' := hc.2
    have hp : parseBigUint radix (c :: cs) = parseDigits radix (c :: cs) 0 := by
      unfold parseBigUint
      have h0 : stripPlus (c :: cs) = c :: cs := by
        unfold stripPlus
        split
        · rename_i h; simp at h; exact absurd h.1 e2
        · rename_i h; simp at h; exact absurd h.1 e2
        · rfl
      simp only [h0]
      split
      · rename_i h; cases h
      · rename_i h; simp at h; exact absurd h.1 e3
      · rfl
    simp only [reduceCtorEq, if_false]
    split
    · rename_i h; simp at h; exact absurd h.1 e1
    · rw [hp]; rfl

theorem noUnderscores_wordChar {w : Str} (hw : ∀ c ∈ w, WordChar c) :
    ∀ c ∈ noUnderscores w, WordChar c ∧ c ≠ '_' := by
  intro c hc
  simp [noUnderscores] at hc
  exact ⟨hw c hc.1, hc.2⟩

/-- What the number branch of the tokenizer computes. -/
def readNumber (radix : Nat) (w : Str) : Outcome (Positioned ParseError) (Option Rat) :=
  let (clean, maybeDec) := cleanNumber w [] none
  parseBigInt clean radix >>= fun maybeNumer =>
  match maybeNumer with
  | none => .ok none
  | some numer =>
    let denom : Int := match maybeDec with
      | some decIndex => (radix : Int) ^ (clean.length - decIndex)
      | none => 1
    ratioNew numer denom >>= fun value => .ok (some value)

theorem readNumber_spec {radix : Nat} (h2 : 2 ≤ radix) (hr : radix ≤ 36) {w : Str}
    (hw : ∀ c ∈ w, WordChar c) :
    (∃ v, readNumber radix w = .ok (some v) ∧ ∀ v', Numeral radix w v' ↔ v' = v) ∨
    (readNumber radix w = .ok none ∧ ∀ v, ¬ Numeral radix w v) := by
  have hnw := noUnderscores_wordChar hw
  have hpow : ∀ k, ((radix : Int) ^ k) ≠ 0 := fun k => by positivity
  unfold readNumber
  rcases cleanNumber_none w [] with ⟨hp, hcl⟩ | ⟨ip, fp, hsp, hip, hcl⟩
  · rw [hcl]
    simp only [List.nil_append]
    rw [parseBigInt_clean h2 hr _ hnw]
    have hus : '_' ∉ noUnderscores w := fun h => (hnw _ h).2 rfl
    have key := parseDigits_iff hr (noUnderscores w) hus 0
    simp only [Outcome.bind_ok]
    by_cases hnil : noUnderscores w = []
    · right
      rw [if_pos hnil]
      refine ⟨rfl, ?_⟩
      intro v hv
      cases hv with
      | whole h h' => rw [hnil, Digits.nil_iff] at h; exact h' h
      | point h _ _ => rw [hnil] at h; simp at h
    · rw [if_neg hnil]
      cases hpd : parseDigits radix (noUnderscores w) 0 with
      | none =>
        right
        refine ⟨by simp, ?_⟩
        intro v hv
        cases hv with
        | whole h h' =>
          have := (key _).2 ⟨_, h, rfl⟩
          rw [hpd] at this; cases this
        | point h _ _ => rw [h] at hp; simp at hp
      | some n =>
        left
        obtain ⟨ds, hd, hn⟩ := (key n).1 hpd
        refine ⟨(n : Rat), ?_, ?_⟩
        · simp [ratioNew, Rat.divInt_one]
        · intro v'
          constructor
          · intro hv
            cases hv with
            | whole h h' =>
              have := (key _).2 ⟨_, h, rfl⟩
              rw [hpd] at this
              simp at this
              simp [this, value]
            | point h _ _ => rw [h] at hp; simp at hp
          · rintro rfl
            have hne : ds ≠ [] := by
              rintro rfl
              have := digits_length_eq hd; simp at this; exact hnil this
            have := Numeral.whole (radix := radix) (w := w) hd hne
            rw [hn]; exact this
  · rw [hcl]
    simp only [List.nil_append, List.length_nil, Nat.zero_add, List.length_append,
      Nat.add_sub_cancel_left]
    have hm : ∀ c ∈ ip ++ fp, WordChar c ∧ c ≠ '_' := by
      intro c hc
      apply hnw; rw [hsp]; simp at hc ⊢; tauto
    rw [parseBigInt_clean h2 hr _ hm]
    have hus : '_' ∉ ip ++ fp := fun h => (hm _ h).2 rfl
    have key := parseDigits_iff hr (ip ++ fp) hus 0
    simp only [Outcome.bind_ok]
    have huniq : ∀ ip' fp' ds, noUnderscores w = ip' ++ '.' :: fp' → Digits radix (ip' ++ fp') ds →
        ip' = ip ∧ fp' = fp := by
      intro ip' fp' ds h1 h2
      have := digits_point_not_mem h2
      simp at this
      have := split_point_unique (h1.symm.trans hsp) this.1 hip
      exact this
    have hwh : ∀ ds, ¬ Digits radix (noUnderscores w) ds := by
      intro ds h
      have := digits_point_not_mem h; rw [hsp] at this; simp at this
    by_cases hnil : ip ++ fp = []
    · right
      rw [if_pos hnil]
      refine ⟨rfl, ?_⟩
      intro v hv
      cases hv with
      | whole h h' => exact hwh _ h
      | point h h' h'' =>
        obtain ⟨rfl, rfl⟩ := huniq _ _ _ h h'
        rw [hnil, Digits.nil_iff] at h'; exact h'' h'
    · rw [if_neg hnil]
      cases hpd : parseDigits radix (ip ++ fp) 0 with
      | none =>
        right
        refine ⟨by simp, ?_⟩
        intro v hv
        cases hv with
        | whole h h' => exact hwh _ h
        | point h h' h'' =>
          obtain ⟨rfl, rfl⟩ := huniq _ _ _ h h'
          have := (key _).2 ⟨_, h', rfl⟩
          rw [hpd] at this; cases this
      | some n =>
        left
        obtain ⟨ds, hd, hn⟩ := (key n).1 hpd
        refine ⟨(n : Rat) / (radix : Rat) ^ fp.length, ?_, ?_⟩
        · simp only [Option.map_some, ratioNew, if_neg (hpow _), Outcome.bind_ok]
          rw [Rat.divInt_eq_div]; push_cast; rfl
        · intro v'
          constructor
          · intro hv
            cases hv with
            | whole h h' => exact absurd h (hwh _)
            | point h h' h'' =>
              obtain ⟨rfl, rfl⟩ := huniq _ _ _ h h'
              have := (key _).2 ⟨_, h', rfl⟩
              rw [hpd] at this
              simp at this
              simp [this, value]
          · rintro rfl
            have hne : ds ≠ [] := by
              rintro rfl
              have := digits_length_eq hd; simp at this; simp [this] at hnil
            have := Numeral.point (radix := radix) (w := w) hsp hd hne
            rw [hn]; exact this

/-! ## Words -/

theorem assocGet_tokenMap (w : Str) :
    assocGet w tokenMap =
      if w = ['s','q','r','t'] then some (.unary .squareRoot)
      else if w = ['a','b','s'] then some (.unary .absoluteValue)
      else if w = ['m','a','x'] then some (.function .max)
      else if w = ['m','i','n'] then some (.function .min)
      else none := by
  simp [assocGet, tokenMap, eq_comm]

theorem endWord_eq (tokens : List PTok) (w : Str) (stop radix : Nat) (hne : w ≠ [])
    (hlen : w.length ≤ stop) :
    tokenizeOnMulticharEnd tokens w stop radix =
      if w.head? = some '$' then
        .ok (tokens ++ [⟨.variable w, ⟨stop - w.length, w.length⟩⟩], [])
      else match assocGet w tokenMap with
        | some t => .ok (tokens ++ [⟨t, ⟨stop - w.length, w.length⟩⟩], [])
        | none => readNumber radix w >>= fun r => match r with
          | some v => .ok (tokens ++ [⟨.number v, ⟨stop - w.length, w.length⟩⟩], [])
          | none => .err ⟨.invalidNumber w, ⟨stop - w.length, w.length⟩⟩ := by
  unfold tokenizeOnMulticharEnd
  rw [if_neg hne]
  simp only [Nat.not_lt.2 hlen, if_false, Positioned.newRaw]
  split
  · rfl
  · cases hk : assocGet w tokenMap with
    | some t => rfl
    | none =>
      simp only
      unfold readNumber
      generalize cleanNumber w [] none = p
      obtain ⟨clean, dec⟩ := p
      simp only
      cases (parseBigInt clean radix : Outcome (Positioned ParseError) _) with
      | ok r =>
        cases r with
        | none => rfl
        | some n =>
          simp only [Outcome.bind_ok]
          generalize hd : (ratioNew n _ : Outcome (Positioned ParseError) Rat) = q
          cases q <;> rfl
      | err e => rfl
      | panic k => rfl
      | diverge => rfl

theorem numeral_head_ne_dollar {radix w v} (h : Numeral radix w v) :
    ∀ rest, w ≠ '$' :: rest := by
  rintro rest rfl
  have hd : ∀ d, ¬ DigitChar '$' d := by
    intro d hd
    have h1 : '$'.toNat = 36 := rfl
    have h0 : '0'.toNat = 48 := rfl
    have ha : 'a'.toNat = 97 := rfl
    have hA : 'A'.toNat = 65 := rfl
    unfold DigitChar at hd; omega
  have hm : '$' ∈ noUnderscores ('$' :: rest) := by simp [noUnderscores]
  cases h with
  | whole h _ => obtain ⟨d, h1, _⟩ := digits_mem h _ hm; exact hd d h1
  | point h h' _ =>
    have : '$' ∈ _ := h ▸ hm
    simp at this
    obtain ⟨d, h1, _⟩ := digits_mem h' '$' (by simpa using this)
    exact hd d h1

theorem numeral_all_digits {radix w v} (h : Numeral radix w v) (c : Char) (hc : c ∈ w)
    (hu : c ≠ '_') (hp : c ≠ '.') : ∃ d, DigitChar c d ∧ d < radix := by
  have hm : c ∈ noUnderscores w := by simp [noUnderscores, hc, hu]
  cases h with
  | whole h _ => exact digits_mem h _ hm
  | point h h' _ =>
    rw [h] at hm
    simp [hp] at hm
    exact digits_mem h' c (by simpa using hm)

theorem not_digit_of_toNat {c : Char} {radix : Nat} (hr : radix ≤ 16)
    (h : 103 ≤ c.toNat) : ¬ ∃ d, DigitChar c d ∧ d < radix := by
  rintro ⟨d, hd, hlt⟩
  have h0 : '0'.toNat = 48 := rfl
  have ha : 'a'.toNat = 97 := rfl
  have hA : 'A'.toNat = 65 := rfl
  unfold DigitChar at hd; omega

theorem numeral_not_keyword {radix w v} (hr : radix ≤ 16) (h : Numeral radix w v) :
    assocGet w tokenMap = none := by
  have key : ∀ c ∈ w, c ≠ '_' → c ≠ '.' → ¬ 103 ≤ c.toNat := fun c hc h1 h2 h3 =>
    not_digit_of_toNat hr h3 (numeral_all_digits h c hc h1 h2)
  rw [assocGet_tokenMap]
  split
  · subst_vars; exact absurd (show 103 ≤ 's'.toNat by decide) (key 's' (by simp) (by decide) (by decide))
  split
  · subst_vars; exact absurd (show 103 ≤ 's'.toNat by decide) (key 's' (by simp) (by decide) (by decide))
  split
  · subst_vars; exact absurd (show 103 ≤ 'm'.toNat by decide) (key 'm' (by simp) (by decide) (by decide))
  split
  · subst_vars; exact absurd (show 103 ≤ 'm'.toNat by decide) (key 'm' (by simp) (by decide) (by decide))
  rfl

/-- The end of a word yields the word's token or an error naming the word. -/
theorem endWord_spec {radix : Nat} (h2 : 2 ≤ radix) (hr : radix ≤ 16) (tokens : List PTok)
    {w : Str} (hne : w ≠ []) (hw : ∀ c ∈ w, WordChar c) {stop : Nat} (hlen : w.length ≤ stop) :
    (∃ t, tokenizeOnMulticharEnd tokens w stop radix =
        .ok (tokens ++ [⟨t, ⟨stop - w.length, w.length⟩⟩], []) ∧
        ∀ t', Word radix w t' ↔ t' = t) ∨
    (tokenizeOnMulticharEnd tokens w stop radix =
        .err ⟨.invalidNumber w, ⟨stop - w.length, w.length⟩⟩ ∧ ∀ t, ¬ Word radix w t) := by
  rw [endWord_eq tokens w stop radix hne hlen]
  by_cases hd : w.head? = some '$'
  · rw [if_pos hd]
    left
    refine ⟨_, rfl, ?_⟩
    obtain ⟨rest, rfl⟩ : ∃ rest, w = '$' :: rest := by
      cases w with
      | nil => simp at hd
      | cons a as => simp at hd; exact ⟨as, by rw [hd]⟩
    intro t'
    constructor
    · intro h
      generalize hg : '$' :: rest = w' at h
      cases h with
      | «variable» h => rfl
      | number h => exact absurd hg.symm (numeral_head_ne_dollar h rest)
      | _ => simp at hg
    · rintro rfl; exact .variable rfl
  · rw [if_neg hd]
    cases hk : assocGet w tokenMap with
    | some t =>
      left
      refine ⟨t, rfl, ?_⟩
      intro t'
      rw [assocGet_tokenMap] at hk
      constructor
      · intro h
        cases h with
        | «variable» h => rw [h] at hd; simp at hd
        | number h =>
          have := numeral_not_keyword hr h
          rw [assocGet_tokenMap, hk] at this; cases this
        | _ => simp at hk; exact hk
      · rintro rfl
        split at hk
        · subst_vars; cases hk; exact .sqrt
        split at hk
        · subst_vars; cases hk; exact .abs
        split at hk
        · subst_vars; cases hk; exact .max
        split at hk
        · subst_vars; cases hk; exact .min
        cases hk
    | none =>
      have hnk : ∀ t, Word radix w t → ∃ v, t = .number v ∧ Numeral radix w v := by
        intro t h
        rw [assocGet_tokenMap] at hk
        cases h with
        | «variable» h => rw [h] at hd; simp at hd
        | number h => exact ⟨_, rfl, h⟩
        | _ => simp at hk
      rcases readNumber_spec h2 (by omega) hw with ⟨v, h1, h3⟩ | ⟨h1, h3⟩
      · left
        refine ⟨.number v, by simp [h1], ?_⟩
        intro t'
        constructor
        · intro h
          obtain ⟨v', rfl, hv⟩ := hnk _ h
          rw [(h3 v').1 hv]
        · rintro rfl; exact .number ((h3 v).2 rfl)
      · right
        refine ⟨by simp [h1], ?_⟩
        intro t h
        obtain ⟨v', rfl, hv⟩ := hnk _ h
        exact h3 _ hv

/-! ## The scan -/

theorem maximal_word_unique {w w' rest rest' : Str} (h : w ++ rest = w' ++ rest')
    (hw : ∀ c ∈ w, WordChar c) (hw' : ∀ c ∈ w', WordChar c) (hb : Boundary rest)
    (hb' : Boundary rest') : w = w' ∧ rest = rest' := by
  induction w generalizing w' with
  | nil =>
    cases w' with
    | nil => simpa using h
    | cons a as => exact absurd (hw' a (by simp)) (hb a (as ++ rest') (by simpa using h))
  | cons b bs ih =>
    cases w' with
    | nil => exact absurd (hw b (by simp)) (hb' b (bs ++ rest) (by simpa using h.symm))
    | cons a as =>
      simp at h
      obtain ⟨r1, r2⟩ := ih (w' := as) h.2 (fun c hc => hw c (by simp [hc]))
        (fun c hc => hw' c (by simp [hc]))
      exact ⟨by rw [h.1, r1], r2⟩

theorem lexes_word_iff {radix pos w rest ts} (hne : w ≠ []) (hw : ∀ c ∈ w, WordChar c)
    (hb : Boundary rest) :
    Lexes radix pos (w ++ rest) ts ↔
      ∃ t ts', Word radix w t ∧ ts = ⟨t, ⟨pos, w.length⟩⟩ :: ts' ∧
        Lexes radix (pos + w.length) rest ts' := by
  constructor
  · intro h
    obtain ⟨a, as, rfl⟩ := List.exists_cons_of_ne_nil hne
    have ha := hw a (by simp)
    generalize htxt : a :: as ++ rest = txt at h
    cases h with
    | done => simp at htxt
    | blank h _ => simp at htxt; exact absurd ha (htxt.1 ▸ blank_not_wordChar h)
    | symbol h _ => simp at htxt; exact absurd ha (htxt.1 ▸ h.not_wordChar)
    | word h1 h2 h3 h4 h5 =>
      obtain ⟨rfl, rfl⟩ := maximal_word_unique htxt hw h2 hb h3
      exact ⟨_, _, h4, rfl, h5⟩
  · rintro ⟨t, ts', h1, rfl, h2⟩
    exact .word hne hw hb h1 h2

theorem lexes_blank_iff {radix pos c rest ts} (hc : Blank c) :
    Lexes radix pos (c :: rest) ts ↔ Lexes radix (pos + 1) rest ts := by
  constructor
  · intro h
    generalize htxt : c :: rest = txt at h
    cases h with
    | done => simp at htxt
    | blank h1 h2 => simp at htxt; rw [htxt.2]; exact h2
    | symbol h _ => simp at htxt; exact absurd hc (htxt.1 ▸ h.not_blank)
    | @word _ w _ _ _ h1 h2 h3 h4 h5 =>
      obtain ⟨a, as, rfl⟩ := List.exists_cons_of_ne_nil h1
      simp at htxt
      exact absurd (h2 a (by simp)) (htxt.1 ▸ blank_not_wordChar hc)
  · exact .blank hc

theorem Spec.Symbol.unique {c t t'} (h : Symbol c t) (h' : Symbol c t') : t = t' := by
  have a := (singleCharToken_iff c t).2 h
  have b := (singleCharToken_iff c t').2 h'
  rw [a] at b; simpa using b

theorem lexes_symbol_iff {radix pos c t rest ts} (hc : Symbol c t) :
    Lexes radix pos (c :: rest) ts ↔
      ∃ ts', ts = ⟨t, ⟨pos, 1⟩⟩ :: ts' ∧ Lexes radix (pos + 1) rest ts' := by
  constructor
  · intro h
    generalize htxt : c :: rest = txt at h
    cases h with
    | done => simp at htxt
    | blank h1 h2 => simp at htxt; exact absurd (htxt.1 ▸ h1) hc.not_blank
    | symbol h h' =>
      simp at htxt
      obtain ⟨rfl, rfl⟩ := htxt
      rw [hc.unique h]
      exact ⟨_, rfl, h'⟩
    | @word _ w _ _ _ h1 h2 h3 h4 h5 =>
      obtain ⟨a, as, rfl⟩ := List.exists_cons_of_ne_nil h1
      simp at htxt
      exact absurd (h2 a (by simp)) (htxt.1 ▸ hc.not_wordChar)
  · rintro ⟨ts', rfl, h⟩; exact .symbol hc h

theorem boundary_nil : Boundary [] := by intro c cs h; cases h

theorem boundary_cons {c : Char} {cs : Str} (h : ¬ WordChar c) : Boundary (c :: cs) := by
  intro a as h'; simp at h'; rw [← h'.1]; exact h

theorem endWord_nil (tokens : List PTok) (stop radix : Nat) :
    tokenizeOnMulticharEnd tokens [] stop radix = .ok (tokens, []) := by
  simp [tokenizeOnMulticharEnd]

/-- The outcome of the scan from a state with the buffered word `buffer`: either a token list that
lexes the rest of the text, or the first bad word of the rest of the text. -/
theorem loop_spec {radix : Nat} (h2 : 2 ≤ radix) (hr : radix ≤ 16) (rest : Str) :
    ∀ (pos : Nat) (tokens : List PTok) (buffer : Str), (∀ c ∈ buffer, WordChar c) →
      buffer.length ≤ pos →
    (∃ ts, tokenizeLoop radix pos rest tokens buffer = .ok (tokens ++ ts) ∧
      ∀ ts', Lexes radix (pos - buffer.length) (buffer ++ rest) ts' ↔ ts' = ts) ∨
    (∃ pre w post ts, tokenizeLoop radix pos rest tokens buffer =
        .err ⟨.invalidNumber w, ⟨pos - buffer.length + pre.length, w.length⟩⟩ ∧
      buffer ++ rest = pre ++ w ++ post ∧ w ≠ [] ∧ (∀ c ∈ w, WordChar c) ∧ Boundary post ∧
      (∀ p c, pre = p ++ [c] → ¬ WordChar c) ∧
      Lexes radix (pos - buffer.length) pre ts ∧ (∀ t, ¬ Word radix w t) ∧
      (∀ ts', ¬ Lexes radix (pos - buffer.length) (buffer ++ rest) ts')) := by
  induction rest with
  | nil =>
    intro pos tokens buffer hb hlen
    unfold tokenizeLoop
    by_cases hne : buffer = []
    · subst hne
      left
      refine ⟨[], by simp [endWord_nil], ?_⟩
      intro ts'
      simp only [List.append_nil]
      constructor
      · intro h
        generalize hg : ([] : Str) = txt at h
        cases h with
        | done => rfl
        | word h1 _ _ _ _ => simp at hg; exact absurd hg.1.symm (by simpa using fun h => h1 h)
        | _ => cases hg
      · rintro rfl; exact .done
    · rcases endWord_spec h2 hr tokens hne hb hlen with ⟨t, h1, h3⟩ | ⟨h1, h3⟩
      · left
        refine ⟨[⟨t, ⟨pos - buffer.length, buffer.length⟩⟩], by simp [h1], ?_⟩
        intro ts'
        rw [lexes_word_iff hne hb boundary_nil]
        constructor
        · rintro ⟨t', ts'', h4, rfl, h5⟩
          rw [(h3 t').1 h4]
          generalize hg : ([] : Str) = txt at h5
          cases h5 with
          | done => rfl
          | word h1 _ _ _ _ => simp at hg; exact absurd hg.1.symm (by simpa using fun h => h1 h)
          | _ => cases hg
        · rintro rfl; exact ⟨t, [], (h3 t).2 rfl, rfl, .done⟩
      · right
        refine ⟨[], buffer, [], [], by simp [h1], by simp, hne, hb, boundary_nil, by simp, .done,
          h3, ?_⟩
        intro ts'
        rw [lexes_word_iff hne hb boundary_nil]
        rintro ⟨t', _, h4, _⟩
        exact h3 _ h4
  | cons c cs ih =>
    intro pos tokens buffer hb hlen
    -- what happens at a character that ends the buffered word
    have flush : ¬ WordChar c → ∀ (extra : List PTok),
        (∀ ts', Lexes radix pos (c :: cs) ts' ↔
          ∃ ts'', ts' = extra ++ ts'' ∧ Lexes radix (pos + 1) cs ts'') →
        tokenizeLoop radix pos (c :: cs) tokens buffer =
          (tokenizeOnMulticharEnd tokens buffer pos radix >>= fun (tokens, buffer) =>
            tokenizeLoop radix (pos + 1) cs (tokens ++ extra) buffer) →
        ((∃ ts, tokenizeLoop radix pos (c :: cs) tokens buffer = .ok (tokens ++ ts) ∧
          ∀ ts', Lexes radix (pos - buffer.length) (buffer ++ c :: cs) ts' ↔ ts' = ts) ∨
        (∃ pre w post ts, tokenizeLoop radix pos (c :: cs) tokens buffer =
            .err ⟨.invalidNumber w, ⟨pos - buffer.length + pre.length, w.length⟩⟩ ∧
          buffer ++ c :: cs = pre ++ w ++ post ∧ w ≠ [] ∧ (∀ c ∈ w, WordChar c) ∧ Boundary post ∧
          (∀ p c, pre = p ++ [c] → ¬ WordChar c) ∧
          Lexes radix (pos - buffer.length) pre ts ∧ (∀ t, ¬ Word radix w t) ∧
          (∀ ts', ¬ Lexes radix (pos - buffer.length) (buffer ++ c :: cs) ts'))) := by
      intro hnw extra hlex hloop
      -- `hcl`: how to extend a lexing of a prefix of `cs`
      have hcl : ∀ p ts, Lexes radix (pos + 1) p ts → ∃ ts', Lexes radix pos (c :: p) ts' := by
        intro p ts h
        rcases wordChar_cases c with h' | ⟨t, h'⟩ | h'
        · exact ⟨_, .blank h' h⟩
        · exact ⟨_, .symbol h' h⟩
        · exact absurd h' hnw
      have hpre : ∀ pre : Str, (∀ p a, pre = p ++ [a] → ¬ WordChar a) →
          (∀ p a, c :: pre = p ++ [a] → ¬ WordChar a) := by
        intro pre hp p a h
        cases pre with
        | nil =>
          cases p with
          | nil => simp at h; rw [← h]; exact hnw
          | cons x xs => simp at h
        | cons y ys =>
          cases p with
          | nil => simp at h
          | cons x xs => simp at h; exact hp xs a (by simp [h.2])
      by_cases hne : buffer = []
      · subst hne
        rw [hloop, endWord_nil]
        simp only [Outcome.bind_ok, List.length_nil, Nat.sub_zero, List.nil_append]
        rcases ih (pos + 1) (tokens ++ extra) [] (by simp) (by simp) with
          ⟨ts, h1, h3⟩ | ⟨pre, w, post, ts, h1, h3, h4, h5, h6, h7, h8, h9, h10⟩
        · left
          refine ⟨extra ++ ts, by rw [h1, List.append_assoc], ?_⟩
          intro ts'
          rw [hlex]
          simp only [List.length_nil, Nat.sub_zero, List.nil_append] at h3
          constructor
          · rintro ⟨ts'', rfl, h⟩; rw [(h3 ts'').1 h]
          · rintro rfl; exact ⟨ts, rfl, (h3 ts).2 rfl⟩
        · right
          simp only [List.length_nil, Nat.sub_zero, List.nil_append] at h1 h3 h8 h10
          obtain ⟨ts', hts'⟩ := hcl _ _ h8
          refine ⟨c :: pre, w, post, ts', ?_, by simp [h3], h4, h5, h6, hpre pre h7, hts', h9, ?_⟩
          · rw [h1]; simp; omega
          · intro ts' h
            rw [hlex] at h
            obtain ⟨ts'', _, h⟩ := h
            exact h10 _ h
      · rcases endWord_spec h2 hr tokens hne hb hlen with ⟨t, h1, h3⟩ | ⟨h1, h3⟩
        · rw [hloop, h1]
          simp only [Outcome.bind_ok]
          have hbd : Boundary (c :: cs) := boundary_cons hnw
          have hpos : pos - buffer.length + buffer.length = pos := by omega
          rcases ih (pos + 1) (tokens ++ [⟨t, ⟨pos - buffer.length, buffer.length⟩⟩] ++ extra) []
              (by simp) (by simp) with
            ⟨ts, k1, k3⟩ | ⟨pre, w, post, ts, k1, k3, k4, k5, k6, k7, k8, k9, k10⟩
          · left
            refine ⟨[⟨t, ⟨pos - buffer.length, buffer.length⟩⟩] ++ extra ++ ts,
              by rw [k1]; simp [List.append_assoc], ?_⟩
            intro ts'
            rw [lexes_word_iff hne hb hbd, hpos]
            simp only [List.length_nil, Nat.sub_zero, List.nil_append] at k3
            constructor
            · rintro ⟨t', ts'', q1, rfl, q2⟩
              rw [hlex] at q2
              obtain ⟨ts''', rfl, q3⟩ := q2
              rw [(h3 t').1 q1, (k3 _).1 q3]; simp
            · rintro rfl
              exact ⟨t, extra ++ ts, (h3 t).2 rfl, by simp, (hlex _).2 ⟨ts, rfl, (k3 _).2 rfl⟩⟩
          · right
            simp only [List.length_nil, Nat.sub_zero, List.nil_append] at k1 k3 k8 k10
            obtain ⟨ts', hts'⟩ := hcl _ _ k8
            refine ⟨buffer ++ c :: pre, w, post,
              ⟨t, ⟨pos - buffer.length, buffer.length⟩⟩ :: ts', ?_, by simp [k3], k4, k5, k6,
              ?_, ?_, k9, ?_⟩
            · rw [k1]; simp; omega
            · intro p a h
              have hp := hpre pre k7
              rcases List.eq_nil_or_concat (c :: pre) with hnil | ⟨q, b, hq⟩
              · cases hnil
              · have hq' : c :: pre = q ++ [b] := by simpa using hq
                rw [hq', ← List.append_assoc] at h
                have := (List.append_inj' h rfl).2
                simp at this
                rw [← this]
                exact hp q b hq'
            · apply Lexes.word hne hb (boundary_cons hnw) ((h3 t).2 rfl)
              rw [hpos]; exact hts'
            · intro ts'' h
              rw [lexes_word_iff hne hb hbd, hpos] at h
              obtain ⟨_, _, _, _, h⟩ := h
              rw [hlex] at h
              obtain ⟨_, _, h⟩ := h
              exact k10 _ h
        · right
          refine ⟨[], buffer, c :: cs, [], ?_, by simp, hne, hb, boundary_cons hnw, by simp, .done,
            h3, ?_⟩
          · rw [hloop, h1]; simp
          · intro ts'
            rw [lexes_word_iff hne hb (boundary_cons hnw)]
            rintro ⟨t', _, h4, _⟩
            exact h3 _ h4
    rcases wordChar_cases c with hc | ⟨t, hc⟩ | hc
    · apply flush (blank_not_wordChar hc) []
      · intro ts'; rw [lexes_blank_iff hc]; simp
      · rw [tokenizeLoop, if_pos ((isAsciiWs_iff c).2 hc)]; simp
    · apply flush hc.not_wordChar [⟨t, ⟨pos, 1⟩⟩]
      · intro ts'; rw [lexes_symbol_iff hc]; simp
      · have h1 : isAsciiWs c = false := by
          have := (isAsciiWs_iff c).not.2 hc.not_blank; simpa using this
        rw [tokenizeLoop, if_neg (by simp [h1]), (singleCharToken_iff c t).2 hc]
        rfl
    · obtain ⟨w1, w2⟩ := (wordChar_iff c).1 hc
      have hstep : tokenizeLoop radix pos (c :: cs) tokens buffer =
          tokenizeLoop radix (pos + 1) cs tokens (buffer ++ [c]) := by
        rw [tokenizeLoop, if_neg (by simp [w1]), w2]
      rw [hstep]
      have := ih (pos + 1) tokens (buffer ++ [c])
        (by intro a ha; simp at ha; rcases ha with ha | rfl; exacts [hb a ha, hc])
        (by simp; omega)
      have e : pos + 1 - (buffer ++ [c]).length = pos - buffer.length := by simp
      rw [e] at this
      simpa [List.append_assoc] using this

end Bcalc
