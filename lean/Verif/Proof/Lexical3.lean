import Verif.Proof.Lexical2
import Mathlib.Tactic.Positivity
import Mathlib.Tactic.Linarith

/-! # Numerals and argument lists -/

namespace Bcalc
open Spec

theorem digitChar_ascii {c d} (h : DigitChar c d) : c.toNat < 128 := by
  have h0 : '0'.toNat = 48 := rfl
  have ha : 'a'.toNat = 97 := rfl
  have hA : 'A'.toNat = 65 := rfl
  unfold DigitChar at h; omega

theorem digitChar_wordChar {c d} (h : DigitChar c d) : WordChar c := by
  have h0 : '0'.toNat = 48 := rfl
  have ha : 'a'.toNat = 97 := rfl
  have hA : 'A'.toNat = 65 := rfl
  unfold DigitChar at h
  constructor
  · rintro (rfl | rfl | rfl | rfl | rfl) <;> simp at h <;> omega
  · intro t ht
    cases ht <;> simp at h <;> omega

theorem numeral_char {radix w v} (h : Numeral radix w v) (c : Char) (hc : c ∈ w) :
    c = '_' ∨ c = '.' ∨ ∃ d, DigitChar c d ∧ d < radix := by
  by_cases h1 : c = '_'
  · exact .inl h1
  · by_cases h2 : c = '.'
    · exact .inr (.inl h2)
    · exact .inr (.inr (numeral_all_digits h c hc h1 h2))

theorem numeral_ascii {radix w v} (h : Numeral radix w v) : Ascii w := by
  intro c hc
  rcases numeral_char h c hc with rfl | rfl | ⟨d, hd, _⟩
  · decide
  · decide
  · exact digitChar_ascii hd

theorem numeral_wordChar {radix w v} (h : Numeral radix w v) : ∀ c ∈ w, WordChar c := by
  intro c hc
  rcases numeral_char h c hc with rfl | rfl | ⟨d, hd, _⟩
  · rw [wordChar_iff]; decide
  · rw [wordChar_iff]; decide
  · exact digitChar_wordChar hd

theorem numeral_nonneg {radix w v} (h : Numeral radix w v) : 0 ≤ v := by
  cases h <;> positivity

theorem numeral_ne_nil {radix w v} (h : Numeral radix w v) : w ≠ [] := by
  rintro rfl
  cases h with
  | whole h h' => simp [noUnderscores, Digits.nil_iff] at h; exact h' h
  | point h _ _ => simp [noUnderscores] at h

theorem numeral_unique {radix : Nat} (h2 : 2 ≤ radix) (hr : radix ≤ 16) {w v v'}
    (h : Numeral radix w v) (h' : Numeral radix w v') : v = v' := by
  rcases readNumber_spec h2 (by omega) (numeral_wordChar h) with ⟨u, _, hu⟩ | ⟨_, hu⟩
  · rw [(hu v).1 h, (hu v').1 h']
  · exact absurd h (hu v)

theorem word_not_command {w : Str} (hw : ∀ c ∈ w, WordChar c) : ¬ CommandLine w := by
  rintro ⟨pre, rest, rfl, _⟩
  exact (hw '/' (by simp)).2 _ Symbol.slash

theorem lexes_nil {radix pos ts} : Lexes radix pos [] ts ↔ ts = [] := by
  constructor
  · intro h
    have := lexes_start_le h
    cases ts with
    | nil => rfl
    | cons t ts =>
      have := this t (by simp)
      simp [Position.stop] at this; omega
  · rintro rfl; exact .done

theorem digitChar_sameCase {c c' d}
    (h : c = c' ∨ (('a'.toNat ≤ c.toNat ∧ c.toNat ≤ 'z'.toNat) ∧ c.toNat = c'.toNat + 32) ∨
      (('A'.toNat ≤ c.toNat ∧ c.toNat ≤ 'Z'.toNat) ∧ c'.toNat = c.toNat + 32))
    (hd : DigitChar c d) : DigitChar c' d := by
  rcases h with rfl | h
  · exact hd
  · have h0 : '0'.toNat = 48 := rfl
    have ha : 'a'.toNat = 97 := rfl
    have hA : 'A'.toNat = 65 := rfl
    have hz : 'z'.toNat = 122 := rfl
    have hZ : 'Z'.toNat = 90 := rfl
    unfold DigitChar at *; omega

theorem digits_sameCase {radix s s' ds}
    (h : List.Forall₂ (fun c c' => c = c' ∨
      (('a'.toNat ≤ c.toNat ∧ c.toNat ≤ 'z'.toNat) ∧ c.toNat = c'.toNat + 32) ∨
      (('A'.toNat ≤ c.toNat ∧ c.toNat ≤ 'Z'.toNat) ∧ c'.toNat = c.toNat + 32)) s s')
    (hd : Digits radix s ds) : Digits radix s' ds := by
  induction h generalizing ds with
  | nil => exact hd
  | cons h1 _ ih =>
    obtain ⟨d, ds', rfl, h3, h4, h5⟩ := Digits.cons_iff.1 hd
    exact Digits.cons_iff.2 ⟨d, ds', rfl, digitChar_sameCase h1 h3, h4, ih h5⟩

theorem forall₂_split {α β} {R : α → β → Prop} {a b : List α} {c : List β}
    (h : List.Forall₂ R (a ++ b) c) :
    ∃ c1 c2, c = c1 ++ c2 ∧ List.Forall₂ R a c1 ∧ List.Forall₂ R b c2 := by
  induction a generalizing c with
  | nil => exact ⟨[], c, rfl, .nil, h⟩
  | cons x xs ih =>
    cases h with
    | cons h1 h2 =>
      obtain ⟨c1, c2, rfl, h3, h4⟩ := ih h2
      exact ⟨_ :: c1, c2, rfl, .cons h1 h3, h4⟩

theorem numeral_sameDigits {radix w w' v} (h : SameDigits w w') (hn : Numeral radix w v) :
    Numeral radix w' v := by
  unfold SameDigits at h
  cases hn with
  | whole hd hne => exact .whole (digits_sameCase h hd) hne
  | point hs hd hne =>
    rename_i ip fp ds
    rw [hs] at h
    obtain ⟨a, b, hlen, h1, hb⟩ := forall₂_split h
    cases hb with
    | @cons _ x _ fp' h2 h3 =>
      have hx : x = '.' := by
        rcases h2 with h2 | h2
        · exact h2.symm
        · have : '.'.toNat = 46 := rfl
          have ha : 'a'.toNat = 97 := rfl
          have hA : 'A'.toNat = 65 := rfl
          omega
      subst hx
      have hl : fp.length = fp'.length := h3.length_eq
      rw [hl]
      exact .point hlen (digits_sameCase (List.rel_append h1 h3) hd) hne

theorem sameDigits_symm {w w'} (h : SameDigits w w') : SameDigits w' w := by
  unfold SameDigits at *
  apply List.Forall₂.flip
  apply h.imp
  have ha : 'a'.toNat = 97 := rfl
  have hA : 'A'.toNat = 65 := rfl
  have hz : 'z'.toNat = 122 := rfl
  have hZ : 'Z'.toNat = 90 := rfl
  rintro c c' (rfl | h | h)
  · exact .inl rfl
  · right; right; omega
  · right; left; omega

theorem lexes_number_nonneg {radix pos s ts} (h : Lexes radix pos s ts) :
    ∀ t ∈ ts, ∀ v, t.value = .number v → 0 ≤ v := by
  induction h with
  | done => simp
  | blank _ _ ih => exact ih
  | symbol hc _ ih =>
    intro t ht v hv
    rcases List.mem_cons.1 ht with rfl | ht
    · simp at hv; subst hv; cases hc
    · exact ih t ht v hv
  | word _ _ _ hw _ ih =>
    intro t ht v hv
    rcases List.mem_cons.1 ht with rfl | ht
    · simp at hv; subst hv
      cases hw with
      | number h => exact numeral_nonneg h
    · exact ih t ht v hv

/-! ## Argument lists -/

theorem variableListLoop_iff (ts : List PTok) (acc out : List (Positioned Str)) :
    variableListLoop ts acc = .ok out ↔
      ∃ ns, out = acc ++ ns ∧ List.Forall₂
        (fun (t : PTok) (n : Positioned Str) => t.value = .variable n.value ∧
          n.position = t.position) ts ns := by
  induction ts generalizing acc with
  | nil => simp [variableListLoop, eq_comm]
  | cons t ts ih =>
    unfold variableListLoop
    split
    · rename_i s hs
      rw [ih]
      constructor
      · rintro ⟨ns, rfl, h⟩
        exact ⟨⟨s, t.position⟩ :: ns, by simp, .cons ⟨hs, rfl⟩ h⟩
      · rintro ⟨ns, rfl, h⟩
        cases h with
        | @cons _ n _ ns' h1 h2 =>
          refine ⟨ns', ?_, h2⟩
          have : n = ⟨s, t.position⟩ := by
            rw [hs] at h1
            obtain ⟨h1, h3⟩ := h1
            simp at h1
            cases n; simp at h1 h3; rw [h1, h3]
          rw [this]; simp
    · rename_i hs
      simp only [reduceCtorEq, false_iff, not_exists, not_and]
      rintro ns rfl h
      cases h with
      | cons h1 h2 => exact hs _ h1.1

theorem rat_int_iff {q : Rat} (h0 : 0 ≤ q) : q.den = 1 ↔ ∃ n : Nat, q = n := by
  constructor
  · intro h
    refine ⟨q.num.toNat, ?_⟩
    have h1 : 0 ≤ q.num := Rat.num_nonneg.2 h0
    have h2 : ((q.num.toNat : Int)) = q.num := Int.toNat_of_nonneg h1
    have h3 : (q.num : Rat) = q := Rat.coe_int_num_of_den_eq_one h
    rw [← h3]
    conv_lhs => rw [← h2]
    exact Int.cast_natCast _
  · rintro ⟨n, rfl⟩; simp

/-- A list of signed integers that follows a pending minus sign at `q`. -/
def AfterMinus (q : Position) (ts : List PTok) (ns : List (Positioned Int)) : Prop :=
  SignedInts (⟨.binary .subtract, q⟩ :: ts) ns

theorem intListLoop_iff (ts : List PTok) (acc out : List (Positioned Int))
    (hn : ∀ t ∈ ts, ∀ v, t.value = .number v → 0 ≤ v)
    (hs : ts.Pairwise fun a b => a.position.stop ≤ b.position.start) :
    (intListLoop ts acc none = .ok out ↔ ∃ ns, out = acc ++ ns ∧ SignedInts ts ns) ∧
    (∀ q, (∀ t ∈ ts, q.stop ≤ t.position.start) →
      (intListLoop ts acc (some q) = .ok out ↔ ∃ ns, out = acc ++ ns ∧ AfterMinus q ts ns)) ∧
    (∀ neg k, intListLoop ts acc neg ≠ .panic k) ∧ (∀ neg, intListLoop ts acc neg ≠ .diverge) := by
  induction ts generalizing acc with
  | nil =>
    refine ⟨?_, ?_, ?_, ?_⟩
    · simp only [intListLoop, Outcome.ok.injEq]
      constructor
      · rintro rfl; exact ⟨[], by simp, .nil⟩
      · rintro ⟨ns, rfl, h⟩; cases h; simp
    · intro q _
      simp only [intListLoop, reduceCtorEq, false_iff, not_exists, not_and]
      rintro ns rfl h; cases h
    · intro neg k; cases neg <;> simp [intListLoop]
    · intro neg; cases neg <;> simp [intListLoop]
  | cons t ts ih =>
    have hn' : ∀ t ∈ ts, ∀ v, t.value = .number v → 0 ≤ v := fun a ha => hn a (by simp [ha])
    have hs' := (List.pairwise_cons.1 hs).2
    have hst := (List.pairwise_cons.1 hs).1
    obtain ⟨tv, tp⟩ := t
    cases tv with
    | number q =>
      have hq : 0 ≤ q := hn _ (List.mem_cons_self ..) q rfl
      by_cases hd : q.den = 1
      · obtain ⟨n, rfl⟩ := (rat_int_iff hq).1 hd
        have hnum : ((n : Rat)).num = (n : Int) := by simp
        have hmin : i64Min ≤ (n : Int) := by unfold i64Min; omega
        have hne : (n : Int) ≠ i64Min := by unfold i64Min; omega
        by_cases hmax : (n : Int) ≤ i64Max
        · have hmax' : n ≤ maxI64 := by unfold i64Max at hmax; unfold maxI64; omega
          have e1 : ∀ acc, intListLoop (⟨.number n, tp⟩ :: ts) acc none =
              intListLoop ts (acc ++ [⟨n, tp⟩]) none := by
            intro acc
            simp [intListLoop, hmin, hmax]
          have e2 : ∀ acc q, intListLoop (⟨.number n, tp⟩ :: ts) acc (some q) =
              intListLoop ts (acc ++ [.newSpan (-n) q tp]) none := by
            intro acc q
            simp [intListLoop, hmin, hmax, hne]
          refine ⟨?_, ?_, ?_, ?_⟩
          · rw [e1, (ih _ hn' hs').1]
            constructor
            · rintro ⟨ns, rfl, h⟩; exact ⟨⟨n, tp⟩ :: ns, by simp, .plain hmax' h⟩
            · rintro ⟨ns, rfl, h⟩
              generalize hg : (⟨Token.number n, tp⟩ : PTok) :: ts = l at h
              cases h with
              | nil => cases hg
              | plain h1 h2 =>
                simp at hg
                obtain ⟨⟨rfl, rfl⟩, rfl⟩ := hg
                exact ⟨_, by simp, h2⟩
              | negated => simp at hg
          · intro q hq'
            have hle := hq' _ (List.mem_cons_self ..)
            have hpos : (Positioned.newSpan (-(n:Int)) q tp) =
                ⟨-(n:Int), ⟨q.start, tp.start + tp.width - q.start⟩⟩ := by
              simp [Position.stop] at hle
              simp only [Positioned.newSpan, Position.fromSpan, Positioned.mk.injEq, true_and,
                Position.mk.injEq]
              omega
            rw [e2, (ih _ hn' hs').1, hpos]
            constructor
            · rintro ⟨ns, rfl, h⟩; exact ⟨_ :: ns, by simp, .negated hmax' h⟩
            · rintro ⟨ns, rfl, h⟩
              unfold AfterMinus at h
              generalize hg : (⟨Token.binary .subtract, q⟩ : PTok) :: ⟨.number n, tp⟩ :: ts = l at h
              cases h with
              | nil => cases hg
              | plain h1 h2 => simp at hg
              | negated h1 h2 =>
                simp at hg
                obtain ⟨rfl, ⟨rfl, rfl⟩, rfl⟩ := hg
                exact ⟨_, by simp, h2⟩
          · intro neg k
            cases neg with
            | none => rw [e1]; exact (ih _ hn' hs').2.2.1 none k
            | some q => rw [e2]; exact (ih _ hn' hs').2.2.1 none k
          · intro neg
            cases neg with
            | none => rw [e1]; exact (ih _ hn' hs').2.2.2 none
            | some q => rw [e2]; exact (ih _ hn' hs').2.2.2 none
        · have hmax' : ¬ n ≤ maxI64 := by unfold i64Max at hmax; unfold maxI64; omega
          have e : ∀ acc neg, ∃ e, intListLoop (⟨.number n, tp⟩ :: ts) acc neg = .err e := by
            intro acc neg
            refine ⟨⟨"Value must be representable as a 64-bit signed integer".toList, tp⟩, ?_⟩
            unfold intListLoop
            simp only [hnum, hmax, and_false, if_false, Rat.den_natCast, ne_eq, not_true]
          refine ⟨?_, ?_, ?_, ?_⟩
          · obtain ⟨x, hx⟩ := e acc none
            rw [hx]
            simp only [reduceCtorEq, false_iff, not_exists, not_and]
            rintro ns rfl h
            generalize hg : (⟨Token.number n, tp⟩ : PTok) :: ts = l at h
            cases h with
            | nil => cases hg
            | plain h1 h2 =>
              simp at hg
              obtain ⟨⟨rfl, rfl⟩, rfl⟩ := hg
              exact hmax' h1
            | negated => simp at hg
          · intro q _
            obtain ⟨x, hx⟩ := e acc (some q)
            rw [hx]
            simp only [reduceCtorEq, false_iff, not_exists, not_and]
            rintro ns rfl h
            unfold AfterMinus at h
            generalize hg : (⟨Token.binary .subtract, q⟩ : PTok) :: ⟨.number n, tp⟩ :: ts = l at h
            cases h with
            | nil => cases hg
            | plain h1 h2 => simp at hg
            | negated h1 h2 =>
              simp at hg
              obtain ⟨rfl, ⟨rfl, rfl⟩, rfl⟩ := hg
              exact hmax' h1
          · intro neg k; obtain ⟨x, hx⟩ := e acc neg; rw [hx]; simp
          · intro neg; obtain ⟨x, hx⟩ := e acc neg; rw [hx]; simp
      · have e : ∀ acc neg, ∃ e, intListLoop (⟨.number q, tp⟩ :: ts) acc neg = .err e := by
          intro acc neg
          refine ⟨⟨"Expected an integer, found decimal: ".toList ++ ratDisplay q, tp⟩, ?_⟩
          unfold intListLoop
          simp only [ne_eq, hd, not_false_eq_true, if_true]
        have hno : ∀ n : Nat, q ≠ n := by
          rintro n rfl; simp at hd
        refine ⟨?_, ?_, ?_, ?_⟩
        · obtain ⟨x, hx⟩ := e acc none
          rw [hx]
          simp only [reduceCtorEq, false_iff, not_exists, not_and]
          rintro ns rfl h
          generalize hg : (⟨Token.number q, tp⟩ : PTok) :: ts = l at h
          cases h with
          | nil => cases hg
          | plain h1 h2 =>
            simp at hg
            exact hno _ hg.1.1
          | negated => simp at hg
        · intro p _
          obtain ⟨x, hx⟩ := e acc (some p)
          rw [hx]
          simp only [reduceCtorEq, false_iff, not_exists, not_and]
          rintro ns rfl h
          unfold AfterMinus at h
          generalize hg : (⟨Token.binary .subtract, p⟩ : PTok) :: ⟨.number q, tp⟩ :: ts = l at h
          cases h with
          | nil => cases hg
          | plain h1 h2 => simp at hg
          | negated h1 h2 =>
            simp at hg
            exact hno _ hg.2.1.1
        · intro neg k; obtain ⟨x, hx⟩ := e acc neg; rw [hx]; simp
        · intro neg; obtain ⟨x, hx⟩ := e acc neg; rw [hx]; simp
    | binary op =>
      by_cases hop : op = .subtract
      · subst hop
        have e1 : ∀ acc, intListLoop (⟨.binary .subtract, tp⟩ :: ts) acc none =
            intListLoop ts acc (some tp) := by intro acc; simp [intListLoop]
        have e2 : ∀ acc q, ∃ e, intListLoop (⟨.binary .subtract, tp⟩ :: ts) acc (some q) =
            .err e := by intro acc q; simp [intListLoop]
        refine ⟨?_, ?_, ?_, ?_⟩
        · rw [e1]
          exact (ih _ hn' hs').2.1 tp (fun a ha => by simpa using hst a ha)
        · intro q _
          obtain ⟨x, hx⟩ := e2 acc q
          rw [hx]
          simp only [reduceCtorEq, false_iff, not_exists, not_and]
          rintro ns rfl h
          unfold AfterMinus at h
          generalize hg : (⟨Token.binary .subtract, q⟩ : PTok) :: ⟨.binary .subtract, tp⟩ :: ts = l
            at h
          cases h <;> simp at hg
        · intro neg k
          cases neg with
          | none => rw [e1]; exact (ih _ hn' hs').2.2.1 _ k
          | some q => obtain ⟨x, hx⟩ := e2 acc q; rw [hx]; simp
        · intro neg
          cases neg with
          | none => rw [e1]; exact (ih _ hn' hs').2.2.2 _
          | some q => obtain ⟨x, hx⟩ := e2 acc q; rw [hx]; simp
      · have e : ∀ acc neg, ∃ e, intListLoop (⟨.binary op, tp⟩ :: ts) acc neg = .err e := by
          intro acc neg
          cases op <;> first | exact absurd rfl hop | simp [intListLoop]
        refine ⟨?_, ?_, ?_, ?_⟩
        · obtain ⟨x, hx⟩ := e acc none
          rw [hx]
          simp only [reduceCtorEq, false_iff, not_exists, not_and]
          rintro ns rfl h
          generalize hg : (⟨Token.binary op, tp⟩ : PTok) :: ts = l at h
          cases h with
          | negated => simp at hg; exact hop hg.1.1
          | _ => simp at hg
        · intro p _
          obtain ⟨x, hx⟩ := e acc (some p)
          rw [hx]
          simp only [reduceCtorEq, false_iff, not_exists, not_and]
          rintro ns rfl h
          unfold AfterMinus at h
          generalize hg : (⟨Token.binary .subtract, p⟩ : PTok) :: ⟨.binary op, tp⟩ :: ts = l at h
          cases h <;> simp at hg
        · intro neg k; obtain ⟨x, hx⟩ := e acc neg; rw [hx]; simp
        · intro neg; obtain ⟨x, hx⟩ := e acc neg; rw [hx]; simp
    | _ =>
      refine ⟨?_, ?_, ?_, ?_⟩
      · simp only [intListLoop, reduceCtorEq, false_iff, not_exists, not_and]
        rintro ns rfl h
        cases h
      · intro p _
        simp only [intListLoop, reduceCtorEq, false_iff, not_exists, not_and]
        rintro ns rfl h
        cases h
      · intro neg k; simp [intListLoop]
      · intro neg; simp [intListLoop]

theorem lexes_pairwise {radix pos s ts} (h : Lexes radix pos s ts) :
    ts.Pairwise fun a b => a.position.stop ≤ b.position.start := by
  induction h with
  | done => simp
  | blank _ _ ih => exact ih
  | symbol _ hr ih =>
    refine List.pairwise_cons.2 ⟨?_, ih⟩
    intro t ht
    have := lexes_start_le hr t ht
    simp [Position.stop]; omega
  | word _ _ _ _ hr ih =>
    refine List.pairwise_cons.2 ⟨?_, ih⟩
    intro t ht
    have := lexes_start_le hr t ht
    simp [Position.stop]; omega

theorem lexes_textAt {radix ts s} {pos : Nat} (pre : Str) (h : Lexes radix pos s ts)
    (hp : pre.length = pos) :
    ∀ t ∈ ts, Lexeme radix (textAt (pre ++ s) t.position) t.value := by
  induction h generalizing pre with
  | done => simp
  | @blank pos c rest ts hc _ ih =>
    have := ih (pre ++ [c]) (by simp [hp])
    simpa using this
  | @symbol pos c t rest ts hc _ ih =>
    intro t' ht
    rcases List.mem_cons.1 ht with rfl | ht
    · left
      refine ⟨c, ?_, hc⟩
      simp [textAt, ← hp]
    · have := ih (pre ++ [c]) (by simp [hp]) t' ht
      simpa using this
  | @word pos w t rest ts h1 h2 h3 h4 _ ih =>
    intro t' ht
    rcases List.mem_cons.1 ht with rfl | ht
    · right
      have : textAt (pre ++ (w ++ rest)) ⟨pos, w.length⟩ = w := by simp [textAt, ← hp]
      rw [this]
      exact ⟨h2, h1, h4⟩
    · have := ih (pre ++ w) (by simp [hp]) t' ht
      simpa using this

theorem lexes_gap {radix ts s} {pos : Nat} (h : Lexes radix pos s ts) (i : Nat) (c : Char)
    (hi : s[i]? = some c)
    (hno : ∀ t ∈ ts, ¬ (t.position.start ≤ pos + i ∧ pos + i < t.position.stop)) : Blank c := by
  induction h generalizing i with
  | done => simp at hi
  | blank hc _ ih =>
    cases i with
    | zero => simp at hi; rw [← hi]; exact hc
    | succ i =>
      apply ih i (by simpa using hi)
      intro t ht
      have := hno t ht
      omega
  | symbol hc _ ih =>
    cases i with
    | zero => exact absurd ⟨by simp, by simp [Position.stop]⟩ (hno _ (List.mem_cons_self ..))
    | succ i =>
      apply ih i (by simpa using hi)
      intro t ht
      have := hno t (by simp [ht])
      omega
  | @word pos w t rest ts h1 h2 h3 h4 _ ih =>
    by_cases hlt : i < w.length
    · exact absurd ⟨by simp, by simp [Position.stop, hlt]⟩ (hno _ (List.mem_cons_self ..))
    · apply ih (i - w.length)
      · rw [List.getElem?_append_right (by omega)] at hi; exact hi
      · intro t ht
        have := hno t (by simp [ht])
        rw [show pos + w.length + (i - w.length) = pos + i by omega]; exact this

end Bcalc
