import Verif.Proof.Lexical

/-! # Consequences of the lexical specification used by the property theorems -/

namespace Bcalc
open Spec

/-! ## The whole tokenizer -/

theorem findIdx?_ascii_none {line : Str} :
    line.findIdx? (fun c => !isAscii c) = none ↔ Ascii line := by
  simp [Ascii, isAscii]

theorem isTrimWs_iff (c : Char) : isTrimWs c = true ↔ (Blank c ∨ c = '\x0b') := by
  simp [isTrimWs, ← isAsciiWs_iff]

theorem mem_takeWhile_true {α} {p : α → Bool} {l : List α} {c : α} (h : c ∈ l.takeWhile p) :
    p c = true := by
  induction l with
  | nil => simp at h
  | cons a as ih =>
    rw [List.takeWhile_cons] at h
    split at h
    · rcases List.mem_cons.1 h with rfl | h
      · assumption
      · exact ih h
    · simp at h

theorem trimStart_split (line : Str) :
    ∃ pre, line = pre ++ trimStart line ∧ (∀ c ∈ pre, Blank c ∨ c = '\x0b') ∧
      ∀ c cs, trimStart line = c :: cs → ¬ (Blank c ∨ c = '\x0b') := by
  refine ⟨line.takeWhile isTrimWs, (List.takeWhile_append_dropWhile).symm, ?_, ?_⟩
  · intro c hc
    exact (isTrimWs_iff c).1 (mem_takeWhile_true hc)
  · intro c cs h
    have := List.head?_dropWhile_not isTrimWs line
    unfold trimStart at h
    rw [h] at this
    rw [← isTrimWs_iff]
    simpa using this

theorem slash_not_white : ¬ (Blank '/' ∨ '/' = '\x0b') := by
  simp [Blank]

/-- The leading white space of a text is determined. -/
theorem white_split_unique {pre pre' r r' : Str} (h : pre ++ r = pre' ++ r')
    (hp : ∀ c ∈ pre, Blank c ∨ c = '\x0b') (hp' : ∀ c ∈ pre', Blank c ∨ c = '\x0b')
    (hr : ∀ c cs, r = c :: cs → ¬ (Blank c ∨ c = '\x0b'))
    (hr' : ∀ c cs, r' = c :: cs → ¬ (Blank c ∨ c = '\x0b')) : pre = pre' ∧ r = r' := by
  induction pre generalizing pre' with
  | nil =>
    cases pre' with
    | nil => simpa using h
    | cons a as => exact absurd (hp' a (by simp)) (hr a (as ++ r') (by simpa using h))
  | cons b bs ih =>
    cases pre' with
    | nil => exact absurd (hp b (by simp)) (hr' b (bs ++ r) (by simpa using h.symm))
    | cons a as =>
      simp at h
      obtain ⟨r1, r2⟩ := ih (pre' := as) h.2 (fun c hc => hp c (by simp [hc]))
        (fun c hc => hp' c (by simp [hc]))
      exact ⟨by rw [h.1, r1], r2⟩

theorem splitOnceWs_none {s : Str} : splitOnceWs s = none ↔ ∀ c ∈ s, ¬ Blank c := by
  induction s with
  | nil => simp [splitOnceWs]
  | cons c cs ih =>
    unfold splitOnceWs
    by_cases hc : isAsciiWs c = true
    · simp [hc, (isAsciiWs_iff c).1 hc]
    · have hb : ¬ Blank c := fun h => hc ((isAsciiWs_iff c).2 h)
      rw [if_neg hc]
      cases h : splitOnceWs cs with
      | none => simp only [true_iff]; intro a ha; rcases List.mem_cons.1 ha with rfl | ha; exacts [hb, ih.1 h a ha]
      | some p =>
        simp only [reduceCtorEq, List.mem_cons, forall_eq_or_imp, false_iff, not_and]
        intro _ h2
        rw [ih.2 h2] at h; cases h

theorem splitOnceWs_some {s pre suf : Str} (h : splitOnceWs s = some (pre, suf)) :
    (∀ c ∈ pre, ¬ Blank c) ∧ ∃ b, Blank b ∧ s = pre ++ b :: suf := by
  induction s generalizing pre with
  | nil => simp [splitOnceWs] at h
  | cons c cs ih =>
    unfold splitOnceWs at h
    by_cases hc : isAsciiWs c = true
    · simp [hc] at h
      obtain ⟨rfl, rfl⟩ := h
      exact ⟨by simp, c, (isAsciiWs_iff c).1 hc, by simp⟩
    · have hb : ¬ Blank c := fun h => hc ((isAsciiWs_iff c).2 h)
      rw [if_neg hc] at h
      cases h' : splitOnceWs cs with
      | none => rw [h'] at h; simp at h
      | some p =>
        obtain ⟨p1, p2⟩ := p
        rw [h'] at h
        simp at h
        obtain ⟨rfl, rfl⟩ := h
        obtain ⟨h1, b, h2, h3⟩ := ih h'
        refine ⟨?_, b, h2, by simp [h3]⟩
        intro a ha
        rcases List.mem_cons.1 ha with rfl | ha
        · exact hb
        · exact h1 a ha

theorem maybeExtractCommand_none {line : Str} :
    maybeExtractCommand line = none ↔ ¬ CommandLine line := by
  obtain ⟨pre, h1, h2, h3⟩ := trimStart_split line
  unfold maybeExtractCommand
  simp only
  constructor
  · rintro h ⟨pre', rest, h4, h5⟩
    have := white_split_unique (h1.symm.trans h4) h2 h5 h3
      (by intro c cs hc; simp at hc; rw [← hc.1]; exact slash_not_white)
    rw [this.2] at h
    simp only at h
    split at h <;> cases h
  · intro h
    split
    · rename_i post hp
      exact absurd ⟨pre, post, by rw [← hp]; exact h1, h2⟩ h
    · rfl

theorem maybeExtractCommand_some {line : Str} {p : ParsedInput}
    (h : maybeExtractCommand line = some p) :
    ∃ pre name args tail, p = .command ⟨name, ⟨pre.length, name.length + 1⟩⟩
        ⟨args, ⟨line.length - args.length, args.length⟩⟩ ∧
      line = pre ++ '/' :: name ++ tail ∧ (∀ c ∈ pre, Blank c ∨ c = '\x0b') ∧
      (∀ c ∈ name, ¬ Blank c) ∧
      ((tail = [] ∧ args = []) ∨ ∃ b, Blank b ∧ tail = b :: args) := by
  obtain ⟨pre, h1, h2, h3⟩ := trimStart_split line
  unfold maybeExtractCommand at h
  simp only at h
  split at h
  · rename_i post hp
    have hl : line.length - (trimStart line).length = pre.length := by
      have := congrArg List.length h1
      rw [List.length_append] at this
      omega
    rw [hl, hp] at h
    rw [hp] at h1
    cases hs : splitOnceWs post with
    | none =>
      rw [hs] at h
      simp [Positioned.newRaw] at h
      refine ⟨pre, post, [], [], ?_, by simpa using h1, h2, splitOnceWs_none.1 hs, .inl ⟨rfl, rfl⟩⟩
      rw [← h, h1]; simp
    | some q =>
      obtain ⟨q1, q2⟩ := q
      rw [hs] at h
      obtain ⟨h4, b, h5, rfl⟩ := splitOnceWs_some hs
      simp [Positioned.newRaw] at h
      refine ⟨pre, q1, q2, b :: q2, ?_, by simpa using h1, h2, h4, .inr ⟨b, h5, rfl⟩⟩
      rw [← h]
      simp; omega
  · cases h

/-- The outcomes of the tokenizer, in terms of the specification. -/
theorem tokenize_spec {radix : Nat} (h2 : 2 ≤ radix) (hr : radix ≤ 16) (line : Str) :
    (∃ i, line.findIdx? (fun c => !isAscii c) = some i ∧ ¬ Ascii line ∧
      tokenize line radix = .err ⟨.nonAscii, ⟨i, 1⟩⟩) ∨
    (Ascii line ∧ ∃ p, maybeExtractCommand line = some p ∧ CommandLine line ∧
      tokenize line radix = .ok p) ∨
    (Ascii line ∧ ¬ CommandLine line ∧
      ((∃ ts, tokenize line radix = .ok (.tokens ts) ∧ ∀ ts', Lexes radix 0 line ts' ↔ ts' = ts) ∨
       (∃ w start, tokenize line radix = .err ⟨.invalidNumber w, ⟨start, w.length⟩⟩ ∧
         FirstBadWord radix line w start ∧ ∀ ts, ¬ Lexes radix 0 line ts))) := by
  unfold tokenize
  cases ha : line.findIdx? (fun c => !isAscii c) with
  | some i =>
    left
    refine ⟨i, rfl, ?_, rfl⟩
    intro h
    rw [findIdx?_ascii_none.2 h] at ha; cases ha
  | none =>
    right
    have hasc := findIdx?_ascii_none.1 ha
    cases hm : maybeExtractCommand line with
    | some p =>
      left
      refine ⟨hasc, p, rfl, ?_, rfl⟩
      by_contra hc
      rw [maybeExtractCommand_none.2 hc] at hm; cases hm
    | none =>
      right
      refine ⟨hasc, maybeExtractCommand_none.1 hm, ?_⟩
      rcases loop_spec h2 hr line 0 [] [] (by simp) (by simp) with
        ⟨ts, k1, k2⟩ | ⟨pre, w, post, ts, k1, k2, k3, k4, k5, k6, k7, k8, k9⟩
      · left
        refine ⟨ts, by simp [k1], by simpa using k2⟩
      · right
        simp at k1 k2 k7 k9
        exact ⟨w, pre.length, by simp [k1], ⟨pre, post, ts, by simp [k2], rfl, k3, k4, k5, k6, k7, k8⟩,
          k9⟩

theorem tokenize_tokens_iff {radix : Nat} (h2 : 2 ≤ radix) (hr : radix ≤ 16) (line : Str)
    (ts : List PTok) :
    tokenize line radix = .ok (.tokens ts) ↔
      Ascii line ∧ ¬ CommandLine line ∧ Lexes radix 0 line ts := by
  rcases tokenize_spec h2 hr line with ⟨i, _, h, e⟩ | ⟨ha, p, hp, hc, e⟩ |
    ⟨ha, hc, ⟨ts', e, h⟩ | ⟨w, s, e, h, h'⟩⟩
  · rw [e]; simp [h]
  · rw [e]
    obtain ⟨_, _, _, _, rfl, _⟩ := maybeExtractCommand_some hp
    simp [hc]
  · rw [e]
    simp only [Outcome.ok.injEq, ParsedInput.tokens.injEq, ha, hc, not_false_eq_true, true_and]
    rw [h]; exact eq_comm
  · rw [e]; simp [h']

/-! ## Lexing of concatenations -/

theorem lexes_start_le {radix pos s ts} (h : Lexes radix pos s ts) :
    ∀ t ∈ ts, pos ≤ t.position.start ∧ 0 < t.position.width ∧
      t.position.stop ≤ pos + s.length := by
  induction h with
  | done => simp
  | blank _ _ ih => intro t ht; have := ih t ht; simp; omega
  | symbol _ _ ih =>
    intro t ht
    rcases List.mem_cons.1 ht with rfl | ht
    · simp [Position.stop]
    · have := ih t ht; simp; omega
  | word h1 _ _ _ _ ih =>
    intro t ht
    rcases List.mem_cons.1 ht with rfl | ht
    · have := List.length_pos_iff.2 h1
      simp [Position.stop]; omega
    · have := ih t ht; simp; omega

/-- Move a token to the right. -/
def shiftTok (d : Nat) (t : PTok) : PTok := ⟨t.value, ⟨t.position.start + d, t.position.width⟩⟩

theorem lexes_shift {radix pos s ts} (d : Nat) (h : Lexes radix pos s ts) :
    Lexes radix (pos + d) s (ts.map (shiftTok d)) := by
  induction h with
  | done => exact .done
  | blank h _ ih => exact .blank h (by rw [Nat.add_right_comm]; exact ih)
  | symbol h _ ih =>
    exact .symbol h (by rw [Nat.add_right_comm]; exact ih)
  | word h1 h2 h3 h4 _ ih =>
    exact .word h1 h2 h3 h4 (by rw [Nat.add_right_comm]; exact ih)

/-- No word runs across the boundary between two texts. -/
def Apart (a b : Str) : Prop := (∀ p c, a = p ++ [c] → ¬ WordChar c) ∨ Boundary b

theorem Apart.tail {w a b : Str} (h : Apart (w ++ a) b) (ha : a ≠ []) : Apart a b := by
  rcases h with h | h
  · left; intro p c hp; exact h (w ++ p) c (by rw [hp]; simp)
  · exact .inr h

theorem apart_nil (b : Str) : Apart [] b := .inl (by simp)

theorem boundary_append {a b : Str} (h : Boundary a) (hab : a = [] → Boundary b) :
    Boundary (a ++ b) := by
  cases a with
  | nil => simpa using hab rfl
  | cons x xs => intro c cs hc; simp at hc; exact h c xs (by rw [hc.1])

theorem boundary_left {a b : Str} (h : Boundary (a ++ b)) (ha : a ≠ []) : Boundary a := by
  cases a with
  | nil => exact absurd rfl ha
  | cons x xs => intro c cs hc; simp at hc; exact h c (xs ++ b) (by simp [hc.1])

theorem lexes_append {radix pos a b ts us} (h : Lexes radix pos a ts) (hab : Apart a b)
    (h' : Lexes radix (pos + a.length) b us) : Lexes radix pos (a ++ b) (ts ++ us) := by
  induction h with
  | done => simpa using h'
  | @blank pos c rest ts hc hrest ih =>
    refine .blank hc (ih ?_ ?_)
    · by_cases hr : rest = []
      · subst hr; exact apart_nil b
      · exact Apart.tail (w := [c]) hab hr
    · simp at h'; rw [show pos + 1 + rest.length = pos + (rest.length + 1) by omega]; exact h'
  | @symbol pos c t rest ts hc hrest ih =>
    refine .symbol hc (ih ?_ ?_)
    · by_cases hr : rest = []
      · subst hr; exact apart_nil b
      · exact Apart.tail (w := [c]) hab hr
    · simp at h'; rw [show pos + 1 + rest.length = pos + (rest.length + 1) by omega]; exact h'
  | @word pos w t rest ts h1 h2 h3 h4 h5 ih =>
    rw [List.append_assoc]
    refine .word h1 h2 ?_ h4 (ih ?_ ?_)
    · apply boundary_append h3
      rintro rfl
      rcases hab with hab | hab
      · exfalso
        rcases List.eq_nil_or_concat w with hn | ⟨q, c, hq⟩
        · exact h1 hn
        · exact hab q c (by simpa using hq) (h2 c (by simp [hq]))
      · exact hab
    · by_cases hr : rest = []
      · subst hr; exact apart_nil b
      · exact Apart.tail hab hr
    · simp at h'; rw [Nat.add_assoc]; exact h'

theorem lexes_split {radix b} : ∀ {a pos ts}, Lexes radix pos (a ++ b) ts →
    (∀ t ∈ ts, t.position.stop ≤ pos + a.length ∨ pos + a.length ≤ t.position.start) →
    Apart a b ∧ ∃ ts1 ts2, ts = ts1 ++ ts2 ∧ Lexes radix pos a ts1 ∧
      Lexes radix (pos + a.length) b ts2 := by
  intro a pos ts h
  generalize hab : a ++ b = s at h
  induction h generalizing a with
  | done =>
    intro _
    simp at hab
    obtain ⟨rfl, rfl⟩ := hab
    exact ⟨apart_nil _, [], [], rfl, .done, .done⟩
  | @blank pos c rest ts hc hrest ih =>
    intro hts
    cases a with
    | nil =>
      simp at hab; subst hab
      exact ⟨apart_nil _, [], ts, rfl, .done, by simpa using .blank hc hrest⟩
    | cons x xs =>
      simp at hab
      obtain ⟨rfl, rfl⟩ := hab
      obtain ⟨h1, ts1, ts2, h2, h3, h4⟩ := ih rfl (by
        intro t ht; have := hts t ht; simp at this ⊢; omega)
      refine ⟨?_, ts1, ts2, h2, .blank hc h3, by
        simp; rw [show pos + (xs.length + 1) = pos + 1 + xs.length by omega]; exact h4⟩
      rcases h1 with h1 | h1
      · left
        intro p y hp
        cases p with
        | nil => simp at hp; rw [← hp.1]; exact blank_not_wordChar hc
        | cons z zs => simp at hp; exact h1 zs y hp.2
      · exact .inr h1
  | @symbol pos c t rest ts hc hrest ih =>
    intro hts
    cases a with
    | nil =>
      simp at hab; subst hab
      exact ⟨apart_nil _, [], _, rfl, .done, by simpa using .symbol hc hrest⟩
    | cons x xs =>
      simp at hab
      obtain ⟨rfl, rfl⟩ := hab
      obtain ⟨h1, ts1, ts2, h2, h3, h4⟩ := ih rfl (by
        intro t ht; have := hts t (by simp [ht]); simp at this ⊢; omega)
      refine ⟨?_, _ :: ts1, ts2, by rw [h2]; rfl, .symbol hc h3, by
        simp; rw [show pos + (xs.length + 1) = pos + 1 + xs.length by omega]; exact h4⟩
      rcases h1 with h1 | h1
      · left
        intro p y hp
        cases p with
        | nil => simp at hp; rw [← hp.1]; exact hc.not_wordChar
        | cons z zs => simp at hp; exact h1 zs y hp.2
      · exact .inr h1
  | @word pos w t rest ts h1 h2 h3 h4 h5 ih =>
    intro hts
    by_cases ha : a = []
    · subst ha
      simp at hab; subst hab
      exact ⟨apart_nil _, [], _, rfl, .done, by simpa using .word h1 h2 h3 h4 h5⟩
    · have hlen : w.length ≤ a.length := by
        have := hts _ (List.mem_cons_self ..)
        have hp := List.length_pos_iff.2 ha
        simp [Position.stop, ha] at this; omega
      obtain ⟨a', rfl⟩ : ∃ a', a = w ++ a' := by
        have : w <+: a := by
          apply List.prefix_of_prefix_length_le (l₃ := a ++ b)
          · rw [hab]; exact List.prefix_append _ _
          · exact List.prefix_append _ _
          · exact hlen
        obtain ⟨a', h⟩ := this
        exact ⟨a', h.symm⟩
      rw [List.append_assoc] at hab
      have hab := List.append_cancel_left hab
      obtain ⟨k1, ts1, ts2, k2, k3, k4⟩ := ih hab (by
        intro t ht; have := hts t (by simp [ht]); simp at this ⊢; omega)
      refine ⟨?_, _ :: ts1, ts2, by rw [k2]; rfl, ?_, by
        simp; rw [← Nat.add_assoc]; exact k4⟩
      · by_cases ha' : a' = []
        · subst ha'
          right
          simp at hab; rw [hab]; exact h3
        · rcases k1 with k1 | k1
          · left
            intro p y hp
            rcases List.eq_nil_or_concat a' with hn | ⟨q, z, hq⟩
            · exact absurd hn ha'
            · have hq' : a' = q ++ [z] := by simpa using hq
              rw [hq', ← List.append_assoc] at hp
              have := (List.append_inj' hp rfl).2
              simp at this; rw [← this]
              exact k1 q z hq'
          · exact .inr k1
      · refine .word h1 h2 ?_ h4 k3
        by_cases ha' : a' = []
        · subst ha'; exact boundary_nil
        · exact boundary_left (hab ▸ h3) ha'

/-- A text where no word crosses the seam can be split there. -/
theorem lexes_split_apart {radix a b pos ts} (h : Lexes radix pos (a ++ b) ts) (hab : Apart a b) :
    ∃ ts1 ts2, ts = ts1 ++ ts2 ∧ Lexes radix pos a ts1 ∧ Lexes radix (pos + a.length) b ts2 := by
  have aux : ∀ {s pos ts}, Lexes radix pos s ts → ∀ a, s = a ++ b → Apart a b →
      ∀ t ∈ ts, t.position.stop ≤ pos + a.length ∨ pos + a.length ≤ t.position.start := by
    intro s pos ts h
    induction h with
    | done => simp
    | @blank pos c rest ts hc hrest ih =>
      intro a hs hab t ht
      cases a with
      | nil => right; have := lexes_start_le hrest t ht; simp; omega
      | cons x xs =>
        simp at hs
        have := ih xs hs.2 (by
          by_cases hx : xs = []
          · subst hx; exact apart_nil b
          · exact Apart.tail (w := [x]) hab hx) t ht
        simp; omega
    | @symbol pos c t' rest ts hc hrest ih =>
      intro a hs hab t ht
      cases a with
      | nil =>
        right
        rcases List.mem_cons.1 ht with rfl | ht
        · simp
        · have := lexes_start_le hrest t ht; simp; omega
      | cons x xs =>
        simp at hs
        rcases List.mem_cons.1 ht with rfl | ht
        · left; simp [Position.stop]
        · have := ih xs hs.2 (by
            by_cases hx : xs = []
            · subst hx; exact apart_nil b
            · exact Apart.tail (w := [x]) hab hx) t ht
          simp; omega
    | @word pos w t' rest ts h1 h2 h3 h4 h5 ih =>
      intro a hs hab t ht
      by_cases ha : a = []
      · subst ha
        right
        rcases List.mem_cons.1 ht with rfl | ht
        · simp
        · have := lexes_start_le h5 t ht; simp; omega
      · have hwa : ∃ a', a = w ++ a' ∧ rest = a' ++ b := by
          rcases List.append_eq_append_iff.1 hs with ⟨a', q1, q2⟩ | ⟨a', q1, q2⟩
          · exact ⟨a', q1, q2⟩
          · -- the word would cross the seam
            by_cases ha' : a' = []
            · subst ha'; exact ⟨[], by simpa using q1.symm, by simpa using q2.symm⟩
            · exfalso
              obtain ⟨z, zs, rfl⟩ := List.exists_cons_of_ne_nil ha'
              rcases hab with hab | hab
              · rcases List.eq_nil_or_concat a with hn | ⟨q, c, hq⟩
                · exact ha hn
                · exact hab q c (by simpa using hq) (h2 c (by rw [q1, hq]; simp))
              · exact hab z (zs ++ rest) (by simpa using q2) (h2 z (by rw [q1]; simp))
        obtain ⟨a', rfl, hr⟩ := hwa
        rcases List.mem_cons.1 ht with rfl | ht
        · left; simp [Position.stop]
        · have := ih a' hr (by
            by_cases hx : a' = []
            · subst hx; exact apart_nil b
            · exact Apart.tail hab hx) t ht
          simp; omega
  exact (lexes_split h (aux h a rfl hab)).2

theorem firstBadWord_unique {radix : Nat} {line w w' : Str} {s s' : Nat}
    (h : FirstBadWord radix line w s) (h' : FirstBadWord radix line w' s') : w = w' ∧ s = s' := by
  obtain ⟨pre, rest, ts, e, rfl, h1, h2, h3, h4, h5, h6⟩ := h
  obtain ⟨pre', rest', ts', e', rfl, h1', h2', h3', h4', h5', h6'⟩ := h'
  have key : ∀ {pre pre' ts' w w' rest rest' : _} , pre ++ w ++ rest = pre' ++ w' ++ rest' →
      (∀ c ∈ w, WordChar c) → w ≠ [] → (∀ p c, pre' = p ++ [c] → ¬ WordChar c) → Boundary rest →
      (∀ t, ¬ Word radix w t) →
      (∀ p c, pre = p ++ [c] → ¬ WordChar c) →
      Lexes radix 0 pre' ts' → pre'.length ≤ pre.length := by
    intro pre pre' ts' w w' rest rest' e hw hwne hp' hb hbad hp hlex
    by_contra hlt
    have hpp : ∃ d, pre' = pre ++ d ∧ d ≠ [] ∧ w ++ rest = d ++ (w' ++ rest') := by
      rw [List.append_assoc, List.append_assoc] at e
      rcases List.append_eq_append_iff.1 e with ⟨a', q1, q2⟩ | ⟨a', q1, q2⟩
      · refine ⟨a', q1, ?_, q2⟩
        rintro rfl; simp at q1; rw [q1] at hlt; exact hlt (Nat.le_refl _)
      · rw [q1] at hlt; simp at hlt
    obtain ⟨d, rfl, hd, hdw⟩ := hpp
    obtain ⟨us1, us2, _, _, hl⟩ := lexes_split_apart hlex (.inl hp)
    -- `w` is a prefix of `d`
    have hwd : ∃ d', d = w ++ d' := by
      rcases List.append_eq_append_iff.1 hdw with ⟨a', q1, q2⟩ | ⟨a', q1, q2⟩
      · exact ⟨a', q1⟩
      · exfalso
        rcases List.eq_nil_or_concat d with hn | ⟨q, c, hq⟩
        · exact hd hn
        · exact hp' (pre ++ q) c (by rw [hq]; simp) (hw c (by rw [q1, hq]; simp))
    obtain ⟨d', rfl⟩ := hwd
    have hb' : Boundary d' := by
      have : rest = d' ++ (w' ++ rest') := by
        rw [List.append_assoc] at hdw; exact List.append_cancel_left hdw
      by_cases hd' : d' = []
      · subst hd'; exact boundary_nil
      · exact boundary_left (this ▸ hb) hd'
    rw [lexes_word_iff hwne hw hb'] at hl
    obtain ⟨t, _, ht, _⟩ := hl
    exact hbad t ht
  have e2 := e.symm.trans e'
  have l1 := key e2 h2 h1 h4' h3 h6 h4 h5'
  have l2 := key e2.symm h2' h1' h4 h3' h6' h4' h5
  have : pre = pre' := by
    rw [List.append_assoc, List.append_assoc] at e2
    exact (List.append_inj e2 (by omega)).1
  subst this
  rw [List.append_assoc, List.append_assoc] at e2
  exact ⟨(maximal_word_unique (List.append_cancel_left e2) h2 h2' h3 h3').1, rfl⟩

end Bcalc
