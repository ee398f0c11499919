import Verif.Proof.Naming
import Verif.Spec.Identities

/-! # Reading and evaluating forms -/

namespace Bcalc
open Spec

theorem boundary_symbol {c : Char} {t : Token} {rest : Str} (h : Symbol c t) : Boundary (c :: rest) := by
  intro d ds e
  cases e
  exact fun hw => hw.2 _ h

theorem text_open (a : Nat → Str) (f : Form) : ∃ rest, f.text a = '(' :: rest := by
  cases f <;> exact ⟨_, rfl⟩

theorem text_boundary (a : Nat → Str) (f : Form) (rest : Str) : Boundary (f.text a ++ rest) := by
  obtain ⟨r, e⟩ := text_open a f
  rw [e]
  exact boundary_symbol .openP

/-- `f` between two parts. -/
theorem lexes_binary {radix pos : Nat} {l r : Str} {c : Char} {t : Token} (hc : Symbol c t) {ts us : List PTok}
    (hl : Lexes radix (pos + 1) l ts) (hr : Lexes radix (pos + 1 + l.length + 1) r us) :
    ∃ p q s, Lexes radix pos ('(' :: (l ++ c :: (r ++ [')'])))
      (⟨.openParen, p⟩ :: ((ts ++ ⟨t, q⟩ :: us) ++ [⟨.closeParen, s⟩])) := by
  refine ⟨⟨pos, 1⟩, ⟨pos + 1 + l.length, 1⟩, ⟨pos + 1 + l.length + 1 + r.length, 1⟩, ?_⟩
  rw [List.append_assoc, List.cons_append]
  exact .symbol .openP (lexes_append hl (.inr (boundary_symbol hc)) (.symbol hc
    (lexes_append hr (.inr (boundary_symbol .closeP)) (.symbol .closeP .done))))

theorem wordChar_of {c : Char} (h1 : ¬ Blank c) (h2 : c ∉ ['+', '-', '*', '/', '%', '^', '(', ')', '=', ',']) : WordChar c := by
  refine ⟨h1, ?_⟩
  intro t h
  cases h <;> simp at h2

theorem wordChars {w : Str} (h : w.all fun c => !decide (c = ' ' ∨ c = '\t' ∨ c = '\n' ∨ c = '\x0c' ∨ c = '\r') &&
    !decide (c ∈ ['+', '-', '*', '/', '%', '^', '(', ')', '=', ','])) : ∀ c ∈ w, WordChar c := by
  intro c hc
  have h1 := List.all_eq_true.1 h c hc
  simp only [Bool.and_eq_true, Bool.not_eq_true', decide_eq_false_iff_not] at h1
  exact wordChar_of h1.1 h1.2

theorem lexes_numeral {radix pos : Nat} {w : Str} {q : Rat} (h : Numeral radix w q) :
    Lexes radix pos w [⟨.number q, ⟨pos, w.length⟩⟩] := by
  have := Lexes.word (radix := radix) (pos := pos) (rest := []) (numeral_ne_nil h) (numeral_wordChar h) (fun c cs e => by cases e) (.number h) .done
  simpa using this

theorem lexes_call {radix pos : Nat} {l r : Str} {w : Str} {t : Token} (h1 : w ≠ []) (h2 : ∀ c ∈ w, WordChar c) (hw : Word radix w t) {ts us : List PTok}
    (hl : Lexes radix (pos + 1 + w.length + 1) l ts) (hr : Lexes radix (pos + 1 + w.length + 1 + l.length + 1) r us) :
    ∃ p p' q c s s', Lexes radix pos ('(' :: (w ++ '(' :: (l ++ ',' :: (r ++ ")".toList)) ++ [')']))
      (⟨.openParen, p⟩ :: ((⟨t, p'⟩ :: ⟨.openParen, q⟩ :: ((ts ++ ⟨.comma, c⟩ :: us) ++ [⟨.closeParen, s⟩])) ++ [⟨.closeParen, s'⟩])) := by
  refine ⟨⟨pos, 1⟩, ⟨pos + 1, w.length⟩, ⟨pos + 1 + w.length, 1⟩, ⟨pos + 1 + w.length + 1 + l.length, 1⟩,
    ⟨pos + 1 + w.length + 1 + l.length + 1 + r.length, 1⟩, ⟨pos + 1 + w.length + 1 + l.length + 1 + r.length + 1, 1⟩, ?_⟩
  simp only [List.append_assoc, List.cons_append]
  exact .symbol .openP (.word h1 h2 (boundary_symbol .openP) hw (.symbol .openP (lexes_append hl (.inr (boundary_symbol .comma))
    (.symbol .comma (lexes_append hr (.inr (boundary_symbol .closeP)) (.symbol .closeP (.symbol .closeP .done)))))))

theorem expr_of_atom {ts : List PTok} {n : Node} (h : Atom ts n) : Expr 4 ts n :=
  .lift (.lift (.lift (.lift (.signed (.atom h)))))

theorem expr_sum {ts us : List PTok} {a b : Node} {p : Position} (h : Atom ts a) (h' : Atom us b) (o : BinOp) (ho : o = .add ∨ o = .subtract ∨ o = .multiply ∨ o = .divide) :
    Expr 4 (ts ++ ⟨.binary o, p⟩ :: us) (.binary o p a b) := by
  rcases ho with rfl | rfl | rfl | rfl
  · exact .op (expr_of_atom h) rfl (.lift (.lift (.lift (.signed (.atom h')))))
  · exact .op (expr_of_atom h) rfl (.lift (.lift (.lift (.signed (.atom h')))))
  · exact .lift (.op (.lift (.lift (.lift (.signed (.atom h))))) rfl (.lift (.lift (.signed (.atom h')))))
  · exact .lift (.op (.lift (.lift (.lift (.signed (.atom h))))) rfl (.lift (.lift (.signed (.atom h')))))

theorem expr_mod {ts us : List PTok} {a b : Node} {p : Position} (h : Atom ts a) (h' : Atom us b) :
    Expr 4 (ts ++ ⟨.binary .modulus, p⟩ :: us) (.binary .modulus p a b) :=
  .lift (.lift (.op (.lift (.lift (.signed (.atom h)))) rfl (.lift (.signed (.atom h')))))

theorem expr_power {ts us : List PTok} {a b : Node} {p : Position} (h : Atom ts a) (h' : Atom us b) :
    Expr 4 (ts ++ ⟨.binary .exponent, p⟩ :: us) (.binary .exponent p a b) :=
  .lift (.lift (.lift (.op (.lift (.signed (.atom h))) rfl (.signed (.atom h')))))

theorem bind_ok_iff {α β : Type} {o : Outcome Failure α} {f : α → Outcome Failure β} {b : β} :
    (o >>= f) = .ok b ↔ ∃ a, o = .ok a ∧ f a = .ok b := by
  constructor
  · exact outcome_bind_ok
  · rintro ⟨a, rfl, h⟩; exact h

section
variable {m : Machine} {args : Args} {ρ : Valuation} {a : Nat → Str} {v : Nat → Option Rat}
  (hh : ∀ i pos, ∃ ts n, Lexes args.radix pos (a i) ts ∧ Expr 4 ts n ∧ ∀ w, n.pure m args true ρ = .ok w ↔ v i = some w)
  (h2 : 2 ≤ args.radix)

include hh h2

theorem form_reads : ∀ (f : Form), f.Proper m args → ∀ (pos : Nat), ∃ ts n, Lexes args.radix pos (f.text a) ts ∧ Atom ts n ∧
    ∀ w, n.pure m args true ρ = .ok w ↔ f.eval v = some w
  | .hole i, hf, pos => by
    obtain ⟨ts, n, h1, h3, h4⟩ := hh i (pos + 1)
    refine ⟨_, _, .symbol .openP (lexes_append h1 (.inr (boundary_symbol .closeP)) (.symbol .closeP .done)), .paren h3, ?_⟩
    intro w
    unfold Node.pure
    exact h4 w
  | .number w q, hf, pos => by
    refine ⟨_, _, .symbol .openP (lexes_append (lexes_numeral hf) (.inr (boundary_symbol .closeP)) (.symbol .closeP .done)),
      .paren (ts := [_]) (expr_of_atom .number), ?_⟩
    intro w
    unfold Node.pure Node.pure Form.eval
    simp
  | .neg f, hf, pos => by
    obtain ⟨ts, n, h1, h3, h4⟩ := form_reads f hf (pos + 1 + 1)
    refine ⟨_, _, .symbol .openP (.symbol .minus (lexes_append h1 (.inr (boundary_symbol .closeP)) (.symbol .closeP .done))),
      .paren (ts := ⟨.binary .subtract, _⟩ :: ts) (.lift (.lift (.lift (.lift (.signed (.minus (.atom h3))))))), ?_⟩
    intro w
    unfold Node.pure Node.pure Form.eval
    rw [bind_ok_iff]
    simp only [h4, applyUnary, Outcome.ok.injEq, Option.map_eq_some_iff]
  | .abs f, hf, pos => by
    obtain ⟨ts, n, h1, h3, h4⟩ := form_reads f hf (pos + 1 + 3)
    have hw : ∀ c ∈ "abs".toList, WordChar c := wordChars (by decide)
    refine ⟨_, _, .symbol .openP (.word (w := "abs".toList) (by decide) hw (text_boundary a f _) .abs
        (lexes_append h1 (.inr (boundary_symbol .closeP)) (.symbol .closeP .done))),
      .paren (ts := ⟨.unary .absoluteValue, _⟩ :: ts) (expr_of_atom (.unary (.atom h3))), ?_⟩
    intro w
    unfold Node.pure Node.pure Form.eval
    rw [bind_ok_iff]
    simp only [h4, applyUnary, Outcome.ok.injEq, Option.map_eq_some_iff]
  | .add f g, hf, pos => by
    obtain ⟨ts, n, h1, h3, h4⟩ := form_reads f hf.1 (pos + 1)
    obtain ⟨ts', n', h1', h3', h4'⟩ := form_reads g hf.2 (pos + 1 + (f.text a).length + 1)
    obtain ⟨p, q, s, hl⟩ := lexes_binary .plus h1 h1'
    refine ⟨_, _, hl, .paren (expr_sum h3 h3' .add (by simp)), ?_⟩
    intro w
    unfold Node.pure Node.pure Form.eval
    simp only [bind_ok_iff, h4, h4', applyBinary, Outcome.ok.injEq, Option.bind_eq_some_iff, Option.map_eq_some_iff]
  | .sub f g, hf, pos => by
    obtain ⟨ts, n, h1, h3, h4⟩ := form_reads f hf.1 (pos + 1)
    obtain ⟨ts', n', h1', h3', h4'⟩ := form_reads g hf.2 (pos + 1 + (f.text a).length + 1)
    obtain ⟨p, q, s, hl⟩ := lexes_binary .minus h1 h1'
    refine ⟨_, _, hl, .paren (expr_sum h3 h3' .subtract (by simp)), ?_⟩
    intro w
    unfold Node.pure Node.pure Form.eval
    simp only [bind_ok_iff, h4, h4', applyBinary, Outcome.ok.injEq, Option.bind_eq_some_iff, Option.map_eq_some_iff]
  | .mul f g, hf, pos => by
    obtain ⟨ts, n, h1, h3, h4⟩ := form_reads f hf.1 (pos + 1)
    obtain ⟨ts', n', h1', h3', h4'⟩ := form_reads g hf.2 (pos + 1 + (f.text a).length + 1)
    obtain ⟨p, q, s, hl⟩ := lexes_binary .times h1 h1'
    refine ⟨_, _, hl, .paren (expr_sum h3 h3' .multiply (by simp)), ?_⟩
    intro w
    unfold Node.pure Node.pure Form.eval
    simp only [bind_ok_iff, h4, h4', applyBinary, Outcome.ok.injEq, Option.bind_eq_some_iff, Option.map_eq_some_iff]
  | .div f g, hf, pos => by
    obtain ⟨ts, n, h1, h3, h4⟩ := form_reads f hf.1 (pos + 1)
    obtain ⟨ts', n', h1', h3', h4'⟩ := form_reads g hf.2 (pos + 1 + (f.text a).length + 1)
    obtain ⟨p, q, s, hl⟩ := lexes_binary .slash h1 h1'
    refine ⟨_, _, hl, .paren (expr_sum h3 h3' .divide (by simp)), ?_⟩
    intro w
    unfold Node.pure Node.pure Form.eval
    simp only [bind_ok_iff, h4, h4', applyBinary, Option.bind_eq_some_iff]
    refine exists_congr fun x => and_congr_right fun _ => exists_congr fun y => and_congr_right fun _ => ?_
    unfold ratDiv
    by_cases hy : y = 0 <;> simp [hy]
  | .mod f g, hf, pos => by
    obtain ⟨ts, n, h1, h3, h4⟩ := form_reads f hf.1 (pos + 1)
    obtain ⟨ts', n', h1', h3', h4'⟩ := form_reads g hf.2 (pos + 1 + (f.text a).length + 1)
    obtain ⟨p, q, s, hl⟩ := lexes_binary .percent h1 h1'
    refine ⟨_, _, hl, .paren (expr_mod h3 h3'), ?_⟩
    intro w
    unfold Node.pure Node.pure Form.eval
    simp only [bind_ok_iff, h4, h4', applyBinary, Option.bind_eq_some_iff]
    refine exists_congr fun x => and_congr_right fun _ => exists_congr fun y => and_congr_right fun _ => ?_
    by_cases hy : y = 0
    · subst hy
      simp [ratRem_zero]
    · obtain ⟨r, hr, hr'⟩ := ratRem_spec (ε := Failure) x y hy
      rw [hr, remainder_unique hr' (truncated_remainder x y hy), if_neg hy]
      simp [truncated, towardZero]
  | .power f w k, hf, pos => by
    obtain ⟨ts, n, h1, h3, h4⟩ := form_reads f hf.1 (pos + 1)
    obtain ⟨p, q, s, hl⟩ := lexes_binary .caret h1 (lexes_numeral (pos := pos + 1 + (f.text a).length + 1) hf.2.1)
    refine ⟨_, _, hl, .paren (expr_power h3 (.number)), ?_⟩
    intro w
    unfold Node.pure Node.pure Form.eval
    simp only [bind_ok_iff, h4, Option.map_eq_some_iff]
    refine exists_congr fun x => and_congr_right fun _ => ?_
    have e : applyBinary m args .exponent q x (k : Rat) = .ok (x ^ k) := by
      show (u8Add m args.precision args.extraPrecision >>= fun totalPrecision =>
        liftMath q (exponentiate m x (k : Rat) totalPrecision args.radix)) = _
      rw [power_eq h2 hf.2.2 q (.inr (by positivity))]
      simp [rootPart, liftMath, Outcome.mapErr]
    unfold Node.pure
    simp [e]
  | .max f g, hf, pos => by
    obtain ⟨ts, n, h1, h3, h4⟩ := form_reads f hf.1 (pos + 1 + 3 + 1)
    obtain ⟨ts', n', h1', h3', h4'⟩ := form_reads g hf.2 (pos + 1 + 3 + 1 + (f.text a).length + 1)
    obtain ⟨p, p', q, c, s, s', hl⟩ := lexes_call (w := "max".toList) (by decide) (wordChars (by decide)) .max h1 h1'
    refine ⟨_, _, hl, .paren (expr_of_atom (.function (.more (expr_of_atom h3) (.one (expr_of_atom h3'))))), ?_⟩
    intro w
    unfold Node.pure Node.pure Form.eval
    simp only [pureList, bind_ok_iff, h4, h4', Option.bind_eq_some_iff, Option.map_eq_some_iff]
    constructor
    · rintro ⟨l, ⟨x, hx, l', ⟨y, hy, l'', e1, e2⟩, e3⟩, e4⟩
      cases e1
      cases e2
      cases e3
      exact ⟨x, hx, y, hy, by simpa [applyFunction] using e4⟩
    · rintro ⟨x, hx, y, hy, e⟩
      exact ⟨[x, y], ⟨x, hx, [y], ⟨y, hy, [], rfl, rfl⟩, rfl⟩, by simpa [applyFunction] using e⟩
  | .min f g, hf, pos => by
    obtain ⟨ts, n, h1, h3, h4⟩ := form_reads f hf.1 (pos + 1 + 3 + 1)
    obtain ⟨ts', n', h1', h3', h4'⟩ := form_reads g hf.2 (pos + 1 + 3 + 1 + (f.text a).length + 1)
    obtain ⟨p, p', q, c, s, s', hl⟩ := lexes_call (w := "min".toList) (by decide) (wordChars (by decide)) .min h1 h1'
    refine ⟨_, _, hl, .paren (expr_of_atom (.function (.more (expr_of_atom h3) (.one (expr_of_atom h3'))))), ?_⟩
    intro w
    unfold Node.pure Node.pure Form.eval
    simp only [pureList, bind_ok_iff, h4, h4', Option.bind_eq_some_iff, Option.map_eq_some_iff]
    constructor
    · rintro ⟨l, ⟨x, hx, l', ⟨y, hy, l'', e1, e2⟩, e3⟩, e4⟩
      cases e1
      cases e2
      cases e3
      exact ⟨x, hx, y, hy, by simpa [applyFunction] using e4⟩
    · rintro ⟨x, hx, y, hy, e⟩
      exact ⟨[x, y], ⟨x, hx, [y], ⟨y, hy, [], rfl, rfl⟩, rfl⟩, by simpa [applyFunction] using e⟩
end

theorem hole_reads {m : Machine} {args : Args} {ρ : Valuation} {a : Nat → Str} (h : ∀ i, ExpressionText args.radix (a i)) :
    ∃ v : Nat → Option Rat, ∀ i pos, ∃ ts n, Lexes args.radix pos (a i) ts ∧ Expr 4 ts n ∧
      ∀ w, n.pure m args true ρ = .ok w ↔ v i = some w := by
  have h1 : ∀ i, ∃ v : Option Rat, ∀ pos, ∃ ts n, Lexes args.radix pos (a i) ts ∧ Expr 4 ts n ∧
      ∀ w, n.pure m args true ρ = .ok w ↔ v = some w := by
    intro i
    obtain ⟨_, ts, n, hl, hn⟩ := h i
    refine ⟨match n.pure m args true ρ with | .ok w => some w | _ => none, fun pos => ?_⟩
    obtain ⟨ts', hl', e⟩ := lexes_place hl pos
    obtain ⟨n', hn', he⟩ := moved_expr m args true ρ hn e
    refine ⟨ts', n', hl', hn', fun w => ?_⟩
    rw [← unplaced_ok_iff he w]
    cases n.pure m args true ρ <;> simp
  exact ⟨fun i => (h1 i).choose, fun i => (h1 i).choose_spec⟩

theorem ascii_parts {l r : Str} (hl : Ascii l) (hr : Ascii r) : Ascii (l ++ r) := by
  intro c hc
  rcases List.mem_append.1 hc with h | h
  · exact hl c h
  · exact hr c h

theorem ascii_first {c : Char} {r : Str} (hc : c.toNat < 128) (hr : Ascii r) : Ascii (c :: r) := by
  intro d hd
  rcases List.mem_cons.1 hd with rfl | h
  · exact hc
  · exact hr d h

theorem form_ascii {m : Machine} {args : Args} {a : Nat → Str} (h : ∀ i, Ascii (a i)) : ∀ f : Form, f.Proper m args → Ascii (f.text a) := by
  have he : Ascii [')'] := by unfold Ascii; decide
  intro f
  induction f with
  | hole i => exact fun _ => ascii_first (by decide) (ascii_parts (h i) he)
  | number w q => exact fun hf => ascii_first (by decide) (ascii_parts (numeral_ascii hf) he)
  | neg f ih => exact fun hf => ascii_first (by decide) (ascii_first (by decide) (ascii_parts (ih hf) he))
  | abs f ih => exact fun hf => ascii_first (by decide) (ascii_parts (by unfold Ascii; decide) (ascii_parts (ih hf) he))
  | power f w k ih => exact fun hf => ascii_first (by decide) (ascii_parts (ih hf.1) (ascii_first (by decide) (ascii_parts (numeral_ascii hf.2.1) he)))
  | add f g ih ih' | sub f g ih ih' | mul f g ih ih' | div f g ih ih' | mod f g ih ih' =>
    exact fun hf => ascii_first (by decide) (ascii_parts (ih hf.1) (ascii_first (by decide) (ascii_parts (ih' hf.2) he)))
  | max f g ih ih' | min f g ih ih' =>
    exact fun hf => ascii_first (by decide) (ascii_parts (ascii_parts (by unfold Ascii; decide) (ascii_first (by decide)
      (ascii_parts (ih hf.1) (ascii_first (by decide) (ascii_parts (ih' hf.2) he))))) he)

theorem form_noCommand (a : Nat → Str) (f : Form) : ¬ CommandLine (f.text a) := by
  rintro ⟨pre, rest, h, hb⟩
  obtain ⟨r, e⟩ := text_open a f
  rw [e] at h
  cases pre with
  | nil => cases h
  | cons c cs =>
    cases h
    have := hb '(' (by simp)
    revert this
    unfold Blank
    decide

/-- What the calculator answers to a form. -/
theorem form_answer {m : Machine} {ce : CommandExecutor} {s : Session} (hu : Undisturbed s) (h2 : 2 ≤ s.args.radix) (h16 : s.args.radix ≤ 16)
    {a : Nat → Str} {v : Nat → Option Rat} {ρ : Valuation} {line : Str} (hρ : SeenBy s line ρ) (ha : ∀ i, Ascii (a i))
    (hh : ∀ i pos, ∃ ts n, Lexes s.args.radix pos (a i) ts ∧ Expr 4 ts n ∧ ∀ w, n.pure m s.args true ρ = .ok w ↔ v i = some w)
    (f : Form) (hf : f.Proper m s.args) {h : InputHistory} (hl : (h.currentLine : Outcome RuntimeErr Str) = .ok (f.text a)) (t : Str) :
    (calculate m ce (f.text a) { s with inputs := some h }).1 = .ok t ↔
      ∃ w, f.eval v = some w ∧ displayResult s.args w = .ok t := by
  obtain ⟨ts, n, h1, h3, h4⟩ := form_reads hh h2 f hf 0
  obtain ⟨s', e, _⟩ := calculate_pure (m := m) (ce := ce) (hu.ready hl) (seenBy_text hu hρ _) h2 h16 (form_noCommand a f)
  rw [e]
  have h5 := (pureAnswer_of (m := m) (args := s.args) (ρ := ρ) h2 h16 (form_ascii ha f hf) (form_noCommand a f) h1 (.expression (expr_of_atom h3))).1
  show pureAnswer m s.args ρ _ = _ ↔ _
  rw [h5, bind_ok_iff]
  simp only [h4]

end Bcalc
