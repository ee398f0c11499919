import Verif.Proof.Identities
import Verif.Props.Naming

/-! # Identities of arithmetic (C87) -/

namespace Bcalc
open Spec

/-! ## C87 Identities of arithmetic -/

/-- Two expressions of the same shape as two forms that denote the same number whatever the holes denote: where the
first has an answer, the second has the same answer, to the last digit. -/
theorem C87_identity (m : Machine) (ce : CommandExecutor) (s : Session) (hu : Undisturbed s) (hv : ValidSettings s.args)
    (f g : Form) (hf : f.Proper m s.args) (hg : g.Proper m s.args) (hfg : ∀ v w, f.eval v = some w → g.eval v = some w)
    (a : Nat → Str) (ha : ∀ i, ExpressionText s.args.radix (a i)) (h h' : InputHistory)
    (hl : (h.currentLine : Outcome RuntimeErr Str) = .ok (f.text a))
    (hl' : (h'.currentLine : Outcome RuntimeErr Str) = .ok (g.text a))
    (t : Str) (ht : (calculate m ce (f.text a) { s with inputs := some h }).1 = .ok t) :
    (calculate m ce (g.text a) { s with inputs := some h' }).1 = .ok t := by
  obtain ⟨ρ, hρ⟩ := C73_values _ _ (hu.ready hl)
  have hρ' : SeenBy s (f.text a) ρ := hρ
  obtain ⟨v, hh⟩ := hole_reads (m := m) (args := s.args) (ρ := ρ) ha
  have haa : ∀ i, Ascii (a i) := fun i => (ha i).1
  obtain ⟨w, h1, h2⟩ := (form_answer (m := m) (ce := ce) hu hv.radix.1 hv.radix.2 hρ' haa hh f hf hl t).1 ht
  exact (form_answer hu hv.radix.1 hv.radix.2 hρ' haa hh g hg hl' t).2 ⟨w, hfg v w h1, h2⟩

/-- The answer to a form is the number that it denotes, shown with the settings, when the holes denote the numbers
that the expressions in them have: no rounding happens in between. -/
theorem C87_exact (m : Machine) (ce : CommandExecutor) (s : Session) (hu : Undisturbed s) (hv : ValidSettings s.args)
    (f : Form) (hf : f.Proper m s.args) (a : Nat → Str) (ha : ∀ i, ExpressionText s.args.radix (a i)) (h : InputHistory) (k : Nat → InputHistory)
    (hl : (h.currentLine : Outcome RuntimeErr Str) = .ok (f.text a))
    (hk : ∀ i, ((k i).currentLine : Outcome RuntimeErr Str) = .ok ((Form.hole i).text a)) :
    ∃ v : Nat → Option Rat,
      (∀ i t, (calculate m ce ((Form.hole i).text a) { s with inputs := some (k i) }).1 = .ok t ↔
        ∃ q, v i = some q ∧ displayResult s.args q = .ok t) ∧
      ∀ t, (calculate m ce (f.text a) { s with inputs := some h }).1 = .ok t ↔
        ∃ q, f.eval v = some q ∧ displayResult s.args q = .ok t := by
  obtain ⟨ρ, hρ⟩ := C73_values _ _ (hu.ready hl)
  have hρ' : SeenBy s (f.text a) ρ := hρ
  obtain ⟨v, hh⟩ := hole_reads (m := m) (args := s.args) (ρ := ρ) ha
  have haa : ∀ i, Ascii (a i) := fun i => (ha i).1
  exact ⟨v, fun i t => form_answer hu hv.radix.1 hv.radix.2 hρ' haa hh (.hole i) trivial (hk i) t,
    fun t => form_answer hu hv.radix.1 hv.radix.2 hρ' haa hh f hf hl t⟩

/-- Laws of arithmetic; in those about powers, the exponent is `k`, written `w`. -/
def laws (w : Str) (k : Nat) : List (Form × Form) :=
  let a := Form.hole 0; let b := Form.hole 1; let c := Form.hole 2
  let zero := Form.number "0".toList 0; let one := Form.number "1".toList 1
  [(.add a b, .add b a), (.mul a b, .mul b a),
   (.add (.add a b) c, .add a (.add b c)), (.add a (.add b c), .add (.add a b) c),
   (.mul (.mul a b) c, .mul a (.mul b c)), (.mul a (.mul b c), .mul (.mul a b) c),
   (.mul a (.add b c), .add (.mul a b) (.mul a c)), (.add (.mul a b) (.mul a c), .mul a (.add b c)),
   (.add a zero, a), (a, .add a zero), (.mul a one, a), (a, .mul a one), (.div a one, a), (a, .div a one),
   (.mul a zero, zero), (.sub a a, zero), (.div a a, one),
   (.sub a b, .add a (.neg b)), (.add a (.neg b), .sub a b), (.neg (.neg a), a), (a, .neg (.neg a)),
   (.mul (.div a b) b, a), (.div (.mul a b) b, a), (.sub (.add a b) b, a), (.add (.sub a b) b, a),
   (.div (.add a b) c, .add (.div a c) (.div b c)), (.add (.div a c) (.div b c), .div (.add a b) c),
   (.mul (.add a b) (.sub a b), .sub (.mul a a) (.mul b b)), (.sub (.mul a a) (.mul b b), .mul (.add a b) (.sub a b)),
   (.max a b, .max b a), (.min a b, .min b a), (.add (.max a b) (.min a b), .add a b), (.add a b, .add (.max a b) (.min a b)),
   (.max a (.neg a), .abs a), (.abs a, .max a (.neg a)), (.abs (.mul a b), .mul (.abs a) (.abs b)),
   (.mul (.abs a) (.abs b), .abs (.mul a b)), (.neg (.max a b), .min (.neg a) (.neg b)), (.min (.neg a) (.neg b), .neg (.max a b)),
   (.mod (.neg a) b, .neg (.mod a b)), (.neg (.mod a b), .mod (.neg a) b), (.mod a (.neg b), .mod a b), (.mod a b, .mod a (.neg b)),
   (.mod (.mod a b) b, .mod a b), (.mod a b, .mod (.mod a b) b), (.mod (.mul a c) (.mul b c), .mul (.mod a b) c),
   (.power (.mul a b) w k, .mul (.power a w k) (.power b w k)), (.mul (.power a w k) (.power b w k), .power (.mul a b) w k),
   (.power (.div a b) w k, .div (.power a w k) (.power b w k)), (.power (.abs a) w k, .abs (.power a w k)),
   (.abs (.power a w k), .power (.abs a) w k), (.power a "0".toList 0, one), (.power a "1".toList 1, a), (a, .power a "1".toList 1)]

theorem towardZero_neg (q : Rat) : towardZero (-q) = -towardZero q := by
  unfold towardZero
  rcases lt_trichotomy q 0 with h | rfl | h
  · rw [if_pos (by linarith), if_neg (by linarith), Int.floor_neg]
  · simp
  · rw [if_neg (by linarith), if_pos h.le, Int.ceil_neg]

theorem towardZero_part (q : Rat) : towardZero (q - towardZero q) = 0 := by
  unfold towardZero
  by_cases h : 0 ≤ q
  · rw [if_pos h, if_pos (by linarith [Int.floor_le q]), Int.floor_eq_zero_iff]
    exact ⟨by linarith [Int.floor_le q], by linarith [Int.lt_floor_add_one q]⟩
  · rw [if_neg h]
    rcases (by linarith [Int.le_ceil q] : q - ⌈q⌉ ≤ 0).lt_or_eq with h1 | h1
    · rw [if_neg (by linarith), Int.ceil_eq_zero_iff]
      exact ⟨by linarith [Int.ceil_lt_add_one q], by linarith⟩
    · rw [h1]; simp

theorem laws_hold (n : Str) (k : Nat) : ∀ p ∈ laws n k, ∀ v w, p.1.eval v = some w → p.2.eval v = some w := by
  unfold laws
  simp only [List.forall_mem_cons, List.not_mem_nil, false_implies, implies_true, and_true]
  refine ⟨?_, ?_, ?_, ?_, ?_, ?_, ?_, ?_, ?_, ?_, ?_, ?_, ?_, ?_, ?_, ?_, ?_, ?_, ?_, ?_, ?_, ?_, ?_, ?_, ?_, ?_, ?_, ?_, ?_, ?_, ?_, ?_,
    ?_, ?_, ?_, ?_, ?_, ?_, ?_, ?_, ?_, ?_, ?_, ?_, ?_, ?_, ?_, ?_, ?_, ?_, ?_, ?_, ?_, ?_⟩ <;> intro v w <;>
    rcases v0 : v 0 with _ | x <;> rcases v1 : v 1 with _ | y <;> rcases v2 : v 2 with _ | z <;>
    simp only [Form.eval, v0, v1, v2, Option.map_some, Option.map_none, Option.bind_some, Option.bind_none, reduceCtorEq, false_implies,
      Option.some.injEq, imp_self]
  all_goals try (rintro rfl; first | ring1 | simp)
  all_goals try (split <;> simp <;> rintro rfl <;> field_simp)
  all_goals try (rintro rfl; first | exact max_comm _ _ | exact min_comm _ _ | rfl)
  all_goals try (rintro rfl; rcases le_total x y with h | h <;> simp [h])
  all_goals try (rename_i hy; first
    | (refine ⟨by simpa using hy, ?_⟩; rw [towardZero_neg]; push_cast; ring1)
    | (rw [towardZero_neg]; push_cast; ring1)
    | (have e : (x - y * (towardZero (x / y) : Rat)) / y = x / y - towardZero (x / y) := by field_simp
       rw [e, towardZero_part]; simp)
    | (refine ⟨fun h => absurd h hy, ?_⟩; rw [div_pow]; field_simp)
    | (have hy' : y ≠ 0 := fun h => hy (by simp [h])
       have hz' : z ≠ 0 := fun h => hy (by simp [h])
       rw [if_neg hy', mul_div_mul_right _ _ hz', Option.bind_some, mul_comm]))

/-- These laws hold of the calculator's answers, whatever expressions are put in them. -/
theorem C87_laws (m : Machine) (ce : CommandExecutor) (s : Session) (hu : Undisturbed s) (hv : ValidSettings s.args)
    (n : Str) (k : Nat) (f g : Form) (hfg : (f, g) ∈ laws n k) (hf : f.Proper m s.args) (hg : g.Proper m s.args)
    (a : Nat → Str) (ha : ∀ i, ExpressionText s.args.radix (a i)) (h h' : InputHistory)
    (hl : (h.currentLine : Outcome RuntimeErr Str) = .ok (f.text a))
    (hl' : (h'.currentLine : Outcome RuntimeErr Str) = .ok (g.text a))
    (t : Str) (ht : (calculate m ce (f.text a) { s with inputs := some h }).1 = .ok t) :
    (calculate m ce (g.text a) { s with inputs := some h' }).1 = .ok t :=
  C87_identity m ce s hu hv f g hf hg (fun v w hw => laws_hold n k (f, g) hfg v w hw) a ha h h' hl hl' t ht

/-- The texts put in the holes. -/
def exParts : Nat → Str
  | 0 => "2 ^ -1".toList
  | 1 => "$x".toList
  | _ => "sqrt 2".toList

/-- The law of the distribution, with texts in it, and the same answer to both sides, in which the root is not exact. -/
example :
    (Form.mul (.hole 0) (.add (.hole 1) (.hole 2))).text exParts = "((2 ^ -1)*(($x)+(sqrt 2)))".toList ∧
    (Form.add (.mul (.hole 0) (.hole 1)) (.mul (.hole 0) (.hole 2))).text exParts = "(((2 ^ -1)*($x))+((2 ^ -1)*(sqrt 2)))".toList ∧
    (calculate exForward table "((2 ^ -1)*(($x)+(sqrt 2)))".toList
      { exKnows none with inputs := some (exShows "((2 ^ -1)*(($x)+(sqrt 2)))") }).1 = .ok "1.04044".toList ∧
    (calculate exForward table "(((2 ^ -1)*($x))+((2 ^ -1)*(sqrt 2)))".toList
      { exKnows none with inputs := some (exShows "(((2 ^ -1)*($x))+((2 ^ -1)*(sqrt 2)))") }).1 = .ok "1.04044".toList := by
  decide +kernel

theorem exReads {a : Str} {ts : List PTok} (ht : tokenize a 10 = .ok (.tokens ts))
    (hp : (match SyntaxTree.new ts with | .ok ⟨none, _⟩ => true | _ => false) = true) : ExpressionText 10 a := by
  obtain ⟨ha, _, hl⟩ := (C01_tokens_iff 10 (by decide) (by decide) _ _).1 ht
  split at hp
  · rename_i n h
    have := (C10_parser_iff_grammar _ _).1 h
    generalize hx : (none : Option (Positioned Str)) = o at this
    cases this with
    | expression h => exact ⟨ha, _, _, hl, h⟩
    | assignment => cases hx
  · cases hp

/-- The texts put in the holes are expressions. -/
example : ∀ i, ExpressionText 10 (exParts i) := by
  have h0 : ExpressionText 10 "2 ^ -1".toList := exReads (ts := [⟨.number 2, ⟨0, 1⟩⟩, ⟨.binary .exponent, ⟨2, 1⟩⟩,
    ⟨.binary .subtract, ⟨4, 1⟩⟩, ⟨.number 1, ⟨5, 1⟩⟩]) (by decide +kernel) (by decide +kernel)
  have h1 : ExpressionText 10 "$x".toList := exReads (ts := [⟨.variable "$x".toList, ⟨0, 2⟩⟩]) (by decide +kernel) (by decide +kernel)
  have h2 : ExpressionText 10 "sqrt 2".toList := exReads (ts := [⟨.unary .squareRoot, ⟨0, 4⟩⟩, ⟨.number 2, ⟨5, 1⟩⟩])
    (by decide +kernel) (by decide +kernel)
  intro i
  match i with
  | 0 => exact h0
  | 1 => exact h1
  | _ + 2 => exact h2

/-- A proper form with a power, in binary. -/
example : (Form.power (.mul (.hole 0) (.hole 1)) "11".toList 3).Proper (exMachine true) { Args.default with radix := 2 } := by
  refine ⟨⟨trivial, trivial⟩, ?_, fun _ => by decide⟩
  have h : Numeral 2 "11".toList (value 2 [1, 1] : Nat) :=
    .whole (.cons ⟨.inl ⟨by decide, by decide⟩, by decide⟩ (.cons ⟨.inl ⟨by decide, by decide⟩, by decide⟩ .nil)) (by decide)
  have e : value 2 [1, 1] = 3 := by decide
  rwa [e] at h

end Bcalc
