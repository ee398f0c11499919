import Verif.Proof.Naming
import Verif.Props.Laws

/-! # A value can be given a name (C86) -/

namespace Bcalc
open Spec

/-! ## C86 Names for values -/

/-- Where a name has the value of an expression, the name can be replaced by the expression in parentheses, in any
expression and in any assignment: the answer is the same, or the same complaint, and so are the values found
afterwards.  (The name has the value of the expression when assigning the expression to the name would give it the
value that it already has.) -/
theorem C86_replace (m : Machine) (ce : CommandExecutor) (s : Session) (hu : Undisturbed s) (hv : ValidSettings s.args)
    (x b a pre post : Str) (hx : VariableName x) (hb : ∀ c ∈ b, Blank c)
    (h0 : InputHistory) (hl0 : (h0.currentLine : Outcome RuntimeErr Str) = .ok (x ++ b ++ '=' :: a))
    (t : Str) (s0 : Session) (he : calculate m ce (x ++ b ++ '=' :: a) { s with inputs := some h0 } = (.ok t, s0))
    (q : Rat) (hq : sessionValue s0 x = some q) (hs : Sees s (x ++ b ++ '=' :: a) x q)
    (hpre : ∀ p c, pre = p ++ [c] → ¬ WordChar c) (hpost : Boundary post) (hno : ¬ AssignedBetween pre post)
    (hal : Ascii (pre ++ x ++ post)) (hcl : ¬ CommandLine (pre ++ x ++ post))
    (hw : WellFormed s.args.radix (pre ++ x ++ post)) (h h' : InputHistory)
    (hl : (h.currentLine : Outcome RuntimeErr Str) = .ok (pre ++ x ++ post))
    (hl' : (h'.currentLine : Outcome RuntimeErr Str) = .ok (pre ++ '(' :: a ++ ')' :: post)) :
    unplaced (calculate m ce (pre ++ x ++ post) { s with inputs := some h }).1 =
      unplaced (calculate m ce (pre ++ '(' :: a ++ ')' :: post) { s with inputs := some h' }).1 ∧
    ∀ y v, Visible (calculate m ce (pre ++ x ++ post) { s with inputs := some h }).2 y v ↔
      Visible (calculate m ce (pre ++ '(' :: a ++ ')' :: post) { s with inputs := some h' }).2 y v := by
  obtain ⟨ρ, hρ⟩ := C73_values _ _ (hu.ready hl0)
  have hρ' : SeenBy s (x ++ b ++ '=' :: a) ρ := hρ
  obtain ⟨ha0, hc0, pos, as, n, p, p', hl1, hla, hn⟩ := assignment_reads (s := { s with inputs := some h0 }) hx hb hv.radix.1 hv.radix.2 he
  obtain ⟨s0', e, _, _, _, hsee, _⟩ := calculate_pure (m := m) (ce := ce) (hu.ready hl0) hρ hv.radix.1 hv.radix.2 hc0
  rw [he] at e
  obtain ⟨e1, rfl⟩ := Prod.mk.inj e
  obtain ⟨h3, h4⟩ := pureAnswer_of (m := m) (ρ := ρ) hv.radix.1 hv.radix.2 ha0 hc0 hl1 (.assignment hn)
  have e2 : n.pure m s.args true ρ >>= displayResult s.args = .ok t := h3.symm.trans e1.symm
  obtain ⟨w, hw1, _⟩ := outcome_bind_ok e2
  have hqw : w = q := by
    have h5 := (hsee x q).2 (.inl hq)
    have h6 : pureEffect m s.args ρ (x ++ b ++ '=' :: a) x = some q := h5
    rw [h4, hw1] at h6
    simpa using h6
  subst hqw
  have haa : Ascii a := fun c hc => ha0 c (by simp [hc])
  exact naming_sessions hu hv.radix.1 hv.radix.2 (seenBy_text hu hρ' _) hx haa hla hn hw1 ((hρ' x w).2 hs) hpre hpost hno hal
    hcl hw hl hl'

/-- After the assignment of an expression to a name that does not occur in it, the name and the expression in
parentheses mean the same. -/
theorem C86_after (m : Machine) (ce : CommandExecutor) (s : Session) (hu : Undisturbed s) (hv : ValidSettings s.args)
    (x b a pre post : Str) (hx : VariableName x) (hb : ∀ c ∈ b, Blank c)
    (h0 : InputHistory) (hl0 : (h0.currentLine : Outcome RuntimeErr Str) = .ok (x ++ b ++ '=' :: a))
    (t : Str) (s0 : Session) (he : calculate m ce (x ++ b ++ '=' :: a) { s with inputs := some h0 } = (.ok t, s0))
    (hxa : ∀ pos ts, Lexes s.args.radix pos a ts → ∀ p, ⟨.variable x, p⟩ ∉ ts)
    (hpre : ∀ p c, pre = p ++ [c] → ¬ WordChar c) (hpost : Boundary post) (hno : ¬ AssignedBetween pre post)
    (hal : Ascii (pre ++ x ++ post)) (hcl : ¬ CommandLine (pre ++ x ++ post))
    (hw : WellFormed s.args.radix (pre ++ x ++ post)) (h h' : InputHistory)
    (hl : (h.currentLine : Outcome RuntimeErr Str) = .ok (pre ++ x ++ post))
    (hl' : (h'.currentLine : Outcome RuntimeErr Str) = .ok (pre ++ '(' :: a ++ ')' :: post)) :
    unplaced (calculate m ce (pre ++ x ++ post) { s0 with inputs := some h }).1 =
      unplaced (calculate m ce (pre ++ '(' :: a ++ ')' :: post) { s0 with inputs := some h' }).1 ∧
    ∀ y v, Visible (calculate m ce (pre ++ x ++ post) { s0 with inputs := some h }).2 y v ↔
      Visible (calculate m ce (pre ++ '(' :: a ++ ')' :: post) { s0 with inputs := some h' }).2 y v := by
  obtain ⟨ρ, hρ⟩ := C73_values _ _ (hu.ready hl0)
  obtain ⟨ha0, hc0, pos, as, n, p, p', hl1, hla, hn⟩ := assignment_reads (s := { s with inputs := some h0 }) hx hb hv.radix.1 hv.radix.2 he
  obtain ⟨s0', e, hargs, hvs, hq0, _⟩ := calculate_pure (m := m) (ce := ce) (hu.ready hl0) hρ hv.radix.1 hv.radix.2 hc0
  rw [he] at e
  obtain ⟨_, rfl⟩ := Prod.mk.inj e
  have hargs : s0.args = s.args := hargs
  obtain ⟨v, σ, h1, h2⟩ := assignment_loads he (tokenize_of_lexes hv.radix.1 hv.radix.2 ha0 hc0 hl1) (.assignment hn)
  have hocc : ¬ n.occurs x := fun ho => by
    obtain ⟨p, hp⟩ := occurs_expr hn ho
    exact hxa _ _ hla p hp
  have h3 : n.pure m s.args true (sessionValue s0) = .ok v := by
    rw [← h1]
    refine pure_other (x := x) (fun y hy => ?_) n hocc
    rw [h2]
    simp only [if_neg hy]
  have hu0 := undisturbed_env hvs hq0
  obtain ⟨τ, hτ⟩ := C73_values _ _ (hu0.ready hl)
  have hτ' : SeenBy s0 (pre ++ x ++ post) τ := hτ
  have hmono : ∀ y q, sessionValue s0 y = some q → τ y = some q := fun y q hy => (hτ' y q).2 (.inl hy)
  have haa : Ascii a := fun c hc => ha0 c (by simp [hc])
  refine naming_sessions hu0 (hargs ▸ hv.radix.1) (hargs ▸ hv.radix.2) hτ' hx haa (hargs ▸ hla) hn
    (by rw [hargs]; exact pure_mono hmono n h3) (hmono x v (by rw [h2]; simp)) hpre hpost hno hal hcl (hargs ▸ hw) hl hl'

/-- The line shown. -/
def exShows (line : String) : InputHistory := { InputHistory.new false with current := [some line.toList] }

/-- The session after `$h = 1/3 + $x`. -/
def exNamed : Session :=
  (calculate exForward table "$h = 1/3 + $x".toList { exKnows none with inputs := some (exShows "$h = 1/3 + $x") }).2

/-- The name and the expression give the same answer. -/
example :
    (calculate exForward table "$h = 1/3 + $x".toList { exKnows none with inputs := some (exShows "$h = 1/3 + $x") }).1 =
      .ok "1".toList ∧
    (calculate exForward table "3*$h^2/7".toList { exNamed with inputs := some (exShows "3*$h^2/7") }).1 = .ok "0.42857".toList ∧
    (calculate exForward table "3*( 1/3 + $x)^2/7".toList { exNamed with inputs := some (exShows "3*( 1/3 + $x)^2/7") }).1 =
      .ok "0.42857".toList := by
  decide +kernel

theorem exName : VariableName "$h".toList := by
  refine ⟨⟨['h'], rfl⟩, ?_⟩
  intro c hc
  have : c = '$' ∨ c = 'h' := by simpa using hc
  rcases this with rfl | rfl
  · exact wordChar_dollar
  · refine ⟨by unfold Blank; decide, ?_⟩
    intro t h
    generalize hc : 'h' = c at h
    cases h <;> revert hc <;> decide

example : (∀ p c, "3*".toList = p ++ [c] → ¬ WordChar c) ∧ Boundary "^2/7".toList ∧ ¬ AssignedBetween "3*".toList "^2/7".toList ∧
    WellFormed 10 "3*$h^2/7".toList ∧ ¬ CommandLine "3*$h^2/7".toList ∧ Ascii "3*$h^2/7".toList ∧
    ∀ pos ts, Lexes 10 pos " 1/3 + $x".toList ts → ∀ p, ⟨.variable "$h".toList, p⟩ ∉ ts := by
  have ht : tokenize "3*$h^2/7".toList 10 = .ok (.tokens [⟨.number 3, ⟨0, 1⟩⟩, ⟨.binary .multiply, ⟨1, 1⟩⟩,
    ⟨.variable "$h".toList, ⟨2, 2⟩⟩, ⟨.binary .exponent, ⟨4, 1⟩⟩, ⟨.number 2, ⟨5, 1⟩⟩, ⟨.binary .divide, ⟨6, 1⟩⟩,
    ⟨.number 7, ⟨7, 1⟩⟩]) := by decide +kernel
  obtain ⟨ha, hc, hl⟩ := (C01_tokens_iff 10 (by decide) (by decide) _ _).1 ht
  have ht' : tokenize " 1/3 + $x".toList 10 = .ok (.tokens [⟨.number 1, ⟨1, 1⟩⟩, ⟨.binary .divide, ⟨2, 1⟩⟩, ⟨.number 3, ⟨3, 1⟩⟩,
    ⟨.binary .add, ⟨5, 1⟩⟩, ⟨.variable "$x".toList, ⟨7, 2⟩⟩]) := by decide +kernel
  obtain ⟨ha', hc', hl'⟩ := (C01_tokens_iff 10 (by decide) (by decide) _ _).1 ht'
  refine ⟨?_, ?_, ?_, ?_, hc, ha, ?_⟩
  · intro p c h
    have : c = '*' := by
      have := congrArg List.getLast? h
      simpa using this.symm
    subst this
    exact fun h => h.2 _ .times
  · intro c cs h
    cases h
    exact fun h => h.2 _ .caret
  · rintro ⟨h, _⟩
    have := h '3' (by decide)
    revert this
    unfold Blank
    decide
  · have : (match SyntaxTree.new [⟨.number 3, ⟨0, 1⟩⟩, ⟨.binary .multiply, ⟨1, 1⟩⟩,
      ⟨.variable "$h".toList, ⟨2, 2⟩⟩, ⟨.binary .exponent, ⟨4, 1⟩⟩, ⟨.number 2, ⟨5, 1⟩⟩, ⟨.binary .divide, ⟨6, 1⟩⟩,
      ⟨.number 7, ⟨7, 1⟩⟩] with | .ok _ => true | _ => false) = true := by decide +kernel
    split at this
    · rename_i tree h
      obtain ⟨target, n⟩ := tree
      exact ⟨_, target, n, hl, (C10_parser_iff_grammar _ _).1 h⟩
    · cases this
  · intro pos ts h p hp
    obtain ⟨ts', h', e⟩ := lexes_place h 0
    have e1 := tokenize_of_lexes (by decide) (by decide) ha' hc' h'
    rw [ht'] at e1
    cases e1
    have hm : Token.variable "$h".toList ∈ ts.map (·.value) := List.mem_map_of_mem (f := (·.value)) hp
    rw [← e] at hm
    revert hm
    decide

end Bcalc
