import Verif.Spec.Independent
import Verif.Proof.Alike
import Verif.Props.Settings

/-! # Lines that do not influence each other -/

namespace Bcalc
open Spec

/-- The valuations agree on the variables among the tokens. -/
def AgreeOn (ts : List PTok) (ρ ρ' : Valuation) : Prop := ∀ x p, (⟨.variable x, p⟩ : PTok) ∈ ts → ρ x = ρ' x

theorem AgreeOn.left {a b : List PTok} {ρ ρ'} (h : AgreeOn (a ++ b) ρ ρ') : AgreeOn a ρ ρ' :=
  fun x p hx => h x p (List.mem_append_left _ hx)

theorem AgreeOn.right {a b : List PTok} {ρ ρ'} (h : AgreeOn (a ++ b) ρ ρ') : AgreeOn b ρ ρ' :=
  fun x p hx => h x p (List.mem_append_right _ hx)

theorem AgreeOn.tail {t : PTok} {b : List PTok} {ρ ρ'} (h : AgreeOn (t :: b) ρ ρ') : AgreeOn b ρ ρ' :=
  fun x p hx => h x p (List.mem_cons_of_mem _ hx)

mutual
theorem expr_local (m : Machine) (args : Args) (store : Bool) {ρ ρ' : Valuation} : ∀ {k ts n}, Expr k ts n →
    AgreeOn ts ρ ρ' → n.pure m args store ρ = n.pure m args store ρ'
  | _, _, _, .signed h, ha => signed_local m args store h ha
  | _, _, _, .lift h, ha => expr_local m args store h ha
  | _, _, _, .op h _ h', ha => by
    unfold Node.pure
    rw [expr_local m args store h ha.left, expr_local m args store h' ha.right.tail]
theorem signed_local (m : Machine) (args : Args) (store : Bool) {ρ ρ' : Valuation} : ∀ {ts n}, Signed ts n →
    AgreeOn ts ρ ρ' → n.pure m args store ρ = n.pure m args store ρ'
  | _, _, .minus h, ha => by
    unfold Node.pure
    rw [signed_local m args store h ha.tail]
  | _, _, .atom h, ha => atom_local m args store h ha
theorem atom_local (m : Machine) (args : Args) (store : Bool) {ρ ρ' : Valuation} : ∀ {ts n}, Atom ts n →
    AgreeOn ts ρ ρ' → n.pure m args store ρ = n.pure m args store ρ'
  | _, _, .number, _ => by unfold Node.pure; rfl
  | _, _, .variable, ha => by
    unfold Node.pure pureVariable
    rw [ha _ _ (List.mem_singleton.2 rfl)]
  | _, _, .paren h, ha => by
    unfold Node.pure
    exact expr_local m args store h ha.tail.left
  | _, _, .unary h, ha => by
    unfold Node.pure
    rw [signed_local m args store h ha.tail]
  | _, _, .functionBare h _, ha => by
    unfold Node.pure pureList
    rw [signed_local m args store h ha.tail]
    rfl
  | _, _, .functionEmpty, _ => by unfold Node.pure; rfl
  | _, _, .function h, ha => by
    unfold Node.pure
    rw [arguments_local m args store h ha.tail.tail.left]
theorem arguments_local (m : Machine) (args : Args) (store : Bool) {ρ ρ' : Valuation} : ∀ {ts ns}, Arguments ts ns →
    AgreeOn ts ρ ρ' → pureList m args store ρ ns = pureList m args store ρ' ns
  | _, _, .one h, ha => by
    unfold pureList
    rw [expr_local m args store h ha]
    rfl
  | _, _, .more h h', ha => by
    unfold pureList
    rw [expr_local m args store h ha.left, arguments_local m args store h' ha.right.tail]
end

theorem input_local (m : Machine) (args : Args) (store : Bool) {ρ ρ' : Valuation} {ts : List PTok} {target n}
    (h : Input ts target n) (ha : AgreeOn ts ρ ρ') : n.pure m args store ρ = n.pure m args store ρ' := by
  cases h with
  | expression h => exact expr_local m args store h ha
  | assignment h => exact expr_local m args store h ha.tail.tail

/-- The answer depends only on the variables that occur in the line. -/
theorem pureAnswer_local (m : Machine) (args : Args) (h2 : 2 ≤ args.radix) (h16 : args.radix ≤ 16) {ρ ρ' : Valuation}
    (line : Str) (ha : ∀ x, OccursIn args.radix line x → ρ x = ρ' x) : pureAnswer m args ρ line = pureAnswer m args ρ' line := by
  unfold pureAnswer
  cases ht : tokenize line args.radix with
  | err => rfl
  | panic => rfl
  | diverge => rfl
  | ok p =>
    cases p with
    | command => rfl
    | tokens ts =>
      simp only
      have hl := ((C01_tokens_iff _ h2 h16 line ts).1 ht).2.2
      split
      · rfl
      · cases hn : SyntaxTree.new ts with
        | ok tree =>
          simp only [Outcome.mapErr, Outcome.bind_ok]
          rw [input_local m args true ((C10_parser_iff_grammar ts tree).1 hn) fun x p hx => ha x ⟨ts, p, hl, hx⟩]
        | err => rfl
        | panic => rfl
        | diverge => rfl

/-- What a line does to the variables: nothing but perhaps an assignment. -/
theorem pureEffect_cases (m : Machine) (args : Args) (line : Str) :
    (∀ ρ, pureEffect m args ρ line = ρ) ∨
    ∃ ts x n, tokenize line args.radix = .ok (.tokens ts) ∧ Input ts (some x) n ∧
      ∀ ρ, pureEffect m args ρ line = match n.pure m args true ρ with
        | .ok v => fun y => if y = x.value then some v else ρ y
        | _ => ρ := by
  unfold pureEffect
  cases ht : tokenize line args.radix with
  | err => exact .inl fun _ => rfl
  | panic => exact .inl fun _ => rfl
  | diverge => exact .inl fun _ => rfl
  | ok p =>
    cases p with
    | command => exact .inl fun _ => rfl
    | tokens ts =>
      simp only
      cases hn : SyntaxTree.new ts with
      | ok tree =>
        obtain ⟨rv, n⟩ := tree
        cases rv with
        | none => exact .inl fun _ => rfl
        | some x => exact .inr ⟨ts, x, n, rfl, (C10_parser_iff_grammar ts _).1 hn, fun _ => rfl⟩
      | err => exact .inl fun _ => rfl
      | panic => exact .inl fun _ => rfl
      | diverge => exact .inl fun _ => rfl

theorem input_assigns {radix : Nat} {line : Str} {ts : List PTok} {x : Positioned Str} {n : Node}
    (ht : tokenize line radix = .ok (.tokens ts)) (hi : Input ts (some x) n) : Assigns radix line x.value := by
  cases hi with
  | assignment h => exact ⟨_, _, _, ht⟩

/-- Effects of independent lines. -/
theorem pureEffect_swap (m : Machine) (args : Args) (h2 : 2 ≤ args.radix) (h16 : args.radix ≤ 16) {l l' : Str}
    (h : Independent args.radix l l') (ρ : Valuation) :
    pureEffect m args (pureEffect m args ρ l) l' = pureEffect m args (pureEffect m args ρ l') l := by
  rcases pureEffect_cases m args l with hl | ⟨ts, x, n, ht, hi, hl⟩
  · rw [hl, hl]
  rcases pureEffect_cases m args l' with hl' | ⟨ts', x', n', ht', hi', hl'⟩
  · rw [hl', hl']
  have hx := input_assigns ht hi
  have hx' := input_assigns ht' hi'
  have lx := ((C01_tokens_iff _ h2 h16 l ts).1 ht).2.2
  have lx' := ((C01_tokens_iff _ h2 h16 l' ts').1 ht').2.2
  have hn : ∀ v, n.pure m args true (fun y => if y = x'.value then some v else ρ y) = n.pure m args true ρ := by
    intro v
    refine input_local m args true hi fun y p hy => ?_
    refine if_neg ?_
    rintro rfl
    exact h.apart' _ hx' ⟨ts, p, lx, hy⟩
  have hn' : ∀ v, n'.pure m args true (fun y => if y = x.value then some v else ρ y) = n'.pure m args true ρ := by
    intro v
    refine input_local m args true hi' fun y p hy => ?_
    refine if_neg ?_
    rintro rfl
    exact h.apart _ hx ⟨ts', p, lx', hy⟩
  have hne : x.value ≠ x'.value := by
    intro e
    obtain ⟨p, q, us, hu⟩ := hx'
    have lu := ((C01_tokens_iff _ h2 h16 l' _).1 hu).2.2
    exact h.apart _ hx ⟨_, p, lu, by rw [e]; exact List.mem_cons_self⟩
  simp only [hl, hl']
  cases hv : n.pure m args true ρ with
  | ok v =>
    simp only [hn']
    cases hv' : n'.pure m args true ρ with
    | ok v' =>
      simp only [hn, hv]
      funext y
      by_cases h1 : y = x.value
      · subst h1; simp [hne]
      · simp [h1]
    | err => simp only [hv]
    | panic => simp only [hv]
    | diverge => simp only [hv]
  | err =>
    simp only
    cases hv' : n'.pure m args true ρ with
    | ok v' => simp only [hn, hv]
    | err => simp only [hv]
    | panic => simp only [hv]
    | diverge => simp only [hv]
  | panic =>
    simp only
    cases hv' : n'.pure m args true ρ with
    | ok v' => simp only [hn, hv]
    | err => simp only [hv]
    | panic => simp only [hv]
    | diverge => simp only [hv]
  | diverge =>
    simp only
    cases hv' : n'.pure m args true ρ with
    | ok v' => simp only [hn, hv]
    | err => simp only [hv]
    | panic => simp only [hv]
    | diverge => simp only [hv]

/-- The answer to one of two independent lines is the same before and after the other. -/
theorem pureAnswer_after (m : Machine) (args : Args) (h2 : 2 ≤ args.radix) (h16 : args.radix ≤ 16) {l l' : Str}
    (h : ∀ x, Assigns args.radix l x → ¬ OccursIn args.radix l' x) (ρ : Valuation) :
    pureAnswer m args (pureEffect m args ρ l) l' = pureAnswer m args ρ l' := by
  rcases pureEffect_cases m args l with hl | ⟨ts, x, n, ht, hi, hl⟩
  · rw [hl]
  rw [hl]
  cases n.pure m args true ρ with
  | ok v =>
    refine pureAnswer_local m args h2 h16 l' fun y hy => ?_
    simp only
    rw [if_neg]
    rintro rfl
    exact h _ (input_assigns ht hi) hy
  | err => rfl
  | panic => rfl
  | diverge => rfl

/-- A line that is no command, in a session that knows its variables. -/
theorem calculate_known {m : Machine} {ce : CommandExecutor} {line : Str} {s : Session} {hist : InputHistory}
    (hu : Undisturbed s) (hk : KnowsAll s) (hv : ValidSettings s.args) (hc : ¬ CommandLine line)
    (hl : (hist.currentLine : Outcome RuntimeErr Str) = .ok line) :
    ∃ t, calculate m ce line { s with inputs := some hist } = (pureAnswer m s.args (sessionValue s) line, t) ∧
      t.args = s.args ∧ Undisturbed t ∧ KnowsAll t ∧ sessionValue t = pureEffect m s.args (sessionValue s) line := by
  obtain ⟨t, e, ha, hvs, hq, hsee, hkn⟩ := calculate_pure (m := m) (ce := ce) (hu.ready hl)
    (knowsAll_seen (s := { s with inputs := some hist }) hk line) hv.radix.1 hv.radix.2 hc
  have hk1 := hkn ((allKnown_iff (s := s) hu).2 hk)
  have hu1 := undisturbed_env hvs hq
  exact ⟨t, e, ha, hu1, (allKnown_iff hu1).1 hk1, knowsAll_values hk1 hsee⟩

/-- A line without a trace. -/
theorem traceless_effect {m : Machine} {args : Args} (hv : ValidSettings args) {line : Str} {ρ : Valuation}
    (h : Traceless args.radix line (pureAnswer m args ρ line)) : pureEffect m args ρ line = ρ := by
  rcases pureEffect_cases m args line with hl | ⟨ts, x, n, ht, hi, hl⟩
  · exact hl ρ
  rcases h with ⟨e, he⟩ | ⟨_, h⟩
  · rw [hl]
    unfold pureAnswer at he
    have hne : ts ≠ [] := by rintro rfl; exact input_ne_nil hi
    rw [ht] at he
    simp only [if_neg hne] at he
    rw [(C10_parser_iff_grammar ts ⟨some x, n⟩).2 hi] at he
    simp only [Outcome.mapErr, Outcome.bind_ok] at he
    cases hp : n.pure m args true ρ with
    | ok v =>
      rw [hp] at he
      obtain ⟨text, h1, _⟩ := displays_of_display args hv v
      simp only [Outcome.bind_ok, h1] at he
      cases he
    | err => rfl
    | panic => rfl
    | diverge => rfl
  · exact absurd (input_assigns ht hi) (h _)

/-- A command that fails. -/
theorem failed_command {m : Machine} {line : Str} {s t : Session} {hist : InputHistory} {e : Failure}
    (hu : Undisturbed s) (hk : KnowsAll s) (hv : ValidSettings s.args) (hcl : CommandLine line) (hc : ¬ AboutDatabase line)
    (hl : (hist.currentLine : Outcome RuntimeErr Str) = .ok line)
    (h : calculate m table line { s with inputs := some hist } = (.err e, t)) : Alike t s := by
  obtain ⟨id, s1, h1, hid, ha, hvars, hs⟩ := ready_records (hu.ready hl)
  have ha' : s1.args = s.args := ha
  have hvars' : s1.vars = s.vars := hvars
  have hu1 : Undisturbed s1 := undisturbed_env (by rw [hvars]; exact hu.vars) hid.quiet
  have hk1 : KnowsAll s1 := allKnown_recorded (s := { s with inputs := some hist }) hk hvars hu.vars hs
  have hx1 : ∀ x, sessionValue s1 x = sessionValue s x := fun x => by unfold sessionValue; rw [hvars']
  have hal : Alike s1 s := ⟨hu1, hu, hk1, hk, ha', hx1⟩
  rcases tokenize_spec hv.radix.1 hv.radix.2 line with ⟨i, hi, _, et⟩ | ⟨_, p, hp, hc', et⟩ | ⟨_, hn, _⟩
  · rw [calculate_eq, andThen_of_ok h1] at h
    unfold afterRecording at h
    rw [ha, et] at h
    simp only [Prod.mk.injEq] at h
    rw [← h.2]; exact hal
  · cases p with
    | tokens ts =>
      unfold maybeExtractCommand at hp
      simp only at hp
      split at hp
      · split at hp <;> simp at hp
      · simp at hp
    | command name arguments =>
      obtain ⟨name, np⟩ := name
      obtain ⟨arguments, q⟩ := arguments
      cases hr : table.resolve name with
      | none =>
        rw [calculate_eq, andThen_of_ok h1] at h
        unfold afterRecording at h
        rw [ha, et] at h
        simp only [calculateCommand, CommandExecutor.executeCommand, hr, St.andThen, Prod.mk.injEq] at h
        rw [← h.2]; exact hal
      | some cmd =>
        have hic : IsCommand line cmd arguments := (isCommand_iff s.args.radix).2 ⟨name, np, q, et, hr⟩
        have hne : cmd ≠ .reloadVar := fun h => hc ⟨cmd, _, hic, .inr (.inl h)⟩
        have hargs : t.args = s.args := by
          have := C63_failing m table new_table line { s with inputs := some hist } (by rw [h]; simp)
          rw [h] at this
          exact this
        rw [calculate_command h1 et hr hne] at h
        by_cases hst : Setting cmd
        · obtain ⟨_, a, h4, _⟩ := setting_alike hst m m table ⟨arguments, q⟩ (s := s1) (s' := s1) rfl
          have ht : t = { s1 with args := a } := by
            rw [← h4]; exact (congrArg Prod.snd h).symm
          subst ht
          exact ⟨⟨hu1.vars, hu1.reachable, hu1.quiet⟩, hu, hk1, hk, hargs, hx1⟩
        · have : cmd = .purgeVar := by
            cases cmd with
            | purgeVar => rfl
            | help => exact absurd ⟨_, _, hic, .inl rfl⟩ hc
            | histcap => exact absurd ⟨_, _, hic, .inr (.inr rfl)⟩ hc
            | reloadVar => exact absurd rfl hne
            | _ => exact absurd trivial hst
          subst this
          obtain ⟨h3, h4⟩ := Prod.mk.inj h
          clear h
          unfold Cmd.execute executePurgeVar at h3 h4
          cases htv : tokenizeVariableList arguments with
          | err => rw [htv] at h4; simp only at h4; rw [← h4]; exact hal
          | panic => rw [htv] at h4; simp only at h4; rw [← h4]; exact hal
          | diverge => rw [htv] at h4; simp only at h4; rw [← h4]; exact hal
          | ok ts =>
            exfalso
            rw [htv] at h3
            obtain ⟨vs, hvs⟩ := Option.isSome_iff_exists.1 hu1.vars
            simp only [hvs] at h3
            cases hd : s1.db with
            | none =>
              obtain ⟨vs', e1, _⟩ := purgeLoop_none (m.hashOrder (ts.map (·.value))) vs
              rw [hd, e1] at h3
              cases h3
            | some sd =>
              obtain ⟨vs', c, e1, _⟩ := purgeLoop_quiet (m.hashOrder (ts.map (·.value))) vs sd (hu1.quiet sd hd)
                (reachable_fk (hu1.reachable sd hd))
              rw [hd, e1] at h3
              cases h3
  · exact absurd hcl hn

end Bcalc
