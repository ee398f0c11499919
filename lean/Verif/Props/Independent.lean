import Verif.Proof.Independent
import Verif.Props.Naming

/-! # Lines that do not influence each other (C90 to C92) -/

namespace Bcalc
open Spec

/-! ## C90 A line looks only at the variables that occur in it -/

/-- Two sessions with the same settings, in which the variables that occur in the line have the same values (or no
values) answer the same, whatever values other variables have. -/
theorem C90_line (m m' : Machine) (hb : SameBuild m m') (ce ce' : CommandExecutor) (line : Str) (s s' : Session)
    (ρ ρ' : Valuation) (h : Ready s line) (h' : Ready s' line) (ha : s.args = s'.args) (hv : ValidSettings s.args)
    (hρ : SeenBy s line ρ) (hρ' : SeenBy s' line ρ') (hc : ¬ CommandLine line)
    (hx : ∀ x, OccursIn s.args.radix line x → ρ x = ρ' x) :
    (calculate m ce line s).1 = (calculate m' ce' line s').1 := by
  obtain ⟨t, e, _⟩ := calculate_pure (m := m) (ce := ce) h hρ hv.radix.1 hv.radix.2 hc
  obtain ⟨t', e', _⟩ := calculate_pure (m := m') (ce := ce') h' hρ' (ha ▸ hv.radix.1) (ha ▸ hv.radix.2) hc
  rw [e, e', ← ha, pureAnswer_local m s.args hv.radix.1 hv.radix.2 line hx]
  obtain ⟨a, b, c⟩ := m
  obtain ⟨a', b', c'⟩ := m'
  obtain ⟨h1, h2⟩ := hb
  simp only at h1 h2
  subst h1 h2
  exact pureAnswer_order ⟨a, b, c'⟩ c s.args ρ' line

/-- A line without variables is answered in the same way in all sessions with the same settings. -/
theorem C90_closed (m m' : Machine) (hb : SameBuild m m') (ce ce' : CommandExecutor) (line : Str) (s s' : Session)
    (h : Ready s line) (h' : Ready s' line) (ha : s.args = s'.args) (hv : ValidSettings s.args) (hc : ¬ CommandLine line)
    (hx : ∀ x, ¬ OccursIn s.args.radix line x) : (calculate m ce line s).1 = (calculate m' ce' line s').1 := by
  obtain ⟨ρ, hρ⟩ := C73_values s line h
  obtain ⟨ρ', hρ'⟩ := C73_values s' line h'
  exact C90_line m m' hb ce ce' line s s' ρ ρ' h h' ha hv hρ hρ' hc fun x hn => absurd hn (hx x)

/-! ## C91 Independent lines can be entered in either order -/

theorem dialogue_split {m : Machine} {ce : CommandExecutor} {s t : Session} {a b : List (Str × Outcome Failure Str)}
    (h : Dialogue m ce s (a ++ b) t) : ∃ u, Dialogue m ce s a u ∧ Dialogue m ce u b t := by
  induction a generalizing s with
  | nil => exact ⟨s, .done, h⟩
  | cons x a ih =>
    cases h with
    | line h1 h2 h3 =>
      obtain ⟨u, h4, h5⟩ := ih h3
      exact ⟨u, .line h1 h2 h4, h5⟩

theorem dialogue_valid {m : Machine} {s t : Session} {talk : List (Str × Outcome Failure Str)}
    (h : Dialogue m table s talk t) (hv : ValidSettings s.args) : ValidSettings t.args := by
  induction h with
  | done => exact hv
  | @line s hist line r s1 talk t hcur he hd ih =>
    have hv1 := C62_session m table new_table _ _ (.input (line := line) .now) (show ValidSettings { s with inputs := some hist }.args from hv)
    rw [he] at hv1
    exact ih hv1

/-- Entered in the other order at some place of a dialogue, two independent lines get the same answers, and so do all
other lines; the settings and values in the end are the same. -/
theorem C91_swap (m m' : Machine) (hb : SameBuild m m') (hm : HashOk m) (hm' : HashOk m') (ce : CommandExecutor)
    (hce : CommandExecutor.new = .ok ce) (s s' s0 t t' : Session) (pre post talk' : List (Str × Outcome Failure Str))
    (line line' : Str) (r r' : Outcome Failure Str)
    (hs : Undisturbed s) (hs' : Undisturbed s') (hk : KnowsAll s) (hk' : KnowsAll s') (ha : s.args = s'.args)
    (hv : ValidSettings s.args) (hx : ∀ x, sessionValue s x = sessionValue s' x)
    (h0 : Dialogue m ce s pre s0) (h : Dialogue m ce s0 ((line, r) :: (line', r') :: post) t)
    (hi : Independent s0.args.radix line line')
    (h' : Dialogue m' ce s' talk' t') (hl : talk'.map (·.1) = pre.map (·.1) ++ line' :: line :: post.map (·.1))
    (hc : ∀ l ∈ talk'.map (·.1), ¬ AboutDatabase l) :
    talk' = pre ++ (line', r') :: (line, r) :: post ∧ t.args = t'.args ∧ ∀ x, sessionValue t x = sessionValue t' x := by
  rw [new_eq_table hce] at h0 h h'
  obtain ⟨pre', rest', rfl, hp, hr⟩ := List.map_eq_append_iff.1 hl
  obtain ⟨s0', h0', h''⟩ := dialogue_split h'
  clear h'
  rename' h'' => h'
  obtain ⟨rfl, hal⟩ := dialogue_alike hb hm hm' h0 h0' ⟨hs, hs', hk, hk', ha, hx⟩ hv hp.symm fun l hl => hc l (by
    rw [← hp] at hl
    rw [List.map_append]; exact List.mem_append_left _ hl)
  have hv0 := dialogue_valid h0 hv
  have hc' : ∀ l ∈ rest'.map (·.1), ¬ AboutDatabase l := fun l hl => hc l (by rw [List.map_append]; exact List.mem_append_right _ hl)
  clear hl hc
  obtain ⟨order, rfl⟩ : ∃ order, m' = { m with hashOrder := order } := by
    obtain ⟨a, b, c⟩ := m
    obtain ⟨a', b', c'⟩ := m'
    obtain ⟨h1, h2⟩ := hb
    simp only at h1 h2
    subst h1 h2
    exact ⟨c', rfl⟩
  cases h' with
  | done => simp at hr
  | @line _ g1 l1 q1 u1 rest' _ k1 e1 h' =>
  cases h' with
  | done => simp at hr
  | @line _ g2 l2 q2 u2 rest' _ k2 e2 h' =>
  simp only [List.map_cons, List.cons.injEq] at hr
  obtain ⟨rfl, rfl, hr⟩ := hr
  cases h with
  | @line _ f1 _ _ w1 _ _ j1 d1 h =>
  cases h with
  | @line _ f2 _ _ w2 _ _ j2 d2 h =>
  have hval : sessionValue s0 = sessionValue s0' := funext hal.values
  obtain ⟨_, E1, A1, U1, K1, V1⟩ := calculate_known (m := m) (ce := table) hal.left hal.knows hv0 hi.plain j1
  rw [d1] at E1
  obtain ⟨R1, rfl⟩ := Prod.mk.inj E1
  obtain ⟨_, E2, A2, U2, K2, V2⟩ := calculate_known (m := m) (ce := table) U1 K1 (A1 ▸ hv0) hi.plain' j2
  rw [d2] at E2
  obtain ⟨R2, rfl⟩ := Prod.mk.inj E2
  obtain ⟨_, E3, A3, U3, K3, V3⟩ := calculate_known (m := { m with hashOrder := order }) (ce := table) hal.right hal.knows'
    (hal.args ▸ hv0) hi.plain' k1
  rw [e1] at E3
  obtain ⟨R3, rfl⟩ := Prod.mk.inj E3
  obtain ⟨_, E4, A4, U4, K4, V4⟩ := calculate_known (m := { m with hashOrder := order }) (ce := table) U3 K3
    (A3 ▸ hal.args ▸ hv0) hi.plain k2
  rw [e2] at E4
  obtain ⟨R4, rfl⟩ := Prod.mk.inj E4
  have heff : ∀ ρ l, pureEffect { m with hashOrder := order } s0.args ρ l = pureEffect m s0.args ρ l := by
    intro ρ l; unfold pureEffect; simp only [pure_order]
  have h2 := hv0.radix.1
  have h16 := hv0.radix.2
  have hq1 : q1 = r' := by
    rw [R3, R2, ← hal.args, pureAnswer_order, V1, A1, ← hval]
    exact (pureAnswer_after m s0.args h2 h16 hi.apart _).symm
  have hq2 : q2 = r := by
    rw [R4, R1, A3, ← hal.args, pureAnswer_order, V3, ← hal.args, ← hval, heff]
    exact pureAnswer_after m s0.args h2 h16 hi.apart' _
  have hal2 : Alike w2 u2 := ⟨U2, U4, K2, K4, by rw [A2, A1, A4, A3, hal.args], fun x => by
    rw [V2, V1, A1, V4, V3, A3, ← hal.args, ← hval, heff, heff, pureEffect_swap m s0.args h2 h16 hi]⟩
  have hv2 : ValidSettings w2.args := by rw [A2, A1]; exact hv0
  obtain ⟨rfl, hal3⟩ := dialogue_alike (m := m) (m' := { m with hashOrder := order }) ⟨rfl, rfl⟩ hm hm' h h' hal2 hv2 hr.symm fun l hl => hc' l (by
    rw [List.map_cons, List.map_cons, hr]
    exact List.mem_cons_of_mem _ (List.mem_cons_of_mem _ hl))
  rw [hq1, hq2]
  exact ⟨rfl, hal3.args, hal3.values⟩

/-! ## C92 Lines that fail or only calculate leave no trace -/

/-- Left out of a dialogue, a line that got an error, or an expression whose value is not assigned, makes no difference
to any other answer, nor to the settings and values in the end. -/
theorem C92_no_trace (m m' : Machine) (hb : SameBuild m m') (hm : HashOk m) (hm' : HashOk m') (ce : CommandExecutor)
    (hce : CommandExecutor.new = .ok ce) (s s' s0 t t' : Session) (pre post talk' : List (Str × Outcome Failure Str))
    (line : Str) (r : Outcome Failure Str)
    (hs : Undisturbed s) (hs' : Undisturbed s') (hk : KnowsAll s) (hk' : KnowsAll s') (ha : s.args = s'.args)
    (hv : ValidSettings s.args) (hx : ∀ x, sessionValue s x = sessionValue s' x)
    (h0 : Dialogue m ce s pre s0) (h : Dialogue m ce s0 ((line, r) :: post) t)
    (hi : Traceless s0.args.radix line r) (hn : ¬ AboutDatabase line)
    (h' : Dialogue m' ce s' talk' t') (hl : talk'.map (·.1) = pre.map (·.1) ++ post.map (·.1))
    (hc : ∀ l ∈ talk'.map (·.1), ¬ AboutDatabase l) :
    talk' = pre ++ post ∧ t.args = t'.args ∧ ∀ x, sessionValue t x = sessionValue t' x := by
  rw [new_eq_table hce] at h0 h h'
  obtain ⟨pre', rest', rfl, hp, hr⟩ := List.map_eq_append_iff.1 hl
  obtain ⟨s0', h0', h''⟩ := dialogue_split h'
  clear h'
  rename' h'' => h'
  obtain ⟨rfl, hal⟩ := dialogue_alike hb hm hm' h0 h0' ⟨hs, hs', hk, hk', ha, hx⟩ hv hp.symm fun l hl => hc l (by
    rw [← hp] at hl
    rw [List.map_append]; exact List.mem_append_left _ hl)
  have hv0 := dialogue_valid h0 hv
  have hc' : ∀ l ∈ rest'.map (·.1), ¬ AboutDatabase l := fun l hl => hc l (by rw [List.map_append]; exact List.mem_append_right _ hl)
  clear hl hc
  cases h with
  | @line _ f1 _ _ w1 _ _ j1 d1 h =>
  have hal1 : Alike w1 s0 := by
    by_cases hcl : CommandLine line
    · rcases hi with ⟨e, rfl⟩ | ⟨h, _⟩
      · exact failed_command hal.left hal.knows hv0 hcl hn j1 d1
      · exact absurd hcl h
    · obtain ⟨_, E1, A1, U1, K1, V1⟩ := calculate_known (m := m) (ce := table) hal.left hal.knows hv0 hcl j1
      rw [d1] at E1
      obtain ⟨R1, rfl⟩ := Prod.mk.inj E1
      rw [R1] at hi
      exact ⟨U1, hal.left, K1, hal.knows, A1, fun x => by rw [V1, traceless_effect hv0 hi]⟩
  have hal2 : Alike w1 s0' := ⟨hal1.left, hal.right, hal1.knows, hal.knows', hal1.args.trans hal.args,
    fun x => (hal1.values x).trans (hal.values x)⟩
  obtain ⟨rfl, hal3⟩ := dialogue_alike hb hm hm' h h' hal2 (hal1.args ▸ hv0) hr.symm fun l hl => hc' l (by rw [hr]; exact hl)
  exact ⟨rfl, hal3.args, hal3.values⟩

/-! ## Examples -/

/-- The variables of a line whose words are known. -/
theorem names_of_tokens {radix : Nat} (h2 : 2 ≤ radix) (h16 : radix ≤ 16) {line : Str} {ts : List PTok}
    (ht : tokenize line radix = .ok (.tokens ts)) (x : Str) : OccursIn radix line x ↔ ∃ p, (⟨.variable x, p⟩ : PTok) ∈ ts := by
  obtain ⟨ha, hc, hl⟩ := (C01_tokens_iff radix h2 h16 line ts).1 ht
  constructor
  · rintro ⟨ts', p, hl', hp⟩
    have e := (C01_tokens_iff radix h2 h16 line ts').2 ⟨ha, hc, hl'⟩
    rw [ht] at e
    cases e
    exact ⟨p, hp⟩
  · rintro ⟨p, hp⟩; exact ⟨ts, p, hl, hp⟩

theorem assigns_of_tokens {radix : Nat} {line : Str} {ts : List PTok} (ht : tokenize line radix = .ok (.tokens ts)) (x : Str) :
    Assigns radix line x ↔ ∃ p q us, ts = ⟨.variable x, p⟩ :: ⟨.assign, q⟩ :: us := by
  unfold Assigns
  rw [ht]
  simp

/-- `$a = 2` and `$b = 3 * $x` are independent. -/
theorem exIndependent : Independent 10 "$a = 2".toList "$b = 3 * $x".toList := by
  have h1 : tokenize "$a = 2".toList 10 = .ok (.tokens [⟨.variable "$a".toList, ⟨0, 2⟩⟩, ⟨.assign, ⟨3, 1⟩⟩, ⟨.number 2, ⟨5, 1⟩⟩]) := by
    decide +kernel
  have h2 : tokenize "$b = 3 * $x".toList 10 = .ok (.tokens [⟨.variable "$b".toList, ⟨0, 2⟩⟩, ⟨.assign, ⟨3, 1⟩⟩, ⟨.number 3, ⟨5, 1⟩⟩,
      ⟨.binary .multiply, ⟨7, 1⟩⟩, ⟨.variable "$x".toList, ⟨9, 2⟩⟩]) := by
    decide +kernel
  refine ⟨((C01_tokens_iff 10 (by decide) (by decide) _ _).1 h1).2.1, ((C01_tokens_iff 10 (by decide) (by decide) _ _).1 h2).2.1, ?_, ?_⟩
  · intro x hx hn
    obtain ⟨p, q, us, e⟩ := (assigns_of_tokens h1 x).1 hx
    obtain ⟨p', hp⟩ := (names_of_tokens (by decide) (by decide) h2 x).1 hn
    have : x = "$a".toList := by simp at e; exact e.1.1.symm
    subst this
    simp at hp
  · intro x hx hn
    obtain ⟨p, q, us, e⟩ := (assigns_of_tokens h2 x).1 hx
    obtain ⟨p', hp⟩ := (names_of_tokens (by decide) (by decide) h1 x).1 hn
    have : x = "$b".toList := by simp at e; exact e.1.1.symm
    subst this
    simp at hp

/-- Both orders, with answers. -/
example :
    (exTalk exForward (exKnows none) ["$a = 2".toList, "$b = 3 * $x".toList, "$a + $b".toList]).1.map (·.2) =
      [.ok "2".toList, .ok "2".toList, .ok "4".toList] ∧
    (exTalk exForward (exKnows none) ["$b = 3 * $x".toList, "$a = 2".toList, "$a + $b".toList]).1.map (·.2) =
      [.ok "2".toList, .ok "2".toList, .ok "4".toList] := by
  decide +kernel

/-- Lines that leave no trace: a division by zero in an assignment, an expression, and a refused command. -/
example :
    (exTalk exForward (exKnows none) ["$a = 2".toList, "$a = 1/0".toList, "$a * 7".toList, "/radix 99".toList, "$a + 10".toList]).1.map (·.2) =
      [.ok "2".toList, .err (.input "Cannot divide by 0".toList (some ⟨6, 1⟩)), .ok "14".toList,
       .err (.input "Radix cannot be greater than 16".toList (some ⟨0, 2⟩)), .ok "12".toList] ∧
    (exTalk exForward (exKnows none) ["$a = 2".toList, "$a + 10".toList]).1.map (·.2) = [.ok "2".toList, .ok "12".toList] := by
  decide +kernel

example : Traceless 10 "$x * 7".toList (.ok "14".toList) := by
  have h1 : tokenize "$x * 7".toList 10 = .ok (.tokens [⟨.variable "$x".toList, ⟨0, 2⟩⟩, ⟨.binary .multiply, ⟨3, 1⟩⟩, ⟨.number 7, ⟨5, 1⟩⟩]) := by
    decide +kernel
  refine .inr ⟨((C01_tokens_iff 10 (by decide) (by decide) _ _).1 h1).2.1, fun x hx => ?_⟩
  obtain ⟨p, q, us, e⟩ := (assigns_of_tokens h1 x).1 hx
  simp at e

end Bcalc
