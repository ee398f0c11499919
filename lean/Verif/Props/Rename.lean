import Verif.Proof.Rename
import Verif.Props.Laws
import Verif.Props.Independent

/-! # C105: only the words of a line matter, and names are only names -/

namespace Bcalc
open Spec

theorem sameBuild_order {m m' : Machine} (h : SameBuild m m') : ∃ order, m' = { m with hashOrder := order } := by
  obtain ⟨a, b, c⟩ := m
  obtain ⟨a', b', c'⟩ := m'
  obtain ⟨h1, h2⟩ := h
  simp only at h1 h2
  subst h1 h2
  exact ⟨c', rfl⟩

/-- Two lines of the same words, up to the names of variables, in sessions that have the same settings and find the same
values under these names: the replies are the same, up to these names and the places in the lines. -/
theorem C105_line (m m' : Machine) (hb : SameBuild m m') (ce ce' : CommandExecutor) (σ : Str → Str) (hσ : Renaming σ)
    (line line' : Str) (s s' : Session) (ρ ρ' : Valuation) (h : Ready s line) (h' : Ready s' line')
    (ha : s'.args = s.args) (hv : ValidSettings s.args) (hρ : SeenBy s line ρ) (hρ' : SeenBy s' line' ρ')
    (hr : ∀ x, VariableName x → ρ' (σ x) = ρ x) (ts ts' : List PTok) (hw : SameWords s.args.radix σ line line' ts ts') :
    SameReply σ ts ts' (calculate m ce line s).1 (calculate m' ce' line' s').1 := by
  obtain ⟨order, rfl⟩ := sameBuild_order hb
  obtain ⟨t, e, _⟩ := calculate_pure (m := m) (ce := ce) h hρ hv.radix.1 hv.radix.2 hw.plain
  obtain ⟨t', e', _⟩ := calculate_pure (m := { m with hashOrder := order }) (ce := ce') h' hρ' (ha ▸ hv.radix.1)
    (ha ▸ hv.radix.2) hw.plain'
  rw [e, e', ha]
  show SameReply σ ts ts' (pureAnswer m s.args ρ line) (pureAnswer { m with hashOrder := order } s.args ρ' line')
  rw [pureAnswer_order m order _ ρ' line']
  exact (pureAnswer_rel m s.args hv.radix.1 hv.radix.2 hσ hr hw).1

theorem counterparts_line {m m' : Machine} (hb : SameBuild m m') {ce ce' : CommandExecutor} {σ : Str → Str} (hσ : Renaming σ)
    {line line' : Str} {s s' : Session} (h : Counterparts σ s s') (hv : ValidSettings s.args) {ts ts' : List PTok}
    (hw : SameWords s.args.radix σ line line' ts ts') {hist hist' : InputHistory}
    (hl : (hist.currentLine : Outcome RuntimeErr Str) = .ok line)
    (hl' : (hist'.currentLine : Outcome RuntimeErr Str) = .ok line') :
    SameReply σ ts ts' (calculate m ce line { s with inputs := some hist }).1
      (calculate m' ce' line' { s' with inputs := some hist' }).1 ∧
    Counterparts σ (calculate m ce line { s with inputs := some hist }).2
      (calculate m' ce' line' { s' with inputs := some hist' }).2 ∧
    (calculate m ce line { s with inputs := some hist }).2.args = s.args := by
  obtain ⟨order, rfl⟩ := sameBuild_order hb
  obtain ⟨t, e, ha, hu, hk, hval⟩ := calculate_known (m := m) (ce := ce) h.left h.knows hv hw.plain hl
  obtain ⟨t', e', ha', hu', hk', hval'⟩ := calculate_known (m := { m with hashOrder := order }) (ce := ce') h.right h.knows'
    (h.args ▸ hv) hw.plain' hl'
  obtain ⟨h1, h2⟩ := pureAnswer_rel m s.args hv.radix.1 hv.radix.2 hσ h.values hw
  rw [e, e']
  refine ⟨?_, ⟨hu, hu', hk, hk', ?_, ?_⟩, ha⟩
  · rw [h.args]
    show SameReply σ ts ts' (pureAnswer m s.args _ line) (pureAnswer { m with hashOrder := order } s.args _ line')
    rw [pureAnswer_order m order _ _ line']
    exact h1
  · show t'.args = t.args
    rw [ha, ha', h.args]
  · intro x hx
    show sessionValue t' (σ x) = sessionValue t x
    rw [hval, hval', h.args]
    have : pureEffect { m with hashOrder := order } s.args (sessionValue s') line' =
        pureEffect m s.args (sessionValue s') line' := by
      unfold pureEffect
      simp only [pure_order]
    rw [this]
    exact h2 x hx

/-- Names are only names: if throughout a session the variables are given other names, the replies are the same, up to
these names and the places in the lines, and at the end the values are the same under these names. -/
theorem C105_dialogue (m m' : Machine) (hb : SameBuild m m') (ce ce' : CommandExecutor) (σ : Str → Str) (hσ : Renaming σ)
    (s s' t t' : Session) (h : Counterparts σ s s') (hv : ValidSettings s.args) (talk talk' : List (Str × Outcome Failure Str))
    (hd : Dialogue m ce s talk t) (hd' : Dialogue m' ce' s' talk' t')
    (hw : List.Forall₂ (fun p p' => ∃ ts ts', SameWords s.args.radix σ p.1 p'.1 ts ts') talk talk') :
    List.Forall₂ (fun p p' => ∃ ts ts', SameWords s.args.radix σ p.1 p'.1 ts ts' ∧ SameReply σ ts ts' p.2 p'.2) talk talk' ∧
    t.args = s.args ∧ Counterparts σ t t' := by
  induction hd generalizing s' talk' with
  | done =>
    cases hw
    cases hd' with
    | done => exact ⟨.nil, rfl, h⟩
  | @line s hist line r s1 talk t hcur he hd ih =>
    cases hw with
    | @cons _ p' _ talk' hp hw =>
      obtain ⟨line', r'⟩ := p'
      cases hd' with
      | @line _ hist' _ _ s1' _ _ hcur' he' hd' =>
        obtain ⟨ts, ts', hp⟩ := hp
        have hp0 : SameWords s.args.radix σ line line' ts ts' := hp
        obtain ⟨g1, g2, g3⟩ := counterparts_line hb (ce := ce) (ce' := ce') hσ h hv hp0 hcur hcur'
        rw [he, he'] at g1 g2
        rw [he] at g3
        replace g3 : s1.args = s.args := g3
        obtain ⟨k1, k2, k3⟩ := ih s1' g2 (g3 ▸ hv) talk' hd' (by rw [g3]; exact hw)
        rw [g3] at k1
        exact ⟨.cons ⟨ts, ts', hp0, g1⟩ k1, k2.trans g3, k3⟩

/-- The commands for settings work alike in both sessions. -/
theorem C105_setting (m m' : Machine) (ce : CommandExecutor) (hce : CommandExecutor.new = .ok ce) (σ : Str → Str) (s s' : Session)
    (h : Counterparts σ s s') (line : Str) (cmd : Cmd) (arguments : Str)
    (hc : IsCommand line cmd arguments) (hs : Setting cmd) (hist hist' : InputHistory)
    (hl : (hist.currentLine : Outcome RuntimeErr Str) = .ok line)
    (hl' : (hist'.currentLine : Outcome RuntimeErr Str) = .ok line) :
    (calculate m ce line { s with inputs := some hist }).1 = (calculate m' ce line { s' with inputs := some hist' }).1 ∧
    Counterparts σ (calculate m ce line { s with inputs := some hist }).2
      (calculate m' ce line { s' with inputs := some hist' }).2 := by
  rw [new_eq_table hce]
  obtain ⟨name, np, q, e, hr⟩ := (isCommand_iff s.args.radix).1 hc
  have hne : cmd ≠ .reloadVar := by rintro rfl; exact hs
  obtain ⟨id, s1, h1, hid, ha1, hvars, hsee⟩ := ready_records (h.left.ready hl)
  obtain ⟨id', s1', h1', hid', ha1', hvars', hsee'⟩ := ready_records (h.right.ready hl')
  have ha : s1.args = s1'.args := ha1.trans (h.args.symm.trans ha1'.symm)
  rw [calculate_command h1 e hr hne, calculate_command h1' (show tokenize line s'.args.radix = _ from h.args.symm ▸ e) hr hne]
  simp only
  obtain ⟨h3, a, h4, h5⟩ := setting_alike hs m m' table ⟨arguments, q⟩ ha
  rw [h3, h4, h5]
  have hk := allKnown_recorded (s := { s with inputs := some hist }) h.knows hvars h.left.vars hsee
  have hk' := allKnown_recorded (s := { s' with inputs := some hist' }) h.knows' hvars' h.right.vars hsee'
  have hu : Undisturbed s1 := undisturbed_env (by rw [hvars]; exact h.left.vars) hid.quiet
  have hu' : Undisturbed s1' := undisturbed_env (by rw [hvars']; exact h.right.vars) hid'.quiet
  refine ⟨rfl, ⟨hu.vars, hu.reachable, hu.quiet⟩, ⟨hu'.vars, hu'.reachable, hu'.quiet⟩, hk, hk', rfl, ?_⟩
  intro x hx
  have := h.values x hx
  unfold sessionValue at this ⊢
  simp only [hvars, hvars'] at this ⊢
  exact this

theorem map_renamed_id (ts : List PTok) : (ts.map fun t => renamedToken id t.value) = ts.map (·.value) := by
  refine List.map_congr_left fun t _ => ?_
  cases t.value <;> rfl

/-- Blanks between the words change no answer. -/
theorem C105_blanks (m m' : Machine) (hb : SameBuild m m') (ce ce' : CommandExecutor) (a blanks b : Str)
    (hbl : ∀ c ∈ blanks, Blank c) (s s' : Session) (ρ : Valuation) (h : Ready s (a ++ b)) (h' : Ready s' (a ++ blanks ++ b))
    (ha : s'.args = s.args) (hv : ValidSettings s.args) (hρ : SeenBy s (a ++ b) ρ) (hρ' : SeenBy s' (a ++ blanks ++ b) ρ)
    (hasc : Ascii (a ++ b)) (hc : ¬ CommandLine (a ++ b)) (ts : List PTok) (hl : Lexes s.args.radix 0 (a ++ b) ts)
    (hgap : ∀ t ∈ ts, t.position.start + t.position.width ≤ a.length ∨ a.length ≤ t.position.start) :
    SameReply id ts (ts.map (movedBy a.length blanks.length)) (calculate m ce (a ++ b) s).1
      (calculate m' ce' (a ++ blanks ++ b) s').1 := by
  have ht := (C01_tokens_iff _ hv.radix.1 hv.radix.2 (a ++ b) ts).2 ⟨hasc, hc, hl⟩
  have ht' := C06_insert_blanks _ hv.radix.1 hv.radix.2 a blanks b hbl ts ht hgap
  obtain ⟨hasc', hc', hl'⟩ := (C01_tokens_iff _ hv.radix.1 hv.radix.2 (a ++ blanks ++ b) _).1 ht'
  refine C105_line m m' hb ce ce' id (fun _ _ _ _ h => h) _ _ s s' ρ ρ h h' ha hv hρ hρ' (fun _ _ => rfl) _ _
    ⟨hasc, hasc', hc, hc', hl, hl', ?_⟩
  rw [map_renamed_id, List.map_map]
  refine List.map_congr_left fun t _ => ?_
  show (movedBy _ _ t).value = t.value
  unfold movedBy
  split <;> rfl

/-- Nor do underscores in numbers, nor the case of digits. -/
theorem C105_digits (m m' : Machine) (hb : SameBuild m m') (ce ce' : CommandExecutor) (pre w w' rest : Str) (v : Rat)
    (s s' : Session) (ρ : Valuation) (hn : Numeral s.args.radix w v) (hs : SameDigits w w') (hbd : Boundary rest)
    (hp : ∀ p c, pre = p ++ [c] → ¬ WordChar c) (h : Ready s (pre ++ w ++ rest)) (h' : Ready s' (pre ++ w' ++ rest))
    (ha : s'.args = s.args) (hv : ValidSettings s.args) (hρ : SeenBy s (pre ++ w ++ rest) ρ)
    (hρ' : SeenBy s' (pre ++ w' ++ rest) ρ) (hasc : Ascii (pre ++ w ++ rest)) (hc : ¬ CommandLine (pre ++ w ++ rest))
    (ts : List PTok) (hl : Lexes s.args.radix 0 (pre ++ w ++ rest) ts) :
    ∃ ts', Lexes s.args.radix 0 (pre ++ w' ++ rest) ts' ∧ SameReply id ts ts' (calculate m ce (pre ++ w ++ rest) s).1
      (calculate m' ce' (pre ++ w' ++ rest) s').1 := by
  have ht := (C01_tokens_iff _ hv.radix.1 hv.radix.2 _ ts).2 ⟨hasc, hc, hl⟩
  obtain ⟨ts', ht', hsame⟩ := C07_same_digits _ hv.radix.1 hv.radix.2 pre w w' rest v hn hs hbd hp ts ht
  obtain ⟨hasc', hc', hl'⟩ := (C01_tokens_iff _ hv.radix.1 hv.radix.2 _ ts').1 ht'
  refine ⟨ts', hl', C105_line m m' hb ce ce' id (fun _ _ _ _ h => h) _ _ s s' ρ ρ h h' ha hv hρ hρ' (fun _ _ => rfl) _ _
    ⟨hasc, hasc', hc, hc', hl, hl', ?_⟩⟩
  rw [map_renamed_id, hsame]

/-! ## Example: a session in other words -/

/-- `$x` becomes `$width`, and the other way round. -/
def exRename (x : Str) : Str :=
  if x = "$x".toList then "$width".toList else if x = "$width".toList then "$x".toList else x

theorem exRename_renaming : Renaming exRename := by
  intro x y _ _ h
  unfold exRename at h
  split at h <;> split at h <;> (try split at h) <;> (try split at h) <;> simp_all

/-- A session that knows `$width`. -/
def exOther : Session := ⟨.default, none, none, some ⟨[("$width".toList, 2 / 3)]⟩⟩

example : Counterparts exRename (exKnows none) exOther := by
  refine ⟨⟨rfl, fun _ h => by (cases h), fun _ h => by (cases h)⟩, ⟨rfl, fun _ h => by (cases h), fun _ h => by (cases h)⟩,
    fun _ _ _ h => by (cases h), fun _ _ _ h => by (cases h), rfl, ?_⟩
  intro x _
  have e1 : ∀ y, sessionValue (exKnows none) y = if y = "$x".toList then some (2 / 3) else none := by
    intro y
    unfold sessionValue exKnows VariableStore.lookup
    by_cases h : y = "$x".toList
    · subst h; rfl
    · rw [if_neg h]; simp only [assocGet, if_neg (Ne.symm h)]
  have e2 : ∀ y, sessionValue exOther y = if y = "$width".toList then some (2 / 3) else none := by
    intro y
    unfold sessionValue exOther VariableStore.lookup
    by_cases h : y = "$width".toList
    · subst h; rfl
    · rw [if_neg h]; simp only [assocGet, if_neg (Ne.symm h)]
  rw [e1, e2]
  unfold exRename
  by_cases h : x = "$x".toList
  · simp [h]
  · by_cases h' : x = "$width".toList
    · rw [if_neg h, if_pos h', if_neg h, if_neg (by decide)]
    · rw [if_neg h, if_neg h', if_neg h', if_neg h]

example : SameWords 10 exRename "3.5*$x+$y".toList "3.50 * $width + $y".toList
    [⟨.number (7 / 2), ⟨0, 3⟩⟩, ⟨.binary .multiply, ⟨3, 1⟩⟩, ⟨.variable "$x".toList, ⟨4, 2⟩⟩, ⟨.binary .add, ⟨6, 1⟩⟩, ⟨.variable "$y".toList, ⟨7, 2⟩⟩]
    [⟨.number (7 / 2), ⟨0, 4⟩⟩, ⟨.binary .multiply, ⟨5, 1⟩⟩, ⟨.variable "$width".toList, ⟨7, 6⟩⟩, ⟨.binary .add, ⟨14, 1⟩⟩, ⟨.variable "$y".toList, ⟨16, 2⟩⟩] := by
  obtain ⟨h1, h2, h3⟩ := (C01_tokens_iff 10 (by decide) (by decide) "3.5*$x+$y".toList _).1 (show _ = Outcome.ok (ParsedInput.tokens
    [⟨.number (7 / 2), ⟨0, 3⟩⟩, ⟨.binary .multiply, ⟨3, 1⟩⟩, ⟨.variable "$x".toList, ⟨4, 2⟩⟩, ⟨.binary .add, ⟨6, 1⟩⟩, ⟨.variable "$y".toList, ⟨7, 2⟩⟩])
    by decide +kernel)
  obtain ⟨h1', h2', h3'⟩ := (C01_tokens_iff 10 (by decide) (by decide) "3.50 * $width + $y".toList _).1 (show _ = Outcome.ok (ParsedInput.tokens
    [⟨.number (7 / 2), ⟨0, 4⟩⟩, ⟨.binary .multiply, ⟨5, 1⟩⟩, ⟨.variable "$width".toList, ⟨7, 6⟩⟩, ⟨.binary .add, ⟨14, 1⟩⟩, ⟨.variable "$y".toList, ⟨16, 2⟩⟩])
    by decide +kernel)
  exact ⟨h1, h1', h2, h2', h3, h3', by decide +kernel⟩

/-- The answers, and a refusal. -/
example :
    (exTalk exForward (exKnows none) ["3.5*$x".toList, "3.5*$x+$y".toList]).1.map (·.2) =
      [.ok "2.33333".toList, .err (.input "Unknown variable: $y".toList (some ⟨7, 2⟩))] ∧
    (exTalk exForward exOther ["3.50 * $width".toList, "3.50 * $width + $y".toList]).1.map (·.2) =
      [.ok "2.33333".toList, .err (.input "Unknown variable: $y".toList (some ⟨16, 2⟩))] := by
  decide +kernel

end Bcalc
