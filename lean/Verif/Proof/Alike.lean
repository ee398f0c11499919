import Verif.Proof.Pure
import Verif.Proof.Settings
import Verif.Spec.Laws

/-! # Sessions that differ in their databases only -/

namespace Bcalc
open Spec

theorem Spec.Undisturbed.ready {s : Session} (h : Undisturbed s) {hist : InputHistory} {line : Str}
    (hc : (hist.currentLine : Outcome RuntimeErr Str) = .ok line) : Ready { s with inputs := some hist } line :=
  ⟨h.vars, ⟨hist, rfl, hc⟩, h.reachable, h.quiet⟩

theorem undisturbed_env {s : Session} (hv : s.vars.isSome) (hq : EnvQuiet s.env) : Undisturbed s :=
  ⟨hv, fun sd hd => (hq sd hd).2, fun sd hd => (hq sd hd).1⟩

theorem allKnown_iff {s : Session} (h : Undisturbed s) : AllKnown s.env ↔ KnowsAll s := by
  constructor
  · intro hk sd x q hd hs hn
    have : sessionValue s x = some q := hk x q (.inr ⟨hn, h.vars, sd, hd, hs⟩)
    rw [hn] at this; cases this
  · rintro hk x q (hx | ⟨hn, _, sd, hd, hs⟩)
    · exact hx
    · exact absurd hn (hk sd x q hd hs)

/-- The line finds the values of the session and no others. -/
theorem knowsAll_seen {s : Session} (hk : KnowsAll s) (line : Str) : SeenBy s line (sessionValue s) := by
  intro x q
  constructor
  · exact .inl
  · rintro (h | ⟨hn, _, sd, hd, hs⟩)
    · exact h
    · exact absurd hn (hk sd x q hd (stored_apply (by rintro ⟨_, _, h⟩; cases h) hs))

/-- Sessions that will answer alike. -/
structure Alike (s s' : Session) : Prop where
  left : Undisturbed s
  right : Undisturbed s'
  knows : KnowsAll s
  knows' : KnowsAll s'
  args : s.args = s'.args
  values : ∀ x, sessionValue s x = sessionValue s' x

theorem knowsAll_values {s : Session} {ρ : Valuation} (hk : AllKnown s.env) (h : SeenIn s.env ρ) :
    sessionValue s = ρ := by
  funext x
  rw [sessionValue_eq]
  cases hρ : ρ x with
  | some q => exact hk x q ((h x q).1 hρ)
  | none =>
    cases hx : sessionValues s.env x with
    | none => rfl
    | some q => rw [(h x q).2 (.inl hx)] at hρ; cases hρ

/-- An expression or assignment (or nonsense). -/
theorem alike_line {m m' : Machine} (hb : m'.overflowChecks = m.overflowChecks ∧ m'.fuel = m.fuel) {ce : CommandExecutor}
    {line : Str} {s s' : Session} (h : Alike s s') (h2 : 2 ≤ s.args.radix) (h16 : s.args.radix ≤ 16)
    (hc : ¬ CommandLine line) {hist hist' : InputHistory}
    (hl : (hist.currentLine : Outcome RuntimeErr Str) = .ok line)
    (hl' : (hist'.currentLine : Outcome RuntimeErr Str) = .ok line) :
    (calculate m ce line { s with inputs := some hist }).1 = (calculate m' ce line { s' with inputs := some hist' }).1 ∧
    Alike (calculate m ce line { s with inputs := some hist }).2 (calculate m' ce line { s' with inputs := some hist' }).2 := by
  obtain ⟨order, rfl⟩ : ∃ order, m' = { m with hashOrder := order } := by
    obtain ⟨a, b, c⟩ := m
    obtain ⟨a', b', c'⟩ := m'
    obtain ⟨rfl, rfl⟩ := hb
    exact ⟨c', rfl⟩
  have hv : sessionValue s = sessionValue s' := funext h.values
  obtain ⟨t, e, ha, hvs, hq, hsee, hk⟩ := calculate_pure (m := m) (ce := ce) (h.left.ready hl)
    (knowsAll_seen (s := { s with inputs := some hist }) h.knows line) h2 h16 hc
  obtain ⟨t', e', ha', hvs', hq', hsee', hk'⟩ := calculate_pure (m := { m with hashOrder := order }) (ce := ce) (h.right.ready hl')
    (knowsAll_seen (s := { s' with inputs := some hist' }) h.knows' line) (h.args ▸ h2) (h.args ▸ h16) hc
  rw [e, e']
  have hkn := hk ((allKnown_iff (s := s) h.left).2 h.knows)
  have hkn' := hk' ((allKnown_iff (s := s') h.right).2 h.knows')
  have hu := undisturbed_env hvs hq
  have hu' := undisturbed_env hvs' hq'
  refine ⟨?_, hu, hu', (allKnown_iff hu).1 hkn, (allKnown_iff hu').1 hkn', ha.trans (h.args.trans ha'.symm), ?_⟩
  · show pureAnswer m s.args (sessionValue s) line = pureAnswer { m with hashOrder := order } s'.args (sessionValue s') line
    rw [hv, h.args]
    exact (pureAnswer_order m order _ _ _).symm
  · intro x
    rw [knowsAll_values hkn hsee, knowsAll_values hkn' hsee']
    show pureEffect m s.args (sessionValue s) line x = pureEffect { m with hashOrder := order } s'.args (sessionValue s') line x
    rw [hv, h.args]
    unfold pureEffect
    simp only [pure_order]

/-- Commands for settings depend on the settings and change nothing else. -/
theorem setting_alike {cmd : Cmd} (hs : Setting cmd) (m m' : Machine) (ce : CommandExecutor) (arguments : Positioned Str)
    {s s' : Session} (h : s.args = s'.args) :
    (cmd.execute m ce arguments s).1 = (cmd.execute m' ce arguments s').1 ∧
    ∃ a, (cmd.execute m ce arguments s).2 = { s with args := a } ∧
      (cmd.execute m' ce arguments s').2 = { s' with args := a } := by
  obtain ⟨a, v, i, d⟩ := s
  obtain ⟨a', v', i', d'⟩ := s'
  simp only at h
  subst h
  have hb : ∀ (get : Args → Bool) (set : Args → Bool → Args),
      (executeBool get set arguments ⟨a, v, i, d⟩).1 = (executeBool get set arguments ⟨a, v', i', d'⟩).1 ∧
      ∃ b, (executeBool get set arguments ⟨a, v, i, d⟩).2 = ⟨b, v, i, d⟩ ∧
        (executeBool get set arguments ⟨a, v', i', d'⟩).2 = ⟨b, v', i', d'⟩ := by
    intro get set
    unfold executeBool
    simp only
    repeat' split
    all_goals exact ⟨rfl, _, rfl, rfl⟩
  cases cmd <;> simp only [Setting] at hs
  · exact hb _ _
  · unfold Cmd.execute executeRadix
    simp only
    repeat' split
    all_goals exact ⟨rfl, _, rfl, rfl⟩
  · unfold Cmd.execute executeConvertToRadix
    simp only
    repeat' split
    all_goals exact ⟨rfl, _, rfl, rfl⟩
  · exact hb _ _
  · exact hb _ _
  · unfold Cmd.execute executePrecision
    simp only
    repeat' split
    all_goals exact ⟨rfl, _, rfl, rfl⟩

theorem allKnown_recorded {s s1 : Session} {line : Str} (hk : KnowsAll s) (hv : s1.vars = s.vars) (hvs : s.vars.isSome)
    (hs : ∀ x q, EnvSees s1.env x q ↔ Sees s line x q) : KnowsAll s1 := by
  intro sd x q hd hst hn
  have hn' : sessionValue s x = none := by unfold sessionValue at hn ⊢; rw [← hv]; exact hn
  rcases (hs x q).1 (.inr ⟨hn, by show s1.vars.isSome = true; rw [hv]; exact hvs, sd, hd, hst⟩) with h | ⟨_, _, sd', hd', hst'⟩
  · rw [hn'] at h; cases h
  · exact hk sd' x q hd' (stored_apply (by rintro ⟨_, _, h⟩; cases h) hst') hn'

/-- The state after recording the line. -/
theorem alike_recorded {s s' : Session} (h : Alike s s') {line : Str} {hist hist' : InputHistory}
    (hl : (hist.currentLine : Outcome RuntimeErr Str) = .ok line)
    (hl' : (hist'.currentLine : Outcome RuntimeErr Str) = .ok line) :
    ∃ id id' s1 s1', recordInput { s with inputs := some hist } = (.ok id, s1) ∧
      recordInput { s' with inputs := some hist' } = (.ok id', s1') ∧ s1.args = s.args ∧ Alike s1 s1' := by
  obtain ⟨id, s1, h1, hid, ha, hvars, hs⟩ := ready_records (h.left.ready hl)
  obtain ⟨id', s1', h1', hid', ha', hvars', hs'⟩ := ready_records (h.right.ready hl')
  refine ⟨id, id', s1, s1', h1, h1', ha, undisturbed_env ?_ hid.quiet, undisturbed_env ?_ hid'.quiet, ?_, ?_, ?_, ?_⟩
  · rw [hvars]; exact h.left.vars
  · rw [hvars']; exact h.right.vars
  · exact allKnown_recorded (s := { s with inputs := some hist }) h.knows hvars h.left.vars hs
  · exact allKnown_recorded (s := { s' with inputs := some hist' }) h.knows' hvars' h.right.vars hs'
  · exact ha.trans (h.args.trans ha'.symm)
  · intro x
    have := h.values x
    unfold sessionValue at this ⊢
    rw [hvars, hvars']
    exact this

theorem stored_purged {l : List Str} {db : Db} {x : Str} {q : Rat} : Stored (purged l db) x q ↔ x ∉ l ∧ Stored db x q := by
  unfold Stored purged
  constructor
  · rintro ⟨r, hr, hn, hv⟩
    obtain ⟨hr, hl⟩ := List.mem_filter.1 hr
    exact ⟨by simpa [hn] using hl, r, hr, hn, hv⟩
  · rintro ⟨hx, r, hr, hn, hv⟩
    exact ⟨r, List.mem_filter.2 ⟨hr, by simpa [hn] using hx⟩, hn, hv⟩

theorem reachable_purged : ∀ (l : List Str) {db : Db}, Reachable db → Reachable (purged l db)
  | [], db, h => by
    have : purged [] db = db := by unfold purged; simp
    rw [this]; exact h
  | x :: l, db, h => by
    rw [← purged_purged]
    refine reachable_purged l ?_
    have hf := fkOk_purged (l := [x]) (reachable_fk h)
    have hcl : (DbOp.clear x).apply db = purged [x] db := by
      have : clearVariableTx x db = .ok ((), purged [x] db) := by
        unfold clearVariableTx exec
        unfold purged at hf ⊢
        simp only [List.mem_singleton] at hf ⊢
        simp only [ne_eq, hf, if_true]
      unfold DbOp.apply
      simp only [Tx.commit, this]
    obtain ⟨ops, rfl⟩ := h
    exact ⟨ops ++ [.clear x], by rw [← hcl]; unfold after; rw [List.foldl_append]; rfl⟩

/-- Purging variables. -/
theorem purge_alike {m m' : Machine} (hm : HashOk m) (hm' : HashOk m') (ce : CommandExecutor) (arguments : Positioned Str)
    {s s' : Session} (h : Alike s s') :
    (Cmd.purgeVar.execute m ce arguments s).1 = (Cmd.purgeVar.execute m' ce arguments s').1 ∧
    Alike (Cmd.purgeVar.execute m ce arguments s).2 (Cmd.purgeVar.execute m' ce arguments s').2 := by
  unfold Cmd.execute executePurgeVar
  cases tokenizeVariableList arguments.value with
  | err e => exact ⟨rfl, h⟩
  | panic k => exact ⟨rfl, h⟩
  | diverge => exact ⟨rfl, h⟩
  | ok ts =>
    simp only
    have key : ∀ (m : Machine) (_ : HashOk m) (s : Session) (_ : Undisturbed s) (_ : KnowsAll s), ∃ vs vs' db',
        s.vars = some vs ∧ purgeLoop (m.hashOrder (ts.map (·.value))) vs s.db = (.ok (msg doneMsg), vs', db') ∧
        (∀ y, vs'.lookup y = if y ∈ ts.map (·.value) then none else vs.lookup y) ∧
        Undisturbed { s with vars := some vs', db := db' } ∧ KnowsAll { s with vars := some vs', db := db' } := by
      intro m hm s hu hk
      obtain ⟨vs, hv⟩ := Option.isSome_iff_exists.1 hu.vars
      cases hd : s.db with
      | none =>
        obtain ⟨vs', h1, h2⟩ := purgeLoop_none (m.hashOrder (ts.map (·.value))) vs
        refine ⟨vs, vs', none, hv, h1, ?_, ⟨rfl, by simp, by intro sd h; simp at h⟩, by intro sd x q h; simp at h⟩
        intro y; rw [h2]; simp only [hash_mem hm]
      | some sd =>
        obtain ⟨vs', c, h1, h2⟩ := purgeLoop_quiet (m.hashOrder (ts.map (·.value))) vs sd (hu.quiet sd hd)
          (reachable_fk (hu.reachable sd hd))
        refine ⟨vs, vs', _, hv, h1, ?_, ⟨rfl, ?_, ?_⟩, ?_⟩
        · intro y; rw [h2]; simp only [hash_mem hm]
        · intro sd' h'
          simp only [Option.some.injEq] at h'
          subst h'
          exact reachable_purged _ (hu.reachable sd hd)
        · intro sd' h'
          simp only [Option.some.injEq] at h'
          subst h'
          exact hu.quiet sd hd
        · intro sd' x q h' hst
          simp only [Option.some.injEq] at h'
          subst h'
          obtain ⟨hx, hst⟩ := stored_purged.1 hst
          have := hk sd x q hd hst
          unfold sessionValue at this ⊢
          rw [hv] at this
          simp only [h2, if_neg hx] at this ⊢
          exact this
    obtain ⟨vs, vs1, db1, hv, hp, hlook, hu, hk⟩ := key m hm s h.left h.knows
    obtain ⟨vs', vs1', db1', hv', hp', hlook', hu', hk'⟩ := key m' hm' s' h.right h.knows'
    rw [hv, hv']
    simp only
    rw [hp, hp']
    refine ⟨rfl, hu, hu', hk, hk', h.args, ?_⟩
    intro x
    have := h.values x
    unfold sessionValue at this ⊢
    rw [hv, hv'] at this
    simp only at this ⊢
    rw [hlook, hlook', this]

/-- Any line, except for commands that speak of the database. -/
theorem alike_any {m m' : Machine} (hb : m'.overflowChecks = m.overflowChecks ∧ m'.fuel = m.fuel) (hm : HashOk m)
    (hm' : HashOk m') {line : Str} {s s' : Session} (h : Alike s s') (h2 : 2 ≤ s.args.radix) (h16 : s.args.radix ≤ 16)
    (hc : ¬ AboutDatabase line) {hist hist' : InputHistory}
    (hl : (hist.currentLine : Outcome RuntimeErr Str) = .ok line)
    (hl' : (hist'.currentLine : Outcome RuntimeErr Str) = .ok line) :
    (calculate m table line { s with inputs := some hist }).1 = (calculate m' table line { s' with inputs := some hist' }).1 ∧
    Alike (calculate m table line { s with inputs := some hist }).2
      (calculate m' table line { s' with inputs := some hist' }).2 := by
  by_cases hcl : CommandLine line
  swap
  · exact alike_line hb h h2 h16 hcl hl hl'
  obtain ⟨id, id', s1, s1', h1, h1', ha, hal⟩ := alike_recorded h hl hl'
  rcases tokenize_spec h2 h16 line with ⟨i, hi, _, e⟩ | ⟨_, p, hp, hc', e⟩ | ⟨_, hn, _⟩
  · rw [calculate_eq, calculate_eq, andThen_of_ok h1, andThen_of_ok h1']
    unfold afterRecording
    rw [← hal.args, ha, e]
    exact ⟨rfl, hal⟩
  · cases p with
    | tokens ts =>
      unfold maybeExtractCommand at hp
      simp only at hp
      split at hp
      · split at hp <;> simp at hp
      · simp at hp
    | command name arguments =>
      obtain ⟨name, np⟩ := name
      obtain ⟨arguments, q⟩ := arguments
      cases hr : table.resolve name with
      | none =>
        rw [calculate_eq, calculate_eq, andThen_of_ok h1, andThen_of_ok h1']
        unfold afterRecording
        rw [← hal.args, ha, e]
        simp only [calculateCommand, CommandExecutor.executeCommand, hr, St.andThen]
        exact ⟨trivial, hal⟩
      | some cmd =>
        have hic : IsCommand line cmd arguments := (isCommand_iff s.args.radix).2 ⟨name, np, q, e, hr⟩
        have hne : cmd ≠ .reloadVar := fun h => hc ⟨cmd, _, hic, .inr (.inl h)⟩
        rw [calculate_command h1 e hr hne, calculate_command h1' (show tokenize line s'.args.radix = _ from h.args ▸ e) hr hne]
        simp only
        by_cases hst : Setting cmd
        · obtain ⟨h3, a, h4, h5⟩ := setting_alike hst m m' table ⟨arguments, q⟩ hal.args
          rw [h3, h4, h5]
          exact ⟨rfl, ⟨hal.left.vars, hal.left.reachable, hal.left.quiet⟩, ⟨hal.right.vars, hal.right.reachable, hal.right.quiet⟩,
            hal.knows, hal.knows', rfl, hal.values⟩
        · have : cmd = .purgeVar := by
            cases cmd with
            | purgeVar => rfl
            | help => exact absurd ⟨_, _, hic, .inl rfl⟩ hc
            | histcap => exact absurd ⟨_, _, hic, .inr (.inr rfl)⟩ hc
            | reloadVar => exact absurd rfl hne
            | _ => exact absurd trivial hst
          subst this
          obtain ⟨h3, h4⟩ := purge_alike hm hm' table ⟨arguments, q⟩ hal
          rw [h3]
          exact ⟨rfl, h4⟩
  · exact absurd hcl hn

end Bcalc
