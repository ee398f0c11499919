import Verif.Proof.Robust
import Verif.Props.Editor
import Verif.Props.Settings

/-! # C80: what can crash the program -/

namespace Bcalc
open Spec

/-- A line without modulus, power or square root, in particular any command and anything that is not understood,
comes to a result or an error; failures of the database and other sessions that use it make no difference. -/
theorem C80_ends (m : Machine) (ce : CommandExecutor) (line : Str) (s : Session) (h : Submitted s line)
    (hr : ¬ RiskyLine s.args.radix line) : Ends (calculate m ce line s).1 := by
  rcases calculate_end m ce h with ⟨h, _⟩ | ⟨n, env, hev, hs, he⟩
  · exact h
  · obtain ⟨ts, target, _, _, _, _, hc, hl, hi, _⟩ := hev
    have ha : Arithmetic n := input_arithmetic hi fun t ht hk => hr ⟨hc, ts, target, n, hl, hi, t, ht, hk⟩
    rcases he with ⟨h, _⟩ | ⟨k, _, h'⟩ | ⟨_, h'⟩
    · exact h
    · exact absurd h' (ends_ne_panic (ends_arithmetic m s.args h.settings.radix.1 ha hs) k)
    · exact absurd h' (ends_ne_diverge (ends_arithmetic m s.args h.settings.radix.1 ha hs))

/-- The program crashes on a line exactly if evaluation comes to a modulus by zero, or to a power or root that
cannot be computed. -/
theorem C80_crash_iff (m : Machine) (hf : 0 < m.fuel) (ce : CommandExecutor) (line : Str) (s : Session)
    (h : Submitted s line) :
    (∃ k, (calculate m ce line s).1 = .panic k) ↔
      ∃ n env, Evaluating m line s n env ∧
        ∃ part env', Reaches m s.args n env part env' ∧ CrashPoint m s.args part env' := by
  rcases calculate_end m ce h with ⟨he, hno⟩ | ⟨n, env, hev, hs, he⟩
  · constructor
    · rintro ⟨k, hk⟩; exact absurd hk (ends_ne_panic he k)
    · rintro ⟨n, env, hev, _⟩; exact absurd hev (hno n env)
  · have hiff := C27_crashes_iff m hf s.args h.settings.radix.1 n env (safe_varsOk hs)
    constructor
    · rintro ⟨k, hk⟩
      refine ⟨n, env, hev, hiff.1 ?_⟩
      rcases he with ⟨h, _⟩ | ⟨k', _, h⟩ | ⟨h, _⟩
      · exact absurd hk (ends_ne_panic h k)
      · exact ⟨k', h⟩
      · rw [hk] at h; cases h
    · rintro ⟨n', env', hev', hcr⟩
      obtain ⟨rfl, rfl⟩ := evaluating_unique h hev hev'
      obtain ⟨k, hk⟩ := hiff.2 hcr
      rcases he with ⟨_, h⟩ | ⟨k', h, _⟩ | ⟨_, h⟩
      · exact absurd hk (ends_ne_panic h k)
      · exact ⟨k', h⟩
      · rw [hk] at h; cases h

/-- No line makes the program go on for ever. -/
theorem C80_terminates (checks : Bool) (order : List Str → List Str) (ce : CommandExecutor) (line : Str) (s : Session)
    (h : Submitted s line) : ∃ F, ∀ m : Machine, m.overflowChecks = checks → m.hashOrder = order → F ≤ m.fuel →
      (calculate m ce line s).1 ≠ .diverge := by
  by_cases hex : ∃ n env, Evaluating ⟨checks, 0, order⟩ line s n env
  · obtain ⟨n, env, hev⟩ := hex
    obtain ⟨F, r, hne, hr⟩ := C26_expression_terminates checks s.args h.settings.radix.1 n env
    refine ⟨F, ?_⟩
    rintro ⟨c, f, o⟩ rfl rfl hf hd
    rcases calculate_end ⟨c, f, o⟩ ce h with ⟨he, _⟩ | ⟨n', env', hev', _, he⟩
    · exact ends_ne_diverge he hd
    · obtain ⟨rfl, rfl⟩ := evaluating_unique h hev hev'
      rcases he with ⟨he, _⟩ | ⟨k, he, _⟩ | ⟨_, he⟩
      · exact ends_ne_diverge he hd
      · rw [hd] at he; cases he
      · rw [hr ⟨c, f, o⟩ rfl hf] at he
        exact hne he
  · refine ⟨0, ?_⟩
    rintro ⟨c, f, o⟩ rfl rfl _ hd
    rcases calculate_end ⟨c, f, o⟩ ce h with ⟨he, _⟩ | ⟨n', env', hev', _, he⟩
    · exact ends_ne_diverge he hd
    · exact hex ⟨n', env', hev'⟩

/-! ### Where nothing fails -/

/-- On the command line there is nothing to fail before the evaluation. -/
theorem C80_evaluating_one_shot (m : Machine) (args : Args) (line : Str) (n : Node) (env : Env) :
    Evaluating m line ⟨args, none, none, none⟩ n env ↔
      env = ⟨none, none⟩ ∧ ∃ ts target, Ascii line ∧ ¬ CommandLine line ∧ Lexes args.radix 0 line ts ∧
        Input ts target n := by
  have hrec : recordInput ⟨args, none, none, none⟩ = (.ok none, ⟨args, none, none, none⟩) := rfl
  constructor
  · rintro ⟨ts, target, id, s1, s2, h1, h2, h3, h4, h5, h6, rfl⟩
    rw [hrec] at h5
    cases h5
    cases h6
    exact ⟨rfl, ts, target, h1, h2, h3, h4⟩
  · rintro ⟨rfl, ts, target, h1, h2, h3, h4⟩
    exact ⟨ts, target, none, _, _, h1, h2, h3, h4, hrec, rfl, rfl⟩

/-- A single input on the command line crashes the program exactly if its evaluation, in which no variable has a
value, comes to a point where it must. -/
theorem C80_one_shot (m : Machine) (hf : 0 < m.fuel) (args : Args) (hv : ValidSettings args) (line : Str) :
    (∃ k, oneShot m args line = .panic k) ↔
      ∃ ts target n, Ascii line ∧ ¬ CommandLine line ∧ Lexes args.radix 0 line ts ∧ Input ts target n ∧
        ∃ part env', Reaches m args n ⟨none, none⟩ part env' ∧ CrashPoint m args part env' := by
  have hsub : Submitted ⟨args, none, none, none⟩ line :=
    ⟨hv, (fun sd h => by cases h), (fun sd h => by cases h)⟩
  have hone : (∃ k, oneShot m args line = .panic k) ↔
      ∃ k, (calculate m table line ⟨args, none, none, none⟩).1 = .panic k := by
    unfold oneShot
    rw [new_table]
    simp only
    rcases calculate m table line ⟨args, none, none, none⟩ with ⟨r, s'⟩
    rcases r with a | e | k | _
    · simp [shown]
    · cases e <;> simp [shown]
    · simp [shown]
    · simp [shown]
  rw [hone, C80_crash_iff m hf table line _ hsub]
  constructor
  · rintro ⟨n, env, hev, hc⟩
    obtain ⟨rfl, ts, target, h1, h2, h3, h4⟩ := (C80_evaluating_one_shot m args line n env).1 hev
    exact ⟨ts, target, n, h1, h2, h3, h4, hc⟩
  · rintro ⟨ts, target, n, h1, h2, h3, h4, hc⟩
    exact ⟨n, _, (C80_evaluating_one_shot m args line n _).2 ⟨rfl, ts, target, h1, h2, h3, h4⟩, hc⟩

/-- In a session nobody disturbs every expression gets as far as evaluation, and sees the variables of the session
and of the database. -/
theorem C80_evaluating_ready (m : Machine) (line : Str) (s : Session) (h : Ready s line) (hc : ¬ CommandLine line)
    (ha : Ascii line) {ts : List PTok} {target : Option (Positioned Str)} {n : Node}
    (hl : Lexes s.args.radix 0 line ts) (hi : Input ts target n) :
    ∃ env, Evaluating m line s n env ∧ ∀ x q, EnvSees env x q ↔ Sees s line x q := by
  obtain ⟨id, s1, hrec, hid, hargs, hvars, hsees⟩ := ready_records h
  obtain ⟨s2, h2, _, _, _, hsees2⟩ := touchVars_seen hid (m.hashOrder (variableNames ts))
  refine ⟨_, ⟨ts, target, id, s1, s2, ha, hc, hl, hi, hrec, ?_, rfl⟩, fun x q => (hsees2 x q).trans (hsees x q)⟩
  rw [← h2]
  cases s1.vars <;> rfl

/-! ### Whole sessions -/

theorem underway_inv {m : Machine} {ce : CommandExecutor} (hce : CommandExecutor.new = .ok ce) {e : Editor}
    (h : Underway m ce e) : Awaits m ce e ∧ ValidSettings e.args ∧ Safe e.db := by
  induction h with
  | @start args db t d e hv hr hst =>
    refine ⟨.start hst, ?_⟩
    unfold Editor.start at hst
    rw [draw_ok hst]
    refine ⟨hv, ?_⟩
    simp only
    split
    · intro sd h; cases h
    · exact hr
  | @event e e' ev t out _ hst hq ih =>
    obtain ⟨ha, hv, hs⟩ := ih
    refine ⟨.event ha hst hq, C62_interactive m ce hce e e' ha (.event .now hst) hv, ?_⟩
    obtain ⟨⟨line, ho⟩, hc⟩ := ha.ok
    cases hen : isEnter ev with
    | true =>
      obtain ⟨mods, rfl⟩ := isEnter_iff hen
      obtain ⟨d, d', sh, r, _, _, hcalc, _⟩ := (step_enter_ok ho hst).out
      have := calculate_db m ce line e.session
      rw [hcalc] at this
      exact hs.rel this
    | false =>
      obtain ⟨_, a, e1, h1, _, ⟨off, rfl⟩, _⟩ := step_other ho hc hen hst
      simp only
      rcases handleEvent_db h1 with hd | ⟨sd, hd, hd'⟩
      · rw [hd]; exact hs
      · rw [hd']
        intro sd' he
        cases he
        have hr := hs sd hd
        unfold SavedData.getPrevInputHistory
        split
        · exact hr
        · have hev : Reachable (sd.run (selectInputAndPrev ‹Int›)).2.db := by
            have hseen : Reachable sd.seen := hr.evolves (seen_evolves (fun _ => False) sd)
            rcases run_cases sd (selectInputAndPrev ‹Int›) with ⟨_, hx⟩ | ⟨_, hx⟩
            · rw [hx]; exact hseen
            · rw [hx]; exact hseen
          split <;> rename_i hx <;> rw [hx] at hev <;> exact hev

theorem underway_submitted {m : Machine} {ce : CommandExecutor} (hce : CommandExecutor.new = .ok ce) {e : Editor}
    (h : Underway m ce e) {line : Str} (hl : Shows e line) : Submitted e.session line := by
  obtain ⟨_, hv, hs⟩ := underway_inv hce h
  exact ⟨hv, hs, fun inp hi => by cases hi; exact hl⟩

/-- In a session, an event crashes the program only if it is Enter on a line with a modulus, power or square root, or
if the window is too narrow, or if the text would go past row 65535. -/
theorem C80_step (m : Machine) (ce : CommandExecutor) (hce : CommandExecutor.new = .ok ce) (e : Editor)
    (h : Underway m ce e) (ev : Event) (t : TermInfo) (ht : t.startRow < 65536) (k : PanicKind)
    (hp : step m ce e ev t = .panic k) :
    (∃ mods line, ev = .key .enter mods ∧ Shows e line ∧ RiskyLine e.args.radix line) ∨
    (k = .divisionByZero ∧ (e.cols = 2 ∨ ev = .resize 2 ∨ t.cols = 2)) ∨
    (k = .arithmetic ∧ m.overflowChecks = true ∧ ∃ a e' line, handleEvent e ev = .ok (a, e') ∧
      Shows e' line ∧ 65536 ≤ line.length + e'.startRow) := by
  rcases C53_panics m ce e (underway_inv hce h).1 ev t ht k hp with ⟨mods, line, he, hs, hk⟩ | hk
  · refine .inl ⟨mods, line, he, hs, ?_⟩
    by_contra hn
    exact ends_ne_panic (C80_ends m ce line e.session (underway_submitted hce h hs) hn) k hk
  · exact .inr hk

/-- In a window of a usual size the program carries out every event, but for Enter on a line with a modulus, power or
square root, and for Up when the database fails. -/
theorem C80_usable (m : Machine) (ce : CommandExecutor) (hce : CommandExecutor.new = .ok ce) (e : Editor)
    (h : Underway m ce e) (ev : Event) (t : TermInfo) (h5 : 5 ≤ e.cols ∧ e.cols < 65536)
    (h6 : 5 ≤ t.cols ∧ t.cols < 65536) (h7 : t.startRow < 65536)
    (hrs : ∀ w, ev = .resize w → 5 ≤ w ∧ w < 65536) (hpaste : ev ≠ .paste)
    (hrow : ∀ a e' line, handleEvent e ev = .ok (a, e') → Shows e' line → line.length + e.startRow < 65536) :
    (∃ out e', step m ce e ev t = .ok (out, e')) ∨
    (∃ mods err, ev = .key .up mods ∧ step m ce e ev t = .err (.db err)) ∨
    (∃ mods line, ev = .key .enter mods ∧ Shows e line ∧ RiskyLine e.args.radix line) := by
  rcases C53_usable m ce e (underway_inv hce h).1 ev t h5 h6 h7 hrs hpaste hrow with hk | hk | ⟨mods, line, he, hs, hk⟩
  · exact .inl hk
  · exact .inr (.inl hk)
  · refine .inr (.inr ⟨mods, line, he, hs, ?_⟩)
    by_contra hn
    have := C80_ends m ce line e.session (underway_submitted hce h hs) hn
    rcases hk with ⟨k, hk⟩ | hk
    · exact ends_ne_panic this k hk
    · exact ends_ne_diverge this hk

/-! ### Cases -/

/-- How to see that a line has no modulus, power or square root. -/
theorem riskyLine_not {radix : Nat} (h2 : 2 ≤ radix) (hr : radix ≤ 16) {line : Str} {ts : List PTok}
    (ht : tokenize line radix = .ok (.tokens ts))
    (hn : ts.all (fun t => decide (t.value ≠ .binary .modulus ∧ t.value ≠ .binary .exponent ∧
      t.value ≠ .unary .squareRoot)) = true) : ¬ RiskyLine radix line := by
  rintro ⟨hc, ts', target, n, hl, _, t, htm, hk⟩
  have ha := ((C01_tokens_iff radix h2 hr line ts).1 ht).1
  have := (C01_tokens_iff radix h2 hr line ts').2 ⟨ha, hc, hl⟩
  rw [ht] at this
  cases this
  have := of_decide_eq_true (List.all_eq_true.1 hn t htm)
  rcases hk with hk | hk | hk
  · exact this.1 hk
  · exact this.2.1 hk
  · exact this.2.2 hk

/-- A line typed in a session with a database, in which the next operation fails and another session has just
removed `$x`. -/
def exTroubled (line : String) : Session :=
  { exTyped line with db := some ⟨exDb3, some 3, [⟨[.clear "$x".toList], true⟩], [exDb3]⟩ }

theorem exTroubled_submitted (line : String) : Submitted (exTroubled line) line.toList :=
  ⟨exDefault_valid, (fun sd h => by cases h; exact ⟨_, rfl⟩), (fun h hi => by cases hi; rfl)⟩

example : Submitted (exTroubled "1/0 + $x") "1/0 + $x".toList ∧
    ¬ RiskyLine (exTroubled "1/0 + $x").args.radix "1/0 + $x".toList :=
  ⟨exTroubled_submitted _, riskyLine_not (by decide) (by decide)
    (ts := (match tokenize "1/0 + $x".toList 10 with | .ok (.tokens ts) => ts | _ => []))
    (by decide +kernel) (by decide +kernel)⟩

/-- A crash: both sides of `C80_one_shot` hold of it. -/
example : ∃ ts target n, Ascii "5 % (2 - 2)".toList ∧ ¬ CommandLine "5 % (2 - 2)".toList ∧
    Lexes 10 0 "5 % (2 - 2)".toList ts ∧ Input ts target n ∧
    ∃ part env', Reaches (exMachine true) .default n ⟨none, none⟩ part env' ∧
      CrashPoint (exMachine true) .default part env' :=
  (C80_one_shot (exMachine true) (by decide) .default exDefault_valid _).1 ⟨_, C27_violation_modulus⟩

theorem underway_run {m : Machine} {ce : CommandExecutor} : ∀ (evs : List (Event × TermInfo)) {e e' : Editor}
    {outs : List StepOut}, Underway m ce e → runEvents m ce e evs = .ok (outs, e') →
    outs.all (fun o => !o.quit) = true → Underway m ce e' := by
  intro evs
  induction evs with
  | nil =>
    intro e e' outs h hr _
    unfold runEvents at hr
    cases hr
    exact h
  | cons ev evs ih =>
    intro e e' outs h hr hq
    obtain ⟨ev, t⟩ := ev
    unfold runEvents at hr
    obtain ⟨⟨out, e1⟩, h1, hr⟩ := outcome_bind_ok hr
    simp only at hr
    split at hr
    · rename_i hqt
      cases hr
      simp [hqt] at hq
    · rename_i hqt
      obtain ⟨⟨outs', e2⟩, h2, hr⟩ := outcome_bind_ok hr
      simp only [Outcome.ok.injEq, Prod.mk.injEq] at hr
      obtain ⟨rfl, rfl⟩ := hr
      simp only [List.all_cons, Bool.and_eq_true] at hq
      exact ih (.event h h1 (by simpa using hqt)) h2 hq.2

theorem exAfter_underway {db : Option SavedData} {cols : Nat} {wrap : Bool} {events : List Event}
    (hr : ∀ sd, db = some sd → Reachable sd.db)
    (h : exFine cols wrap events db = true) : Underway (exMachine true) table (exAfter cols wrap events db) := by
  unfold exFine at h
  unfold exAfter
  cases hx : exRun cols wrap events db with
  | ok r =>
    obtain ⟨outs, e⟩ := r
    rw [hx] at h
    unfold exRun at hx
    obtain ⟨⟨d, e0⟩, h0, hx⟩ := outcome_bind_ok hx
    exact underway_run _ (.start (args := { Args.default with alternateScreen := wrap }) ⟨exDefault_valid.radix, exDefault_valid.output, exDefault_valid.precision⟩ hr h0) hx h
  | err e => rw [hx] at h; cases h
  | panic k => rw [hx] at h; cases h
  | diverge => rw [hx] at h; cases h

example : Underway (exMachine true) table exWithDb ∧ CommandExecutor.new = .ok table ∧
    (5 ≤ exWithDb.cols ∧ exWithDb.cols < 65536) ∧ ∃ line, Shows exWithDb line ∧ ¬ RiskyLine exWithDb.args.radix line := by
  refine ⟨exAfter_underway (fun sd h => by cases h; exact ⟨_, rfl⟩) (by decide +kernel), new_table, by decide +kernel, ?_⟩
  have hr : exWithDb.args.radix = 10 := by decide +kernel
  rw [hr]
  refine ⟨match (exWithDb.inputs.currentLine : Outcome RuntimeErr Str) with | .ok l => l | _ => [], ?_,
    riskyLine_not (by decide) (by decide)
      (ts := (match tokenize (match (exWithDb.inputs.currentLine : Outcome RuntimeErr Str) with | .ok l => l | _ => []) 10 with | .ok (.tokens ts) => ts | _ => []))
      (by decide +kernel) (by decide +kernel)⟩
  unfold Shows
  decide +kernel

/-- Both sides of `C80_step` for a crash. -/
example : Underway (exMachine true) table (exAfter 80 false (typed "5 % (2 - 2)")) ∧
    step (exMachine true) table (exAfter 80 false (typed "5 % (2 - 2)")) (.key .enter .none) ⟨0, 0, 80⟩ =
      .panic .divisionByZero :=
  ⟨exAfter_underway (fun sd h => by cases h) (by decide +kernel), by decide +kernel⟩

end Bcalc
