import Verif.Proof.Editor3
import Verif.Proof.Table
import Verif.Props.Database

/-! # C53-C58, C61: the line editor -/

namespace Bcalc
open Spec

/-! ## Examples of sessions -/

/-- A session in a terminal of the given width. -/
def exRun (cols : Nat) (wrap : Bool) (events : List Event) (db : Option SavedData := none) :
    Outcome RuntimeErr (List StepOut × Editor) :=
  Editor.start (exMachine true) { Args.default with alternateScreen := wrap } db ⟨0, 0, cols⟩ >>= fun (_, e) =>
  runEvents (exMachine true) table e (events.map (·, ⟨0, 0, cols⟩))

/-- Typing a text. -/
def typed (text : String) : List Event := text.toList.map fun c => .key (.char c) .none

theorem awaits_run {m : Machine} {ce : CommandExecutor} : ∀ (evs : List (Event × TermInfo)) {e e' : Editor}
    {outs : List StepOut}, Awaits m ce e → runEvents m ce e evs = .ok (outs, e') →
    outs.all (fun o => !o.quit) = true → Awaits m ce e' := by
  intro evs
  induction evs with
  | nil =>
    intro e e' outs h hr _
    unfold runEvents at hr
    cases hr
    exact h
  | cons ev evs ih =>
    intro e e' outs h hr hq
    obtain ⟨ev, t⟩ := ev
    unfold runEvents at hr
    obtain ⟨⟨out, e1⟩, h1, hr⟩ := outcome_bind_ok hr
    simp only at hr
    split at hr
    · rename_i hqt
      cases hr
      simp [hqt] at hq
    · rename_i hqt
      obtain ⟨⟨outs', e2⟩, h2, hr⟩ := outcome_bind_ok hr
      simp only [Outcome.ok.injEq, Prod.mk.injEq] at hr
      obtain ⟨rfl, rfl⟩ := hr
      simp only [List.all_cons, Bool.and_eq_true] at hq
      exact ih (.event h h1 (by simpa using hqt)) h2 hq.2

theorem exRun_awaits {db : Option SavedData} {cols : Nat} {wrap : Bool} {events : List Event} {outs : List StepOut} {e : Editor}
    (h : exRun cols wrap events db = .ok (outs, e)) (hq : outs.all (fun o => !o.quit) = true) :
    Awaits (exMachine true) table e := by
  unfold exRun at h
  obtain ⟨⟨d, e0⟩, h0, h⟩ := outcome_bind_ok h
  exact awaits_run _ (.start h0) h hq

/-- The state after the events. -/
def exAfter (cols : Nat) (wrap : Bool) (events : List Event) (db : Option SavedData := none) : Editor :=
  match exRun cols wrap events db with
  | .ok (_, e) => e
  | _ => ⟨.default, none, .new false, .new, 0, 0, 0, 0, 0, false⟩

/-- Whether the run is in order. -/
def exFine (cols : Nat) (wrap : Bool) (events : List Event) (db : Option SavedData := none) : Bool :=
  match exRun cols wrap events db with
  | .ok (outs, _) => outs.all fun o => !o.quit
  | _ => false

theorem exAfter_awaits {db : Option SavedData} {cols : Nat} {wrap : Bool} {events : List Event}
    (h : exFine cols wrap events db = true) : Awaits (exMachine true) table (exAfter cols wrap events db) := by
  unfold exFine at h
  unfold exAfter
  cases hr : exRun cols wrap events db with
  | ok r =>
    obtain ⟨outs, e⟩ := r
    rw [hr] at h
    exact exRun_awaits hr h
  | err e => rw [hr] at h; cases h
  | panic k => rw [hr] at h; cases h
  | diverge => rw [hr] at h; cases h

/-- Two lines entered, one recalled and changed. -/
def exKeys : List Event :=
  typed "1+2" ++ [.key .enter .none] ++ typed "(3)" ++ [.key .enter .none, .key .up .none, .key .up .none] ++
    typed "*4" ++ [.key .left .none]

example : Awaits (exMachine true) table (exAfter 80 false exKeys) ∧
    Shows (exAfter 80 false exKeys) "1+2*4".toList ∧ (exAfter 80 false exKeys).cursorPos = 4 ∧
    pastInputs (exAfter 80 false exKeys).inputs = ["(3)".toList, "1+2".toList] :=
  ⟨exAfter_awaits (by decide +kernel), by unfold Shows; decide +kernel, by decide +kernel, by decide +kernel⟩

/-! ## C53 History navigation never crashes -/

/-- There is always a line to show. -/
theorem C53_line (m : Machine) (ce : CommandExecutor) (e : Editor) (h : Awaits m ce e) :
    ∃ line, Shows e line := by
  obtain ⟨⟨line, ho⟩, _⟩ := h.ok
  exact ⟨line, ho.shows⟩

/-- No event makes the handling of the history panic or hang. -/
theorem C53_event (m : Machine) (ce : CommandExecutor) (e : Editor) (h : Awaits m ce e) (ev : Event) :
    (∃ err, handleEvent e ev = .err err) ∨ ∃ a e' line, handleEvent e ev = .ok (a, e') ∧ Shows e' line := by
  obtain ⟨⟨line, ho⟩, _⟩ := h.ok
  rcases handleEvent_inv ho ev with he | ⟨a, e', he, hn⟩
  · exact .inl he
  · obtain ⟨l, hl⟩ := hn.ok
    exact .inr ⟨a, e', l, he, hl.shows⟩

/-- Recording the line cannot fail but by a failure of the database. -/
theorem C53_record (e : Editor) (line : Str)
    (hs : Shows e line) :
    (recordInput e.session).1 = match e.db with
      | none => .ok none
      | some sd => match (sd.addToInputHistory line).1 with
        | .ok i => .ok (some i)
        | .err err => .err (.runtime (.db err))
        | .panic k => .panic k
        | .diverge => .diverge := by
  cases hd : e.db with
  | none =>
    unfold recordInput Editor.session InputHistory.inputFinished
    simp only
    unfold Shows at hs
    rw [hs, hd]
    rfl
  | some sd =>
    obtain ⟨sd1, _, _, h3⟩ := recordInput_cases (s := e.session) rfl hs hd
    exact h3

theorem draw_fails {m : Machine} {e : Editor} {line : Str} (ho : EditorOk e line) :
    (∃ d e', draw m e = .ok (d, e')) ∨ (∃ err, draw m e = .err err) ∨
    (draw m e = .panic .divisionByZero ∧ e.cols = 2) ∨
    (draw m e = .panic .arithmetic ∧ m.overflowChecks = true ∧ 65536 ≤ line.length + e.startRow) := by
  have hs : (e.inputs.currentLine : Outcome RuntimeErr Str) = .ok line := ho.shows
  unfold draw
  rw [hs]
  simp only [bind, Outcome.bind]
  split
  · rcases drawWrapped_fails (m := m) (e := e) (input := line) with ⟨d, hd⟩ | ⟨err, hd⟩ | ⟨hd, hc⟩ | ⟨hd, hc, hr⟩
    · rw [hd]; exact .inl ⟨_, _, rfl⟩
    · rw [hd]; exact .inr (.inl ⟨_, rfl⟩)
    · rw [hd]; exact .inr (.inr (.inl ⟨rfl, hc⟩))
    · rw [hd]
      have h1 := Nat.div_le_self e.cursorPos (e.cols - 2)
      have h2 := ho.cursor
      exact .inr (.inr (.inr ⟨rfl, hc, by omega⟩))
  · rcases drawScrolled_fails (e := e) ho.cursor with ⟨r, hd⟩ | ⟨err, hd⟩
    · rw [hd]; exact .inl ⟨_, _, rfl⟩
    · rw [hd]; exact .inr (.inl ⟨_, rfl⟩)

theorem finishLine_eq {m : Machine} {ce : CommandExecutor} {e : Editor} {line : Str} (hs : Shows e line) :
    (∃ out e', finishLine m ce e = .ok (out, e')) ∨
    (∃ k, finishLine m ce e = .panic k ∧ (calculate m ce line e.session).1 = .panic k) ∨
    (finishLine m ce e = .diverge ∧ (calculate m ce line e.session).1 = .diverge) := by
  unfold finishLine
  unfold Shows at hs
  rw [hs]
  simp only [bind, Outcome.bind]
  rcases hr : calculate m ce line e.session with ⟨r, s⟩
  cases r with
  | ok t => exact .inl ⟨_, _, rfl⟩
  | err f =>
    cases f with
    | input t p => exact .inl ⟨_, _, rfl⟩
    | runtime err => exact .inl ⟨_, _, rfl⟩
  | panic k => exact .inr (.inl ⟨k, rfl, rfl⟩)
  | diverge => exact .inr (.inr ⟨rfl, rfl⟩)

/-- The only panics there can be: the evaluation of the line that is entered panics; the terminal has
exactly 2 columns; the rows of the line do not fit in 16 bits. -/
theorem C53_panics (m : Machine) (ce : CommandExecutor) (e : Editor) (h : Awaits m ce e) (ev : Event)
    (t : TermInfo) (ht : t.startRow < 65536) (k : PanicKind) (hp : step m ce e ev t = .panic k) :
    (∃ mods line, ev = .key .enter mods ∧ Shows e line ∧ (calculate m ce line e.session).1 = .panic k) ∨
    (k = .divisionByZero ∧ (e.cols = 2 ∨ ev = .resize 2 ∨ t.cols = 2)) ∨
    (k = .arithmetic ∧ m.overflowChecks = true ∧ ∃ a e' line, handleEvent e ev = .ok (a, e') ∧
      Shows e' line ∧ 65536 ≤ line.length + e'.startRow) := by
  obtain ⟨⟨line, ho⟩, hc⟩ := h.ok
  unfold step at hp
  rcases handleEvent_inv ho ev with ⟨err, he⟩ | ⟨a, e1, he, hn⟩
  · rw [he] at hp; cases hp
  rw [he] at hp
  simp only [bind, Outcome.bind] at hp
  obtain ⟨line1, ho1⟩ := hn.ok
  cases a with
  | ignore => cases hp
  | quit => cases hp
  | redraw =>
    simp only at hp
    rcases draw_fails (m := m) ho1 with ⟨d, e2, hd⟩ | ⟨err, hd⟩ | ⟨hd, hcols⟩ | ⟨hd, hm, hr⟩
    · rw [hd] at hp
      simp only at hp
      split at hp
      · rename_i hcomp
        have hd' := draw_ok hd
        have hen : isEnter ev = true := by
          have := hn.complete
          rw [hd'] at hcomp
          simp only at hcomp
          rw [hcomp, hc] at this
          simpa using this.symm
        obtain ⟨mods, rfl⟩ := isEnter_iff hen
        have he1 : e1 = { e with inputComplete := true } := by cases he; rfl
        have hs2 : Shows e2 line := by rw [hd', he1]; exact ho.shows
        have hsess : e2.session = e.session := by rw [hd', he1]; rfl
        rcases finishLine_eq (m := m) (ce := ce) hs2 with ⟨out, e3, hf⟩ | ⟨k', hf, hk⟩ | ⟨hf, _⟩
        · rw [hf] at hp
          simp only at hp
          have hf' := finishLine_ok hs2 hf
          obtain ⟨r, s, vs, _, _, _, _, hdb, rfl⟩ := hf'
          have ho3 : EditorOk (Editor.newLine { e2 with
              args := s.args, db := s.db, inputs := e2.inputs.finished line, vars := vs } t) [] := by
            refine ⟨histOk_finished _ _, rfl, Nat.le_refl _, ?_⟩
            intro hx
            have : e.inputs.dbExhausted = false := by
              rw [hd', he1] at hx; exact hx
            have h3 := ho.db this
            unfold Editor.newLine
            simp only
            rw [hdb, hd', he1]
            exact h3
          rcases draw_fails (m := m) ho3 with ⟨d', e4, hd4⟩ | ⟨err, hd4⟩ | ⟨hd4, hcols⟩ | ⟨hd4, hm, hr⟩
          · rw [hd4] at hp; cases hp
          · rw [hd4] at hp; cases hp
          · rw [hd4] at hp; cases hp
            exact .inr (.inl ⟨rfl, .inr (.inr hcols)⟩)
          · unfold Editor.newLine at hr
            simp at hr
            omega
        · rw [hf] at hp
          cases hp
          rw [hsess] at hk
          exact .inl ⟨mods, line, rfl, ho.shows, hk⟩
        · rw [hf] at hp; cases hp
      · cases hp
    · rw [hd] at hp; cases hp
    · rw [hd] at hp; cases hp
      refine .inr (.inl ⟨rfl, ?_⟩)
      have hcols' : e1.cols = e.cols ∨ ev = .resize e1.cols := hn.cols
      rcases hcols' with h1 | h1
      · exact .inl (by rw [← h1]; exact hcols)
      · exact .inr (.inl (by rw [h1, hcols]))
    · rw [hd] at hp; cases hp
      exact .inr (.inr ⟨rfl, hm, _, e1, line1, he, ho1.shows, hr⟩)

/-- In a terminal of 2 columns, the wrapping view does panic. -/
theorem C53_violation : Editor.start (exMachine true) { Args.default with alternateScreen := true } none
    ⟨0, 0, 2⟩ = .panic .divisionByZero := by decide +kernel

theorem draw_wide {m : Machine} {e : Editor} {line : Str} (ho : EditorOk e line) (h5 : 5 ≤ e.cols)
    (h6 : e.cols < 65536) (hr : line.length + e.startRow < 65536) : ∃ d e', draw m e = .ok (d, e') := by
  have hs : (e.inputs.currentLine : Outcome RuntimeErr Str) = .ok line := ho.shows
  unfold draw
  rw [hs]
  simp only [bind, Outcome.bind]
  split
  · have h1 := Nat.div_le_self e.cursorPos (e.cols - 2)
    have h2 := ho.cursor
    obtain ⟨rest, hd, _⟩ := drawWrapped_ok (m := m) (input := line) (e := e) (by omega) h6 (by omega)
    rw [hd]; exact ⟨_, _, rfl⟩
  · obtain ⟨off, _, hd⟩ := drawScrolled_ok (input := line) h5 h6 ho.cursor
    rw [hd]; exact ⟨_, _, rfl⟩

/-- In a terminal of at least 5 columns every event but pasting is carried out, unless the database fails
to deliver an older input (Up), or the evaluation of an entered line panics or hangs. -/
theorem C53_usable (m : Machine) (ce : CommandExecutor) (e : Editor) (h : Awaits m ce e) (ev : Event)
    (t : TermInfo) (h5 : 5 ≤ e.cols ∧ e.cols < 65536) (h6 : 5 ≤ t.cols ∧ t.cols < 65536) (h7 : t.startRow < 65536)
    (hrs : ∀ w, ev = .resize w → 5 ≤ w ∧ w < 65536) (hpaste : ev ≠ .paste)
    (hrow : ∀ a e' line, handleEvent e ev = .ok (a, e') → Shows e' line → line.length + e.startRow < 65536) :
    (∃ out e', step m ce e ev t = .ok (out, e')) ∨
    (∃ mods err, ev = .key .up mods ∧ step m ce e ev t = .err (.db err)) ∨
    (∃ mods line, ev = .key .enter mods ∧ Shows e line ∧
      ((∃ k, (calculate m ce line e.session).1 = .panic k) ∨ (calculate m ce line e.session).1 = .diverge)) := by
  obtain ⟨⟨line, ho⟩, hc⟩ := h.ok
  unfold step
  rcases handleEvent_inv ho ev with ⟨err, he⟩ | ⟨a, e1, he, hn⟩
  · rw [he]
    obtain ⟨mods, derr, rfl, rfl⟩ := handleEvent_err ho he hpaste
    exact .inr (.inl ⟨mods, derr, rfl, rfl⟩)
  rw [he]
  simp only [bind, Outcome.bind]
  obtain ⟨line1, ho1⟩ := hn.ok
  cases a with
  | ignore => exact .inl ⟨_, _, rfl⟩
  | quit => exact .inl ⟨_, _, rfl⟩
  | redraw =>
    simp only
    have hcols : 5 ≤ e1.cols ∧ e1.cols < 65536 := by
      rcases hn.cols with h1 | h1
      · rw [h1]; exact h5
      · exact hrs _ h1
    obtain ⟨d, e2, hd⟩ := draw_wide (m := m) ho1 hcols.1 hcols.2 (by rw [hn.row]; exact hrow _ _ _ he ho1.shows)
    rw [hd]
    simp only
    split
    · rename_i hcomp
      have hd' := draw_ok hd
      have hen : isEnter ev = true := by
        have := hn.complete
        rw [hd'] at hcomp
        simp only at hcomp
        rw [hcomp, hc] at this
        simpa using this.symm
      obtain ⟨mods, rfl⟩ := isEnter_iff hen
      have he1 : e1 = { e with inputComplete := true } := by cases he; rfl
      have hs2 : Shows e2 line := by rw [hd', he1]; exact ho.shows
      have hsess : e2.session = e.session := by rw [hd', he1]; rfl
      rcases finishLine_eq (m := m) (ce := ce) hs2 with ⟨out, e3, hf⟩ | ⟨k', hf, hk⟩ | ⟨hf, hk⟩
      · rw [hf]
        simp only
        have hf' := finishLine_ok hs2 hf
        obtain ⟨r, s, vs, _, _, _, _, hdb, rfl⟩ := hf'
        have ho3 : EditorOk (Editor.newLine { e2 with
            args := s.args, db := s.db, inputs := e2.inputs.finished line, vars := vs } t) [] := by
          refine ⟨histOk_finished _ _, rfl, Nat.le_refl _, ?_⟩
          intro hx
          have : e.inputs.dbExhausted = false := by
            rw [hd', he1] at hx; exact hx
          have h3 := ho.db this
          unfold Editor.newLine
          simp only
          rw [hdb, hd', he1]
          exact h3
        obtain ⟨d', e4, hd4⟩ := draw_wide (m := m) ho3 h6.1 h6.2 (by change 0 + t.startRow < 65536; omega)
        rw [hd4]
        exact .inl ⟨_, _, rfl⟩
      · rw [hsess] at hk
        exact .inr (.inr ⟨mods, line, rfl, ho.shows, .inl ⟨k', hk⟩⟩)
      · rw [hsess] at hk
        exact .inr (.inr ⟨mods, line, rfl, ho.shows, .inr hk⟩)
    · exact .inl ⟨_, _, rfl⟩

/-! ## C54 Editing a recalled line does not change the history -/

/-- After one event the past inputs are as before, except that Up may have made one more old input known,
and Enter has added the line that was shown; after Enter all lines are unedited again, and the new line is
empty. -/
theorem C54_step (m : Machine) (ce : CommandExecutor) (e e' : Editor) (h : Awaits m ce e) (ev : Event)
    (t : TermInfo) (out : StepOut) (hstep : step m ce e ev t = .ok (out, e')) (line : Str) (hs : Shows e line) :
    (match ev with
     | .key .enter _ => pastInputs e'.inputs = line :: pastInputs e.inputs ∧ e'.inputs.index = 0 ∧
        ∀ i, lineAt e'.inputs i = if i = 0 then some [] else (pastInputs e'.inputs)[i - 1]?
     | .key .up _ => pastInputs e'.inputs = pastInputs e.inputs ∨
        ∃ older, pastInputs e'.inputs = pastInputs e.inputs ++ [older]
     | _ => pastInputs e'.inputs = pastInputs e.inputs) := by
  have ho := h.line hs
  have hc := h.ok.2
  cases hen : isEnter ev with
  | true =>
    obtain ⟨mods, rfl⟩ := isEnter_iff hen
    have hE := step_enter_ok ho hstep
    simp only
    rw [hE.inputs]
    exact ⟨finished_past _ _, rfl, finished_lineAt _ _⟩
  | false =>
    obtain ⟨_, a, e1, h1, hn, ⟨off, rfl⟩, _⟩ := step_other ho hc hen hstep
    by_cases hup : ∃ mods, ev = .key .up mods
    · obtain ⟨mods, rfl⟩ := hup
      simp only
      rcases up_cases ho h1 with ⟨_, l, he, _, _, _, hp⟩ | ⟨_, _, he, _⟩
      · rcases hp with ⟨_, hp, _⟩ | ⟨_, older, _, _, _, _, _, hp⟩
        · exact .inl hp
        · exact .inr ⟨older, hp⟩
      · left
        rw [he]
        rfl
    · have hp := hn.past fun mods hm => hup ⟨mods, hm⟩
      cases ev with
      | key code mods =>
        cases code with
        | enter => cases hen
        | up => exact absurd ⟨_, rfl⟩ hup
        | _ => exact hp
      | _ => exact hp

/-- As long as the session goes on, whatever is typed, no past input changes or disappears. -/
theorem C54_history (m : Machine) (ce : CommandExecutor) (e e' : Editor) (h : Awaits m ce e)
    (hl : Leads m ce e e') :
    ∃ newer older, pastInputs e'.inputs = newer ++ pastInputs e.inputs ++ older := by
  have key : (∃ newer older, pastInputs e'.inputs = newer ++ pastInputs e.inputs ++ older) ∧
      (∃ line, EditorOk e' line) ∧ e'.inputComplete = false := by
    induction hl with
    | now => exact ⟨⟨[], [], by simp⟩, h.ok⟩
    | event hl hstep ih =>
      rename_i e1 e2 ev t out
      obtain ⟨⟨newer, older, hp⟩, ⟨line, ho⟩, hc⟩ := ih
      refine ⟨?_, step_inv ho hc hstep⟩
      cases hen : isEnter ev with
      | true =>
        obtain ⟨mods, rfl⟩ := isEnter_iff hen
        have hE := step_enter_ok ho hstep
        exact ⟨line :: newer, older, by rw [hE.inputs, finished_past, hp]; simp⟩
      | false =>
        obtain ⟨_, a, e3, h1, hn, ⟨off, rfl⟩, _⟩ := step_other ho hc hen hstep
        by_cases hup : ∃ mods, ev = .key .up mods
        · obtain ⟨mods, rfl⟩ := hup
          rcases up_cases ho h1 with ⟨_, l, he, _, _, _, hq⟩ | ⟨_, _, he, _⟩
          · rcases hq with ⟨_, hq, _⟩ | ⟨_, o, _, _, _, _, _, hq⟩
            · exact ⟨newer, older, by simp only; rw [hq, hp]⟩
            · exact ⟨newer, older ++ [o], by simp only; rw [hq, hp]; simp⟩
          · refine ⟨newer, older, ?_⟩
            rw [he]
            exact hp
        · refine ⟨newer, older, ?_⟩
          simp only
          rw [hn.past fun mods hm => hup ⟨mods, hm⟩, hp]
  exact key.1

theorem ups_run {m : Machine} {ce : CommandExecutor} (mods : Mods) (t : TermInfo) : ∀ (k : Nat) {e e' : Editor}
    {outs : List StepOut}, ((∃ line, EditorOk e line) ∧ e.inputComplete = false) →
    runEvents m ce e (List.replicate k (.key .up mods, t)) = .ok (outs, e') →
    e.inputs.index + k ≤ (pastInputs e.inputs).length →
    e'.inputs.index = e.inputs.index + k ∧ KeepsLines e.inputs e'.inputs ∧ (∃ line, EditorOk e' line) := by
  intro k
  induction k with
  | zero =>
    intro e e' outs h hr _
    simp only [List.replicate_zero] at hr
    unfold runEvents at hr
    cases hr
    exact ⟨rfl, KeepsLines.refl _, h.1⟩
  | succ k ih =>
    intro e e' outs h hr hk
    obtain ⟨⟨line, ho⟩, hc⟩ := h
    simp only [List.replicate_succ] at hr
    unfold runEvents at hr
    obtain ⟨⟨out, e1⟩, h1, hr⟩ := outcome_bind_ok hr
    obtain ⟨ho1, hc1⟩ := step_inv ho hc h1
    obtain ⟨_, a, e2, h2, hn, ⟨off, rfl⟩, hq, _⟩ := step_other ho hc rfl h1
    simp only at hr
    rcases up_cases ho h2 with ⟨ha, l, _, _, hi, hkeep, hp⟩ | ⟨_, hidx, _⟩
    · have hnq : out.quit = false := by
        cases hb : out.quit with
        | false => rfl
        | true => have := hq.1 hb; rw [ha] at this; cases this
      rw [hnq, if_neg (by simp)] at hr
      obtain ⟨⟨outs', e4⟩, h3, hr⟩ := outcome_bind_ok hr
      simp only [Outcome.ok.injEq, Prod.mk.injEq] at hr
      obtain ⟨_, rfl⟩ := hr
      have hlen : (pastInputs e2.inputs).length ≥ (pastInputs e.inputs).length := by
        rcases hp with ⟨_, hp, _⟩ | ⟨_, o, _, _, _, _, _, hp⟩ <;> rw [hp] <;> simp
      obtain ⟨g1, g2, g3⟩ := ih ⟨ho1, hc1⟩ h3 (by simp only; omega)
      refine ⟨?_, fun i l hil => g2 i l (hkeep i l hil), g3⟩
      simp only at g1
      omega
    · omega

/-- After Enter, pressing Up `k` times shows the `k`-th newest input, unedited, the line just entered being
the newest. -/
theorem C54_unedited (m : Machine) (ce : CommandExecutor) (e e' e'' : Editor) (h : Awaits m ce e)
    (mods mods' : Mods) (t t' : TermInfo) (out : StepOut) (outs : List StepOut) (line : Str) (hs : Shows e line)
    (hstep : step m ce e (.key .enter mods) t = .ok (out, e')) (k : Nat)
    (hr : runEvents m ce e' (List.replicate (k + 1) (.key .up mods', t')) = .ok (outs, e'')) (l : Str)
    (hl : (line :: pastInputs e.inputs)[k]? = some l) : Shows e'' l := by
  have ho := h.line hs
  have hE := step_enter_ok ho hstep
  have hlen := (List.getElem?_eq_some_iff.1 hl).1
  obtain ⟨g1, g2, ⟨l', g3⟩⟩ := ups_run mods' t' (k + 1) (step_inv ho h.ok.2 hstep) hr
    (by rw [hE.inputs, finished_past]; change 0 + (k + 1) ≤ _; omega)
  have hat : lineAt e'.inputs (k + 1) = some l := by
    rw [hE.inputs, finished_lineAt, if_neg (by omega), finished_past]
    exact hl
  have := g2 _ _ hat
  have hidx : e''.inputs.index = k + 1 := by
    rw [g1, hE.inputs]
    change 0 + (k + 1) = k + 1
    omega
  rw [← hidx] at this
  rw [g3.at] at this
  cases this
  exact g3.shows

/-- Two lines are entered, the first recalled and changed; after Enter both are shown unedited again. -/
example : Shows (exAfter 80 false exKeys) "1+2*4".toList ∧
    pastInputs (exAfter 80 false (exKeys ++ [.key .enter .none])).inputs =
      ["1+2*4".toList, "(3)".toList, "1+2".toList] ∧
    Shows (exAfter 80 false (exKeys ++ [.key .enter .none, .key .up .none, .key .up .none, .key .up .none]))
      "1+2".toList :=
  ⟨by unfold Shows; decide +kernel, by decide +kernel, by unfold Shows; decide +kernel⟩

/-! ## C55 Up and Down are inverse -/

/-- Up: either the next older line is shown (with the changes made to it), and the cursor put at its end;
or there is no older one, and nothing happens. -/
theorem C55_up (m : Machine) (ce : CommandExecutor) (e e' : Editor) (h : Awaits m ce e) (mods : Mods)
    (t : TermInfo) (out : StepOut) (hstep : step m ce e (.key .up mods) t = .ok (out, e')) :
    (e'.inputs.index = e.inputs.index + 1 ∧ KeepsLines e.inputs e'.inputs ∧
      ∃ line', lineAt e'.inputs (e.inputs.index + 1) = some line' ∧ Shows e' line' ∧
        e'.cursorPos = line'.length ∧ e'.args = e.args ∧ e'.vars = e.vars) ∨
    (e.inputs.index = (pastInputs e.inputs).length ∧ out = ⟨[], none, false⟩ ∧
      e' = { e with inputs := { e.inputs with dbExhausted := true }, db := e'.db } ∧
      ∀ line, Shows e line → Shows e' line) := by
  obtain ⟨⟨line, ho⟩, hc⟩ := h.ok
  obtain ⟨hout, a, e1, h1, hn, ⟨off, rfl⟩, hq, hd⟩ := step_other ho hc rfl hstep
  rcases up_cases ho h1 with ⟨_, l, he, ho1, hi, hk, hp⟩ | ⟨ha, hi, he, hx⟩
  · refine .inl ⟨hi, hk, l, ?_, ho1.shows, ?_, hn.args, hn.vars⟩
    · rw [← hi]; exact ho1.at
    · rw [he]
  · rcases hd with ⟨_, hd, hdr⟩ | ⟨hd, _⟩
    · refine .inr ⟨hi, ?_, ?_, ?_⟩
      · obtain ⟨ds, o, q⟩ := out
        simp only at hout hdr hq
        subst hout hdr
        have : q = false := by
          cases q with
          | false => rfl
          | true => have := hq.1 rfl; rw [ha] at this; cases this
        rw [this]
      · rw [hd]; exact he
      · intro line' hl'
        rw [hd, he]
        exact hl'
    · rw [ha] at hd; cases hd

/-- Up shows the next older line whenever one has been met before, without asking the database. -/
theorem C55_up_known (m : Machine) (ce : CommandExecutor) (e e' : Editor) (h : Awaits m ce e) (mods : Mods)
    (t : TermInfo) (out : StepOut) (hstep : step m ce e (.key .up mods) t = .ok (out, e'))
    (hlt : e.inputs.index < (pastInputs e.inputs).length) :
    e'.inputs.index = e.inputs.index + 1 ∧ e'.db = e.db ∧ ∀ i, lineAt e'.inputs i = lineAt e.inputs i := by
  obtain ⟨⟨line, ho⟩, hc⟩ := h.ok
  obtain ⟨hout, a, e1, h1, hn, ⟨off, rfl⟩, hq, hd⟩ := step_other ho hc rfl hstep
  rcases up_cases ho h1 with ⟨_, l, he, ho1, hi, hk, hp⟩ | ⟨ha, hi, he, hx⟩
  · rcases hp with ⟨_, hp, hdb⟩ | ⟨hp, _⟩
    · refine ⟨hi, hdb, fun i => ?_⟩
      cases hl : lineAt e.inputs i with
      | some l => exact hk i l hl
      | none =>
        have hgt : (pastInputs e.inputs).length < i := by
          rcases Nat.lt_or_ge (pastInputs e.inputs).length i with h | h
          · exact h
          · obtain ⟨l, hl'⟩ := lineAt_within ho.hist (i := i) (by rw [← past_length]; exact h)
            rw [hl] at hl'; cases hl'
        exact lineAt_beyond ho1.hist (by rw [← past_length, hp]; exact hgt)
    · omega
  · omega

/-- Down: at the newest line nothing happens; else the next newer line is shown, with the changes made to
it, and the cursor put at its end. -/
theorem C55_down (m : Machine) (ce : CommandExecutor) (e e' : Editor) (h : Awaits m ce e) (mods : Mods)
    (t : TermInfo) (out : StepOut) (hstep : step m ce e (.key .down mods) t = .ok (out, e')) :
    (e.inputs.index = 0 ∧ e' = e ∧ out = ⟨[], none, false⟩) ∨
    (0 < e.inputs.index ∧ (∀ i, lineAt e'.inputs i = lineAt e.inputs i) ∧
      ∃ line', lineAt e.inputs (e.inputs.index - 1) = some line' ∧ Shows e' line' ∧
        e' = { e with inputs := { e.inputs with index := e.inputs.index - 1 }, cursorPos := line'.length,
                      scrollOffset := e'.scrollOffset }) := by
  obtain ⟨⟨line, ho⟩, hc⟩ := h.ok
  obtain ⟨hout, a, e1, h1, hn, ⟨off, rfl⟩, hq, hd⟩ := step_other ho hc rfl hstep
  rcases down_cases ho h1 with ⟨ha, hi, rfl⟩ | ⟨ha, hi, l, ho1, he⟩
  · rcases hd with ⟨_, hd, hdr⟩ | ⟨hd, _⟩
    · refine .inl ⟨hi, hd, ?_⟩
      obtain ⟨ds, o, q⟩ := out
      simp only at hout hdr hq
      subst hout hdr
      have : q = false := by
        cases q with
        | false => rfl
        | true => have := hq.1 rfl; rw [ha] at this; cases this
      rw [this]
    · rw [ha] at hd; cases hd
  · have hidx : e1.inputs.index = e.inputs.index - 1 := by rw [he]
    have hat := ho1.at
    rw [hidx] at hat
    have hlines : ∀ i, lineAt e1.inputs i = lineAt e.inputs i := by rw [he]; exact fun i => rfl
    refine .inr ⟨hi, hlines, l, ?_, ho1.shows, ?_⟩
    · rw [← hlines]; exact hat
    · rw [he]

/-- Up, if it went to an older line, and then Down: the same line as at first, with the changes made to it,
and the same for all other lines. -/
theorem C55_up_down (m : Machine) (ce : CommandExecutor) (e e1 e2 : Editor) (h : Awaits m ce e)
    (mods1 mods2 : Mods) (t1 t2 : TermInfo) (out1 out2 : StepOut)
    (h1 : step m ce e (.key .up mods1) t1 = .ok (out1, e1)) (hmoved : e1.inputs.index ≠ e.inputs.index)
    (h2 : step m ce e1 (.key .down mods2) t2 = .ok (out2, e2)) (line : Str) (hs : Shows e line) :
    Shows e2 line ∧ e2.inputs.index = e.inputs.index ∧ KeepsLines e.inputs e2.inputs ∧
      e2.cursorPos = line.length := by
  have ho := h.line hs
  obtain ⟨_, a, e1', g1, hn, ⟨off, rfl⟩, hq, _⟩ := step_other ho h.ok.2 rfl h1
  have hq1 : out1.quit = false := by
    cases hb : out1.quit with
    | false => rfl
    | true =>
      have ha := hq.1 hb
      rcases up_cases ho g1 with ⟨ha', _⟩ | ⟨ha', _⟩ <;> rw [ha'] at ha <;> cases ha
  have hA1 : Awaits m ce _ := .event h h1 hq1
  rcases C55_up m ce e _ h mods1 t1 out1 h1 with ⟨hi, hk, _⟩ | ⟨_, _, he, _⟩
  · rcases C55_down m ce _ e2 hA1 mods2 t2 out2 h2 with ⟨h0, _⟩ | ⟨_, hl, l, hat, hsh, he⟩
    · omega
    · have hi2 : e2.inputs.index = e.inputs.index := by
        rw [he]; change _ - 1 = _; rw [hi]; omega
      have hat' : lineAt e.inputs e.inputs.index = some line := ho.at
      have := hk _ _ hat'
      rw [hi] at hat
      have hsub : e.inputs.index + 1 - 1 = e.inputs.index := by omega
      rw [hsub, this] at hat
      cases hat
      exact ⟨hsh, hi2, fun i l hil => by rw [hl]; exact hk i l hil, by rw [he]⟩
  · exfalso
    apply hmoved
    rw [he]

/-- Down, not at the newest line, and then Up: the same line as at first, and the same for all other
lines. -/
theorem C55_down_up (m : Machine) (ce : CommandExecutor) (e e1 e2 : Editor) (h : Awaits m ce e)
    (mods1 mods2 : Mods) (t1 t2 : TermInfo) (out1 out2 : StepOut) (hi : 0 < e.inputs.index)
    (h1 : step m ce e (.key .down mods1) t1 = .ok (out1, e1))
    (h2 : step m ce e1 (.key .up mods2) t2 = .ok (out2, e2)) (line : Str) (hs : Shows e line) :
    Shows e2 line ∧ e2.inputs.index = e.inputs.index ∧ (∀ i, lineAt e2.inputs i = lineAt e.inputs i) ∧
      e2.cursorPos = line.length := by
  have ho := h.line hs
  obtain ⟨_, a, e1', g1, hn, ⟨off, rfl⟩, hq, _⟩ := step_other ho h.ok.2 rfl h1
  have hq1 : out1.quit = false := by
    cases hb : out1.quit with
    | false => rfl
    | true =>
      have ha := hq.1 hb
      rcases down_cases ho g1 with ⟨ha', _⟩ | ⟨ha', _⟩ <;> rw [ha'] at ha <;> cases ha
  have hA1 : Awaits m ce _ := .event h h1 hq1
  rcases C55_down m ce e _ h mods1 t1 out1 h1 with ⟨h0, _⟩ | ⟨_, hl, l, hat, hsh, he⟩
  · omega
  · have hidx : ({ e1' with scrollOffset := off } : Editor).inputs.index = e.inputs.index - 1 := by rw [he]
    have hpast : pastInputs ({ e1' with scrollOffset := off } : Editor).inputs = pastInputs e.inputs := by
      rw [he]; rfl
    have hlen : e.inputs.index ≤ (pastInputs e.inputs).length := by
      have h1 := ho.hist.index
      have h2 := ho.hist.length
      rw [past_length]; omega
    have hknown := C55_up_known m ce _ e2 hA1 mods2 t2 out2 h2 (by rw [hidx, hpast]; omega)
    have hi2 : e2.inputs.index = e.inputs.index := by rw [hknown.1, hidx]; omega
    have hlines : ∀ i, lineAt e2.inputs i = lineAt e.inputs i := fun i => by rw [hknown.2.2, hl]
    rcases C55_up m ce _ e2 hA1 mods2 t2 out2 h2 with ⟨_, _, l', hat', hsh', hcur, _⟩ | ⟨hend, _⟩
    · rw [hidx] at hat'
      have hsub : e.inputs.index - 1 + 1 = e.inputs.index := by omega
      rw [hsub, hlines, ho.at] at hat'
      cases hat'
      exact ⟨hsh', hi2, hlines, hcur⟩
    · rw [hidx, hpast] at hend; omega

/-- With pending changes in two lines. -/
example : Shows (exAfter 80 false exKeys) "1+2*4".toList ∧ (exAfter 80 false exKeys).inputs.index = 2 ∧
    Shows (exAfter 80 false (exKeys ++ [.key .down .none])) "(3)".toList ∧
    Shows (exAfter 80 false (exKeys ++ [.key .down .none] ++ typed "!" ++ [.key .up .none])) "1+2*4".toList ∧
    Shows (exAfter 80 false (exKeys ++ [.key .down .none] ++ typed "!" ++ [.key .up .none, .key .down .none]))
      "(3)!".toList :=
  ⟨by unfold Shows; decide +kernel, by decide +kernel, by unfold Shows; decide +kernel,
    by unfold Shows; decide +kernel, by unfold Shows; decide +kernel⟩

/-! ## C56 What you see is what is evaluated and recorded -/

/-- On Enter the line that was shown is drawn in full once more, and it is the one that is evaluated and
added to the history of the session; what is then printed is the result of that evaluation. -/
theorem C56_enter (m : Machine) (ce : CommandExecutor) (e e' : Editor) (h : Awaits m ce e) (mods : Mods)
    (t : TermInfo) (out : StepOut) (hstep : step m ce e (.key .enter mods) t = .ok (out, e')) (line : Str)
    (hs : Shows e line) :
    ∃ d d' sh r, out = ⟨[d, d'], some sh, false⟩ ∧ (d.rows.map (·.2)).flatten = line ∧
      calculate m ce line e.session = (r, e'.session) ∧ shown r = .ok sh ∧
      e'.inputs.internal = e.inputs.internal ++ [line] := by
  have hE := step_enter_ok (h.line hs) hstep
  obtain ⟨d, d', sh, r, ho, hd, hc, hsh⟩ := hE.out
  obtain ⟨_, rest, hr, _, hall⟩ := drawWrapped_rows hd
  refine ⟨d, d', sh, r, ho, ?_, hc, hsh, ?_⟩
  · rw [hr]; exact hall.all
  · rw [hE.inputs]; rfl

/-- If there is a database, exactly the line shown is recorded in it (besides what other processes do),
unless the database fails, in which case that failure is what is printed. -/
theorem C56_database (m : Machine) (ce : CommandExecutor) (e e' : Editor) (h : Awaits m ce e) (mods : Mods)
    (t : TermInfo) (out : StepOut) (hstep : step m ce e (.key .enter mods) t = .ok (out, e')) (line : Str)
    (hs : Shows e line) (sd : SavedData) (hd : e.db = some sd) (hr : Reachable sd.db) :
    ∃ sd' ops, e'.db = some sd' ∧ sd'.db = after ops sd.db ∧
      (((∀ op ∈ ops, Scheduled sd op) ∧
          out.output = some (.runtimeError (.db .environment))) ∨
       ∃ ops1 ops2, ops = ops1 ++ .add line :: ops2 ∧ (∀ op ∈ ops1, Scheduled sd op) ∧
        ∀ op ∈ ops2, Scheduled sd op ∨ ∀ t, op ≠ .add t) := by
  obtain ⟨d, d', sh, r, rfl, _, hc, hsh, _⟩ := C56_enter m ce e e' h mods t out hstep line hs
  obtain ⟨sd', ops, h1, h2, h3⟩ := C45_session m ce line e.session e.inputs line sd rfl hs hd hr
  rw [hc] at h1 h3
  refine ⟨sd', ops, h1, h2, h3.imp ?_ id⟩
  rintro ⟨h4, h5⟩
  change r = _ at h5
  rw [h5] at hsh
  cases hsh
  exact ⟨h4, rfl⟩

/-- Without a database there is none afterwards. -/
theorem C56_no_database (m : Machine) (ce : CommandExecutor) (e e' : Editor) (h : Awaits m ce e) (mods : Mods)
    (t : TermInfo) (out : StepOut) (hstep : step m ce e (.key .enter mods) t = .ok (out, e'))
    (hd : e.db = none) : e'.db = none := by
  obtain ⟨line, hs⟩ := C53_line m ce e h
  have := (step_enter_ok (h.line hs) hstep).db
  rw [hd] at this
  cases hx : e'.db with
  | none => rfl
  | some _ => rw [hx] at this; cases this

/-- An editor with a database; a saved input has been recalled and changed. -/
def exWithDb : Editor := exAfter 80 false ([.key .up .none, .key .up .none] ++ typed "+1") (some ⟨exDb3, some 3, [], []⟩)

example : Awaits (exMachine true) table exWithDb ∧ Shows exWithDb "$x = 5+1".toList ∧
    (exWithDb.db.map (·.db)) = some exDb3 := 
  ⟨exAfter_awaits (by decide +kernel), by unfold Shows; decide +kernel, by decide +kernel⟩

example : (match step (exMachine true) table exWithDb (.key .enter .none) ⟨0, 0, 80⟩ with
      | .ok (out, e') => (out.output, pastInputs e'.inputs, e'.db.map fun sd => historyOf sd.db)
      | _ => (none, [], none)) =
    (some (.result "6".toList), ["$x = 5+1".toList, "$y".toList, "$x = 5".toList],
      some ["$y".toList, "$x = 5+1".toList]) := by decide +kernel

/-! ## C57 The cursor stays within the line -/

theorem C57_cursor (m : Machine) (ce : CommandExecutor) (e : Editor) (h : Awaits m ce e) (line : Str)
    (hs : Shows e line) : e.cursorPos ≤ line.length := (h.line hs).cursor

/-- Also while an event is handled, before the line is drawn. -/
theorem C57_event (m : Machine) (ce : CommandExecutor) (e : Editor) (h : Awaits m ce e) (ev : Event) (a : Action)
    (e1 : Editor) (he : handleEvent e ev = .ok (a, e1)) (line : Str) (hs : Shows e1 line) :
    e1.cursorPos ≤ line.length := by
  obtain ⟨⟨l, ho⟩, _⟩ := h.ok
  rcases handleEvent_inv ho ev with ⟨err, he'⟩ | ⟨a', e', he', hn⟩
  · rw [he] at he'; cases he'
  · rw [he] at he'
    cases he'
    obtain ⟨l', hl⟩ := hn.ok
    rw [hs.unique hl.shows]
    exact hl.cursor

/-! ## C58 Parenthesis jump finds the match -/

/-- The place that is found is the matching one, and if none is found there is none. -/
theorem C58_match (text : Str) (cursor p : Nat) :
    matchingParen text cursor = .ok (some p) ↔
      Pair text (looksAt text cursor) p ∨ Pair text p (looksAt text cursor) := by
  rcases matchingParen_spec text cursor with ⟨q, h1, _, h2⟩ | ⟨h1, h2⟩
  · rw [h1]
    constructor
    · intro h
      cases h
      exact h2
    · intro h
      have : q = p := by
        rcases h2 with h2 | h2 <;> rcases h with h | h
        · exact Pair_right_unique h2 h
        · have a := h2.2.1; have b := h.2.2.1; rw [a] at b; cases b
        · have a := h2.2.2.1; have b := h.2.1; rw [a] at b; cases b
        · exact Pair_left_unique h2 h
      rw [this]
  · rw [h1]
    constructor
    · intro h; cases h
    · rintro (h | h)
      · exact absurd h (h2 p).1
      · exact absurd h (h2 p).2

/-- Ctrl+N (or Ctrl+M): the cursor goes to the parenthesis matching the one it is at (or, behind the line,
the last one); nothing else changes.  If there is none, nothing happens at all. -/
theorem C58_jump (m : Machine) (ce : CommandExecutor) (e e' : Editor) (h : Awaits m ce e) (c : Char)
    (hc : c = 'n' ∨ c = 'm') (t : TermInfo) (out : StepOut)
    (hstep : step m ce e (.key (.char c) .control) t = .ok (out, e')) (line : Str) (hs : Shows e line) :
    out.quit = false ∧ out.output = none ∧
    ((∃ p, (Pair line (looksAt line e.cursorPos) p ∨ Pair line p (looksAt line e.cursorPos)) ∧
        e'.cursorPos = p ∧ OnlyCursor e e') ∨
     ((∀ p, ¬ Pair line (looksAt line e.cursorPos) p ∧ ¬ Pair line p (looksAt line e.cursorPos)) ∧
        e' = e ∧ out.drawings = [])) := by
  have ho := h.line hs
  have hev : handleEvent e (.key (.char c) .control) = (matchingParen line e.cursorPos >>= fun r =>
      match r with
      | some pos => .ok (.redraw, { e with cursorPos := pos })
      | none => .ok (.ignore, e)) := by
    unfold Shows at hs
    rcases hc with rfl | rfl
    · change (e.inputs.currentLine >>= _) = _
      rw [hs]
      rfl
    · change (e.inputs.currentLine >>= _) = _
      rw [hs]
      rfl
  obtain ⟨h1, a, e1, h2, _, ⟨off, h3⟩, h4, h5⟩ := step_other ho h.ok.2 rfl hstep
  rw [hev] at h2
  rcases matchingParen_spec line e.cursorPos with ⟨q, hm, _, hq⟩ | ⟨hm, hq⟩
  · rw [hm] at h2
    simp only [bind, Outcome.bind, Outcome.ok.injEq, Prod.mk.injEq] at h2
    obtain ⟨rfl, rfl⟩ := h2
    refine ⟨by simpa using h4, h1, .inl ⟨q, hq, ?_, ?_⟩⟩
    · rw [h3]
    · unfold OnlyCursor; rw [h3]
  · rw [hm] at h2
    simp only [bind, Outcome.bind, Outcome.ok.injEq, Prod.mk.injEq] at h2
    obtain ⟨rfl, rfl⟩ := h2
    refine ⟨by simpa using h4, h1, .inr ⟨hq, ?_⟩⟩
    rcases h5 with ⟨_, h6, h7⟩ | ⟨h6, _⟩
    · exact ⟨h6, h7⟩
    · cases h6

theorem Pair_lt {text : Str} {i j : Nat} (h : Pair text i j) : i < text.length ∧ j < text.length :=
  ⟨(List.getElem?_eq_some_iff.1 h.2.1).1, (List.getElem?_eq_some_iff.1 h.2.2.1).1⟩

theorem looksAt_lt {text : Str} {p : Nat} (h : p < text.length) : looksAt text p = p := by
  unfold looksAt
  rw [if_pos h]

/-- Jumping once more returns to the parenthesis one came from. -/
theorem C58_twice (m : Machine) (ce : CommandExecutor) (e e1 e2 : Editor) (h : Awaits m ce e) (c c' : Char)
    (hc : c = 'n' ∨ c = 'm') (hc' : c' = 'n' ∨ c' = 'm') (t t' : TermInfo) (out out' : StepOut)
    (hstep : step m ce e (.key (.char c) .control) t = .ok (out, e1))
    (hstep' : step m ce e1 (.key (.char c') .control) t' = .ok (out', e2)) (line : Str) (hs : Shows e line) :
    ((∃ p, Pair line (looksAt line e.cursorPos) p ∨ Pair line p (looksAt line e.cursorPos)) →
      e2.cursorPos = looksAt line e.cursorPos ∧ OnlyCursor e e2) ∧
    ((¬ ∃ p, Pair line (looksAt line e.cursorPos) p ∨ Pair line p (looksAt line e.cursorPos)) → e2 = e) := by
  obtain ⟨hq, _, hj⟩ := C58_jump m ce e e1 h c hc t out hstep line hs
  have h1 : Awaits m ce e1 := .event h hstep hq
  have hs1 : Shows e1 line := by
    rcases hj with ⟨_, _, _, hoc⟩ | ⟨_, rfl, _⟩
    · unfold Shows; rw [hoc]; exact hs
    · exact hs
  obtain ⟨_, _, hj'⟩ := C58_jump m ce e1 e2 h1 c' hc' t' out' hstep' line hs1
  constructor
  · rintro ⟨p, hp⟩
    rcases hj with ⟨q, hq, hcur, hoc⟩ | ⟨hn, _⟩
    · have hqp : looksAt line e1.cursorPos = q := by
        rw [hcur]
        rcases hq with hq | hq
        · exact looksAt_lt (Pair_lt hq).2
        · exact looksAt_lt (Pair_lt hq).1
      rw [hqp] at hj'
      rcases hj' with ⟨r, hr, hcur', hoc'⟩ | ⟨hn, _⟩
      · refine ⟨?_, ?_⟩
        · rw [hcur']
          rcases hq with hq | hq <;> rcases hr with hr | hr
          · have a := hq.2.2.1; have b := hr.2.1; rw [a] at b; cases b
          · exact Pair_left_unique hr hq
          · exact Pair_right_unique hr hq
          · have a := hq.2.1; have b := hr.2.2.1; rw [a] at b; cases b
        · unfold OnlyCursor at hoc hoc' ⊢
          rw [hoc', hoc]
      · have := hn (looksAt line e.cursorPos)
        rcases hq with hq | hq
        · exact absurd hq this.2
        · exact absurd hq this.1
    · rcases hp with hp | hp
      · exact absurd hp (hn p).1
      · exact absurd hp (hn p).2
  · intro hnone
    rcases hj with ⟨q, hq, _⟩ | ⟨hn, rfl, _⟩
    · exact absurd ⟨q, hq⟩ hnone
    · rcases hj' with ⟨q, hq, _⟩ | ⟨_, rfl, _⟩
      · exact absurd ⟨q, hq⟩ hnone
      · rfl

/-- A line with nested parentheses, the cursor at its end. -/
def exNested : Editor := exAfter 80 false (typed "(1+(2)*(3))")

example : Awaits (exMachine true) table exNested ∧ Shows exNested "(1+(2)*(3))".toList ∧
    exNested.cursorPos = 11 ∧ looksAt "(1+(2)*(3))".toList 11 = 10 ∧
    (exAfter 80 false (typed "(1+(2)*(3))" ++ [.key (.char 'n') .control])).cursorPos = 0 ∧
    (exAfter 80 false (typed "(1+(2)*(3))" ++ [.key .left .none, .key .left .none, .key (.char 'n') .control])).cursorPos = 7 ∧
    (exAfter 80 false (typed "(1+(2)*(3))" ++ [.key .home .none, .key (.char 'n') .control])).cursorPos = 10 :=
  ⟨exAfter_awaits (by decide +kernel), by unfold Shows; decide +kernel, by decide +kernel, by decide +kernel,
    by decide +kernel, by decide +kernel, by decide +kernel⟩

example : Pair "(1+(2)*(3))".toList 0 10 := by
  refine ⟨by decide, by decide, by decide, by decide, fun k h1 h2 => ?_⟩
  have : k = 1 ∨ k = 2 ∨ k = 3 ∨ k = 4 ∨ k = 5 ∨ k = 6 ∨ k = 7 ∨ k = 8 ∨ k = 9 ∨ k = 10 := by omega
  rcases this with rfl | rfl | rfl | rfl | rfl | rfl | rfl | rfl | rfl | rfl <;> decide

/-- An unclosed parenthesis has no match. -/
example : matchingParen "((1)".toList 0 = .ok none := by decide

end Bcalc
