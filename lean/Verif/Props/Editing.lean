import Verif.Proof.Screen
import Verif.Props.Editor

/-! # C59-C61: the views and the keys of the line editor -/

namespace Bcalc
open Spec

/-! ## C59 The scrolled view shows the cursor -/

theorem Spec.ScrollView.congr {d : Drawing} {e e' : Editor} {line : Str} (h1 : e'.cursorPos = e.cursorPos)
    (h2 : e'.scrollOffset = e.scrollOffset) (h3 : e'.cols = e.cols) (h : ScrollView d e line) :
    ScrollView d e' line := by
  unfold ScrollView
  rw [h1, h2, h3]
  exact h

theorem Spec.WrapView.congr {d : Drawing} {e e' : Editor} {line : Str} (h1 : e'.cursorPos = e.cursorPos)
    (h2 : e'.startRow = e.startRow) (h3 : e'.cols = e.cols) (h : WrapView d e line) :
    WrapView d e' line := by
  unfold WrapView
  rw [h1, h2, h3]
  exact h

/-- Whatever has been done, what is on the screen is a proper view of the line. -/
theorem C59_view (m : Machine) (ce : CommandExecutor) (d : Drawing) (e : Editor) (h : OnScreen m ce d e)
    (ha : e.args.alternateScreen = false) (h6 : 6 ≤ e.cols) (h16 : e.cols < 65536) (line : Str)
    (hs : Shows e line) : ScrollView d e line := by
  obtain ⟨e0, e1, l0, h1, h2, h3, h4⟩ := h.drawn
  have hd := draw_ok h1
  have hs1 := h4.shows line hs
  have hs0 : Shows e0 line := by rw [hd] at hs1; exact hs1
  have hl := hs0.unique h3.shows
  subst hl
  have ha0 : e0.args.alternateScreen = false := by
    rw [h4.args, hd] at ha; exact ha
  have hc0 : e0.cols = e.cols := by rw [h4.cols, hd]
  obtain ⟨off, h5, h7⟩ := draw_scrolled hs0 h2 ha0 h1
  exact (scrollView_of (by omega) (by omega) h3.cursor h5 h7).congr h4.cursor h4.offset h4.cols

/-- The view does not move without need: after any event but Enter, Up and Down, if the cursor would be in
the part of the line already in view, it is this part that is in view. -/
theorem C59_steady (m : Machine) (ce : CommandExecutor) (e e' : Editor) (h : Awaits m ce e) (ev : Event)
    (t : TermInfo) (out : StepOut) (hstep : step m ce e ev t = .ok (out, e'))
    (hne : ∀ mods, ev ≠ .key .enter mods ∧ ev ≠ .key .up mods ∧ ev ≠ .key .down mods)
    (hin : e.scrollOffset ≤ e'.cursorPos ∧ e'.cursorPos < e.scrollOffset + (e'.cols - 4)) :
    e'.scrollOffset = e.scrollOffset := by
  obtain ⟨⟨line, ho⟩, hc⟩ := h.ok
  have hen : isEnter ev = false := by
    cases hx : isEnter ev with
    | false => rfl
    | true => obtain ⟨mods, rfl⟩ := isEnter_iff hx; exact absurd rfl (hne mods).1
  obtain ⟨_, a, e1, h1, hn, _, _, h5⟩ := step_other ho hc hen hstep
  have hoff : e1.scrollOffset = e.scrollOffset := by
    cases ev with
    | key code mods =>
      have hins : ∀ c, insertAtCursor e c = .ok (a, e1) → e1.scrollOffset = e.scrollOffset := by
        intro c hc
        unfold insertAtCursor at hc
        obtain ⟨l, _, hc⟩ := outcome_bind_ok hc
        cases hc; rfl
      cases code with
      | char c =>
        change handleChar e c mods = _ at h1
        unfold handleChar at h1
        split at h1
        · cases h1; rfl
        · cases mods with
          | none => exact hins _ h1
          | shift => exact hins _ h1
          | other => cases h1; rfl
          | control =>
            simp only at h1
            split at h1
            · cases h1; rfl
            · split at h1
              · obtain ⟨l, _, h1⟩ := outcome_bind_ok h1
                obtain ⟨r, _, h1⟩ := outcome_bind_ok h1
                cases r <;> (cases h1; rfl)
              · cases h1; rfl
      | backspace =>
        unfold handleEvent at h1
        simp only at h1
        split at h1
        · cases h1; rfl
        · obtain ⟨l, _, h1⟩ := outcome_bind_ok h1
          cases h1; rfl
      | delete =>
        unfold handleEvent at h1
        obtain ⟨l, _, h1⟩ := outcome_bind_ok h1
        split at h1
        · cases h1; rfl
        · obtain ⟨l, _, h1⟩ := outcome_bind_ok h1
          cases h1; rfl
      | up => exact absurd rfl (hne mods).2.1
      | down => exact absurd rfl (hne mods).2.2
      | left =>
        unfold handleEvent at h1
        simp only at h1
        split at h1 <;> (cases h1; rfl)
      | right =>
        unfold handleEvent at h1
        simp only at h1
        split at h1
        · cases h1; rfl
        · obtain ⟨l, _, h1⟩ := outcome_bind_ok h1
          cases h1; rfl
      | home => cases h1; rfl
      | «end» =>
        unfold handleEvent at h1
        obtain ⟨l, _, h1⟩ := outcome_bind_ok h1
        cases h1; rfl
      | enter => cases h1; rfl
      | other => cases h1; rfl
    | paste => cases h1
    | resize w => cases h1; rfl
    | other => cases h1; rfl
  rcases h5 with ⟨_, h6, _⟩ | ⟨_, d, _, hd⟩
  · rw [h6]; exact hoff
  · have h7 := draw_ok hd
    obtain ⟨line1, ho1⟩ := hn.ok
    have hci : e1.inputComplete = false := by rw [hn.complete, hen, hc]; rfl
    cases ha : e1.args.alternateScreen with
    | true =>
      obtain ⟨_, h8⟩ := draw_wrapped ho1.shows ha hd
      rw [h8]; exact hoff
    | false =>
      obtain ⟨off, h8, h9⟩ := draw_scrolled ho1.shows hci ha hd
      rw [h9] at hin ⊢
      simp only at hin ⊢
      have h4 : scrollLeftStr.length + scrollRightStr.length = 4 := by decide
      have hsc : off = newScrollOffset e1.cursorPos e1.scrollOffset (e1.cols - 4) line1.length := by
        unfold drawScrolled at h8
        simp only [h4] at h8
        split at h8
        · cases h8
        · obtain ⟨_, _, h8⟩ := outcome_bind_ok h8
          obtain ⟨_, _, h8⟩ := outcome_bind_ok h8
          obtain ⟨_, _, h8⟩ := outcome_bind_ok h8
          cases h8; rfl
      rw [hsc]
      unfold newScrollOffset
      rw [if_neg (by rw [hoff]; omega), hoff]

/-- In terminals with at most 4 columns nothing is drawn; the program ends saying so. -/
theorem C59_narrow (m : Machine) (ce : CommandExecutor) (e : Editor) (h : Awaits m ce e) (t : TermInfo)
    (ha : e.args.alternateScreen = false) (w : Nat) (hw : w ≤ 4) :
    step m ce e (.resize w) t = .err (.internal "Window too narrow".toList) := by
  obtain ⟨⟨line, ho⟩, hc⟩ := h.ok
  have hs : (e.inputs.currentLine : Outcome RuntimeErr Str) = .ok line := ho.shows
  have h4 : scrollLeftStr.length + scrollRightStr.length = 4 := by decide
  unfold step handleEvent draw drawScrolled
  simp only [bind, Outcome.bind, hs, ha, hc, Bool.or_false, Bool.false_eq_true, if_false, h4, if_pos hw]
  rfl

/-- The drawing on the screen after the events. -/
def exDrawing (cols : Nat) (wrap : Bool) (events : List Event) : Option Drawing :=
  match Editor.start (exMachine true) { Args.default with alternateScreen := wrap } none ⟨0, 0, cols⟩ with
  | .ok (d, e) =>
    match runEvents (exMachine true) table e (events.map (·, ⟨0, 0, cols⟩)) with
    | .ok (outs, _) => some ((outs.flatMap (·.drawings)).getLast?.getD d)
    | _ => none
  | _ => none

theorem onScreen_run {m : Machine} {ce : CommandExecutor} : ∀ (evs : List (Event × TermInfo)) {d : Drawing}
    {e e' : Editor} {outs : List StepOut}, OnScreen m ce d e → runEvents m ce e evs = .ok (outs, e') →
    outs.all (fun o => !o.quit) = true → OnScreen m ce ((outs.flatMap (·.drawings)).getLast?.getD d) e' := by
  intro evs
  induction evs with
  | nil =>
    intro d e e' outs h hr _
    unfold runEvents at hr
    cases hr
    exact h
  | cons ev evs ih =>
    intro d e e' outs h hr hq
    obtain ⟨ev, t⟩ := ev
    unfold runEvents at hr
    obtain ⟨⟨out, e1⟩, h1, hr⟩ := outcome_bind_ok hr
    simp only at hr
    split at hr
    · rename_i hqt
      cases hr
      simp [hqt] at hq
    · rename_i hqt
      obtain ⟨⟨outs', e2⟩, h2, hr⟩ := outcome_bind_ok hr
      simp only [Outcome.ok.injEq, Prod.mk.injEq] at hr
      obtain ⟨rfl, rfl⟩ := hr
      simp only [List.all_cons, Bool.and_eq_true] at hq
      have := ih (.event h h1 (by simpa using hqt)) h2 hq.2
      rw [List.flatMap_cons, List.getLast?_append]
      cases hx : (outs'.flatMap (·.drawings)).getLast? with
      | none => rw [hx] at this; exact this
      | some d' => rw [hx] at this; exact this

theorem exDrawing_onScreen {cols : Nat} {wrap : Bool} {events : List Event} {d : Drawing}
    (h : exFine cols wrap events = true) (hd : exDrawing cols wrap events = some d) :
    OnScreen (exMachine true) table d (exAfter cols wrap events) := by
  unfold exFine at h
  unfold exAfter
  unfold exDrawing at hd
  unfold exRun at h ⊢
  cases hst : Editor.start (exMachine true) { Args.default with alternateScreen := wrap } none ⟨0, 0, cols⟩ with
  | ok r =>
    obtain ⟨d0, e0⟩ := r
    rw [hst] at h hd
    simp only [bind, Outcome.bind] at h hd ⊢
    cases hr : runEvents (exMachine true) table e0 (events.map (·, ⟨0, 0, cols⟩)) with
    | ok r =>
      obtain ⟨outs, e'⟩ := r
      rw [hr] at h hd
      simp only at h hd ⊢
      cases hd
      exact onScreen_run _ (.start hst) hr h
    | err e => rw [hr] at hd; cases hd
    | panic k => rw [hr] at hd; cases hd
    | diverge => rw [hr] at hd; cases hd
  | err e => rw [hst] at hd; cases hd
  | panic k => rw [hst] at hd; cases hd
  | diverge => rw [hst] at hd; cases hd

/-- A long line in a narrow terminal, the cursor in the middle. -/
def exLongKeys : List Event := typed "123456789012345678901234567890" ++ [.key .left .shift]

example : OnScreen (exMachine true) table
      ⟨[("< ".toList, "234567".toList)], " >".toList, some (6, none)⟩ (exAfter 10 false exLongKeys) ∧
    (exAfter 10 false exLongKeys).args.alternateScreen = false ∧
    Shows (exAfter 10 false exLongKeys) "123456789012345678901234567890".toList ∧
    (exAfter 10 false exLongKeys).cursorPos = 15 ∧ (exAfter 10 false exLongKeys).scrollOffset = 11 :=
  ⟨exDrawing_onScreen (by decide +kernel) (by decide +kernel), by decide +kernel,
    by unfold Shows; decide +kernel, by decide +kernel, by decide +kernel⟩

/-- With 5 columns the cursor can be out of the row, where a mark or nothing is. -/
theorem C59_violation : ∃ d e line, OnScreen (exMachine true) table d e ∧ e.args.alternateScreen = false ∧
    e.cols = 5 ∧ Shows e line ∧ ¬ ScrollView d e line := by
  refine ⟨⟨[("# ".toList, "a".toList)], " >".toList, some (3, none)⟩,
    exAfter 5 false (typed "ab" ++ [.key .home .none, .key .right .none]), "ab".toList,
    exDrawing_onScreen (by decide +kernel) (by decide +kernel), by decide +kernel, by decide +kernel,
    by unfold Shows; decide +kernel, ?_⟩
  rintro ⟨opener, text, col, h1, _, _, _, h2, _, _, _, _, h3⟩
  cases h1
  cases h2
  have := h3 'b' (by decide +kernel)
  revert this
  decide

/-! ## C60 The wrapped view shows everything -/

/-- Whatever has been done, what is on the screen shows the whole line and the cursor. -/
theorem C60_view (m : Machine) (ce : CommandExecutor) (d : Drawing) (e : Editor) (h : OnScreen m ce d e)
    (ha : e.args.alternateScreen = true) (h16 : e.cols < 65536) (line : Str)
    (hs : Shows e line) (hrow : e.startRow + line.length < 65536) : WrapView d e line := by
  obtain ⟨e0, e1, l0, h1, h2, h3, h4⟩ := h.drawn
  have hd := draw_ok h1
  have hs1 := h4.shows line hs
  have hs0 : Shows e0 line := by rw [hd] at hs1; exact hs1
  have hl := hs0.unique h3.shows
  subst hl
  have ha0 : e0.args.alternateScreen = true := by
    rw [h4.args, hd] at ha; exact ha
  obtain ⟨h5, h6⟩ := draw_wrapped hs0 ha0 h1
  rw [h6] at h4
  have hc0 := h4.cols
  have hr0 := h4.row
  exact (wrapView_of (by omega) (by omega) h3.cursor h2 h5).congr h4.cursor h4.row h4.cols

/-- The line as it is left on the screen when Enter is pressed is complete, too, in both modes. -/
theorem C60_entered (m : Machine) (ce : CommandExecutor) (e e' : Editor) (h : Awaits m ce e) (mods : Mods)
    (t : TermInfo) (out : StepOut) (hstep : step m ce e (.key .enter mods) t = .ok (out, e')) (line : Str)
    (hs : Shows e line) :
    ∃ d d', out.drawings = [d, d'] ∧ d.cursor = none ∧ d.closer = [] ∧ (d.rows.map (·.2)).flatten = line ∧
      ∃ first rest, d.rows = ("# ".toList, first) :: rest ∧ first.length + 2 ≤ e.cols ∧
        ∀ r ∈ rest, r.1 = "  ".toList ∧ r.2 ≠ [] ∧ r.2.length + 2 ≤ e.cols := by
  have hE := step_enter_ok (h.line hs) hstep
  obtain ⟨d, d', sh, r, ho, hd, _⟩ := hE.out
  obtain ⟨h3, rest, hr, hcl, hall⟩ := drawWrapped_rows hd
  have h3' : 3 ≤ e.cols := h3
  refine ⟨d, d', by rw [ho], ?_, hcl, by rw [hr]; exact hall.all, _, rest, hr, ?_, ?_⟩
  · unfold drawWrapped at hd
    simp only at hd
    split at hd
    · cases hd
    · split at hd
      · cases hd
      · obtain ⟨_, _, hd⟩ := outcome_bind_ok hd
        obtain ⟨_, _, hd⟩ := outcome_bind_ok hd
        obtain ⟨_, _, hd⟩ := outcome_bind_ok hd
        obtain ⟨_, _, hd⟩ := outcome_bind_ok hd
        obtain ⟨_, _, hd⟩ := outcome_bind_ok hd
        cases hd
        rfl
  · simp only [List.length_take]
    omega
  · intro r hm
    obtain ⟨h1, h2, h4⟩ := hall.fit r hm
    have h2' : r.2.length ≤ e.cols - 2 := h2
    exact ⟨h1, h4, by omega⟩

example : OnScreen (exMachine true) table
      ⟨[("# ".toList, "12345678".toList), ("  ".toList, "90123456".toList), ("  ".toList, "78901234".toList),
        ("  ".toList, "567890".toList)], [], some (9, some 1)⟩ (exAfter 10 true exLongKeys) ∧
    (exAfter 10 true exLongKeys).args.alternateScreen = true ∧
    Shows (exAfter 10 true exLongKeys) "123456789012345678901234567890".toList ∧
    (exAfter 10 true exLongKeys).cursorPos = 15 :=
  ⟨exDrawing_onScreen (by decide +kernel) (by decide +kernel), by decide +kernel,
    by unfold Shows; decide +kernel, by decide +kernel⟩

/-- With 2 columns the program divides by zero, also when an edited window is made that narrow. -/
theorem C60_violation (m : Machine) (ce : CommandExecutor) (e : Editor) (h : Awaits m ce e) (t : TermInfo)
    (ha : e.args.alternateScreen = true) : step m ce e (.resize 2) t = .panic .divisionByZero := by
  obtain ⟨⟨line, ho⟩, hc⟩ := h.ok
  have hs : (e.inputs.currentLine : Outcome RuntimeErr Str) = .ok line := ho.shows
  have h2 : (List.replicate promptStr.length ' ').length = 2 := by decide
  unfold step handleEvent draw drawWrapped
  simp only [bind, Outcome.bind, hs, ha, Bool.true_or, if_true, h2]
  rfl

/-- With fewer columns it ends saying that the window is too narrow. -/
theorem C60_narrow (m : Machine) (ce : CommandExecutor) (e : Editor) (h : Awaits m ce e) (t : TermInfo)
    (ha : e.args.alternateScreen = true) (w : Nat) (hw : w < 2) :
    step m ce e (.resize w) t = .err (.internal "Window too narrow".toList) := by
  obtain ⟨⟨line, ho⟩, hc⟩ := h.ok
  have hs : (e.inputs.currentLine : Outcome RuntimeErr Str) = .ok line := ho.shows
  have h2 : (List.replicate promptStr.length ' ').length = 2 := by decide
  unfold step handleEvent draw drawWrapped
  simp only [bind, Outcome.bind, hs, ha, Bool.true_or, if_true, h2, if_pos hw]
  rfl

/-! ## C61 Editing keys do what they say -/

theorem step_redraw {m : Machine} {ce : CommandExecutor} {e e1 e' : Editor} {ev : Event} {t : TermInfo}
    {out : StepOut} (hh : handleEvent e ev = .ok (.redraw, e1)) (hc : e1.inputComplete = false)
    (h : step m ce e ev t = .ok (out, e')) :
    (∃ d, out = ⟨[d], none, false⟩) ∧ e' = { e1 with scrollOffset := e'.scrollOffset } := by
  cases step_cases h with
  | ignored h1 => rw [hh] at h1; cases h1
  | quit h1 => rw [hh] at h1; cases h1
  | redrawn h1 h2 h3 =>
    rw [hh] at h1
    cases h1
    exact ⟨⟨_, rfl⟩, draw_ok h3⟩
  | entered h1 h2 h3 h4 h5 =>
    rw [hh] at h1
    cases h1
    rw [hc] at h2
    cases h2

theorem step_ignore {m : Machine} {ce : CommandExecutor} {e e1 : Editor} {ev : Event} {t : TermInfo}
    (hh : handleEvent e ev = .ok (.ignore, e1)) :
    step m ce e ev t = .ok (⟨[], none, false⟩, e1) := by
  unfold step
  rw [hh]
  rfl

theorem onlyLine_withLine {e e' : Editor} {line : Str} {cur : Nat} (ho : HistOk e.inputs)
    (h : e' = { e with inputs := e.inputs.withLine line, cursorPos := cur, scrollOffset := e'.scrollOffset }) :
    Shows e' line ∧ e'.cursorPos = cur ∧ OnlyLine e e' := by
  rw [h]
  refine ⟨withLine_shows ho line, rfl, rfl, rfl, fun i hi => ?_⟩
  simp only
  rw [withLine_lineAt ho, if_neg hi]

theorem typed_insert {m : Machine} {ce : CommandExecutor} {e e' : Editor} (h : Awaits m ce e)
    {c c' : Char} {mods : Mods} (hev : handleEvent e (.key (.char c) mods) = insertAtCursor e c')
    {t : TermInfo} {out : StepOut} (hstep : step m ce e (.key (.char c) mods) t = .ok (out, e')) {line : Str}
    (hs : Shows e line) :
    (∃ d, out = ⟨[d], none, false⟩) ∧
    Shows e' (line.take e.cursorPos ++ c' :: line.drop e.cursorPos) ∧ e'.cursorPos = e.cursorPos + 1 ∧
      OnlyLine e e' := by
  have ho := h.line hs
  unfold insertAtCursor at hev
  unfold Shows at hs
  rw [insertChar_ok ho.hist hs ho.cursor c'] at hev
  obtain ⟨h1, h2⟩ := step_redraw hev h.ok.2 hstep
  exact ⟨h1, onlyLine_withLine ho.hist h2⟩

theorem isAscii_of {c : Char} (h : c.toNat < 128) : isAscii c = true := by
  unfold isAscii
  simpa using h

/-- A character is inserted at the cursor, which moves behind it. -/
theorem C61_type (m : Machine) (ce : CommandExecutor) (e e' : Editor) (h : Awaits m ce e) (c : Char)
    (hc : c.toNat < 128) (t : TermInfo) (out : StepOut)
    (hstep : step m ce e (.key (.char c) .none) t = .ok (out, e')) (line : Str) (hs : Shows e line) :
    (∃ d, out = ⟨[d], none, false⟩) ∧
    Shows e' (line.take e.cursorPos ++ c :: line.drop e.cursorPos) ∧ e'.cursorPos = e.cursorPos + 1 ∧
      OnlyLine e e' := by
  refine typed_insert h ?_ hstep hs
  change handleChar e c .none = _
  unfold handleChar
  rw [isAscii_of hc]
  rfl

theorem charUpper_eq (c : Char) : charUpper c = c.toUpper := by
  by_cases h : 97 ≤ c.toNat ∧ c.toNat ≤ 122
  · have hc : c = Char.ofNat c.toNat := (Char.ofNat_toNat c).symm
    obtain ⟨h1, h2⟩ := h
    generalize c.toNat = n at hc h1 h2
    subst hc
    have : n - 97 < 26 := by omega
    obtain ⟨k, rfl⟩ : ∃ k, n = 97 + k := ⟨n - 97, by omega⟩
    have hk : k < 26 := by omega
    have hall : ∀ k : Fin 26, charUpper (Char.ofNat (97 + k.val)) = (Char.ofNat (97 + k.val)).toUpper := by decide
    exact hall ⟨k, hk⟩
  · unfold charUpper Char.toUpper
    rw [if_neg h]
    have h' : ¬ (c.val ≥ 'a'.val ∧ c.val ≤ 'z'.val) := by
      rintro ⟨h1, h2⟩
      exact h ⟨h1, h2⟩
    rw [dif_neg h']

/-- With Shift, a letter is inserted as a capital. -/
theorem C61_type_shift (m : Machine) (ce : CommandExecutor) (e e' : Editor) (h : Awaits m ce e) (c : Char)
    (hc : c.toNat < 128) (t : TermInfo) (out : StepOut)
    (hstep : step m ce e (.key (.char c) .shift) t = .ok (out, e')) (line : Str) (hs : Shows e line) :
    (∃ d, out = ⟨[d], none, false⟩) ∧
    Shows e' (line.take e.cursorPos ++ c.toUpper :: line.drop e.cursorPos) ∧ e'.cursorPos = e.cursorPos + 1 ∧
      OnlyLine e e' := by
  refine typed_insert h ?_ hstep hs
  change handleChar e c .shift = _
  unfold handleChar
  rw [isAscii_of hc, charUpper_eq]
  rfl

/-- Backspace removes the character before the cursor, if there is one. -/
theorem C61_backspace (m : Machine) (ce : CommandExecutor) (e e' : Editor) (h : Awaits m ce e) (mods : Mods)
    (t : TermInfo) (out : StepOut) (hstep : step m ce e (.key .backspace mods) t = .ok (out, e')) (line : Str)
    (hs : Shows e line) :
    (e.cursorPos = 0 → e' = e ∧ out = ⟨[], none, false⟩) ∧
    (0 < e.cursorPos → (∃ d, out = ⟨[d], none, false⟩) ∧
      Shows e' (line.take (e.cursorPos - 1) ++ line.drop e.cursorPos) ∧ e'.cursorPos = e.cursorPos - 1 ∧
      OnlyLine e e') := by
  have ho := h.line hs
  constructor
  · intro h0
    have hh : handleEvent e (.key .backspace mods) = .ok (.ignore, e) := by
      unfold handleEvent
      simp only
      rw [if_pos h0]
    rw [step_ignore hh] at hstep
    cases hstep
    exact ⟨rfl, rfl⟩
  · intro h0
    have hcur := ho.cursor
    have hh : handleEvent e (.key .backspace mods) = .ok (.redraw, { e with
        inputs := e.inputs.withLine (line.take (e.cursorPos - 1) ++ line.drop e.cursorPos),
        cursorPos := e.cursorPos - 1 }) := by
      unfold handleEvent
      simp only
      unfold Shows at hs
      rw [if_neg (by omega), removeChar_ok ho.hist hs (by omega), Nat.sub_add_cancel h0]
      rfl
    obtain ⟨h1, h2⟩ := step_redraw hh h.ok.2 hstep
    exact ⟨h1, onlyLine_withLine ho.hist h2⟩

/-- Delete removes the character at the cursor, if there is one. -/
theorem C61_delete (m : Machine) (ce : CommandExecutor) (e e' : Editor) (h : Awaits m ce e) (mods : Mods)
    (t : TermInfo) (out : StepOut) (hstep : step m ce e (.key .delete mods) t = .ok (out, e')) (line : Str)
    (hs : Shows e line) :
    (e.cursorPos = line.length → e' = e ∧ out = ⟨[], none, false⟩) ∧
    (e.cursorPos < line.length → (∃ d, out = ⟨[d], none, false⟩) ∧
      Shows e' (line.take e.cursorPos ++ line.drop (e.cursorPos + 1)) ∧ e'.cursorPos = e.cursorPos ∧
      OnlyLine e e') := by
  have ho := h.line hs
  unfold Shows at hs
  constructor
  · intro h0
    have hh : handleEvent e (.key .delete mods) = .ok (.ignore, e) := by
      unfold handleEvent
      rw [hs]
      simp only [bind, Outcome.bind]
      rw [if_pos (by omega)]
    rw [step_ignore hh] at hstep
    cases hstep
    exact ⟨rfl, rfl⟩
  · intro h0
    have hh : handleEvent e (.key .delete mods) = .ok (.redraw, { e with
        inputs := e.inputs.withLine (line.take e.cursorPos ++ line.drop (e.cursorPos + 1)),
        cursorPos := e.cursorPos }) := by
      unfold handleEvent
      rw [hs]
      simp only [bind, Outcome.bind]
      rw [if_neg (by omega), removeChar_ok ho.hist hs h0]
    obtain ⟨h1, h2⟩ := step_redraw hh h.ok.2 hstep
    exact ⟨h1, onlyLine_withLine ho.hist h2⟩

theorem moved_cursor {m : Machine} {ce : CommandExecutor} {e e' : Editor} (h : Awaits m ce e) {ev : Event}
    {cur : Nat} (hev : handleEvent e ev = .ok (.redraw, { e with cursorPos := cur })) {t : TermInfo}
    {out : StepOut} (hstep : step m ce e ev t = .ok (out, e')) :
    (∃ d, out = ⟨[d], none, false⟩) ∧ e'.cursorPos = cur ∧ OnlyCursor e e' := by
  obtain ⟨h1, h2⟩ := step_redraw hev h.ok.2 hstep
  refine ⟨h1, by rw [h2], ?_⟩
  unfold OnlyCursor
  rw [h2]

/-- The left arrow. -/
theorem C61_left (m : Machine) (ce : CommandExecutor) (e e' : Editor) (h : Awaits m ce e) (mods : Mods)
    (hm : mods ≠ .other) (t : TermInfo) (out : StepOut)
    (hstep : step m ce e (.key .left mods) t = .ok (out, e')) :
    (∃ d, out = ⟨[d], none, false⟩) ∧ e'.cursorPos = e.cursorPos - arrowDistance mods ∧ OnlyCursor e e' := by
  refine moved_cursor h ?_ hstep
  have hd : moveDistance mods = some (arrowDistance mods) := by
    cases mods with
    | other => exact absurd rfl hm
    | _ => rfl
  unfold handleEvent
  simp only [hd]
  congr 3
  split <;> omega

/-- The right arrow. -/
theorem C61_right (m : Machine) (ce : CommandExecutor) (e e' : Editor) (h : Awaits m ce e) (mods : Mods)
    (hm : mods ≠ .other) (t : TermInfo) (out : StepOut)
    (hstep : step m ce e (.key .right mods) t = .ok (out, e')) (line : Str) (hs : Shows e line) :
    (∃ d, out = ⟨[d], none, false⟩) ∧ e'.cursorPos = min (e.cursorPos + arrowDistance mods) line.length ∧
      OnlyCursor e e' := by
  have ho := h.line hs
  refine moved_cursor h ?_ hstep
  have hd : moveDistance mods = some (arrowDistance mods) := by
    cases mods with
    | other => exact absurd rfl hm
    | _ => rfl
  unfold handleEvent
  unfold Shows at hs
  rw [hs]
  simp only [hd, bind, Outcome.bind]
  have := ho.cursor
  congr 3
  split <;> omega

/-- Home. -/
theorem C61_home (m : Machine) (ce : CommandExecutor) (e e' : Editor) (h : Awaits m ce e) (mods : Mods)
    (t : TermInfo) (out : StepOut) (hstep : step m ce e (.key .home mods) t = .ok (out, e')) :
    (∃ d, out = ⟨[d], none, false⟩) ∧ e'.cursorPos = 0 ∧ OnlyCursor e e' :=
  moved_cursor h rfl hstep

/-- End. -/
theorem C61_end (m : Machine) (ce : CommandExecutor) (e e' : Editor) (h : Awaits m ce e) (mods : Mods)
    (t : TermInfo) (out : StepOut) (hstep : step m ce e (.key .end mods) t = .ok (out, e')) (line : Str)
    (hs : Shows e line) :
    (∃ d, out = ⟨[d], none, false⟩) ∧ e'.cursorPos = line.length ∧ OnlyCursor e e' := by
  refine moved_cursor h ?_ hstep
  unfold handleEvent
  unfold Shows at hs
  rw [hs]
  rfl

/-- Making the window wider or narrower changes the width only (and the part of the line in view). -/
theorem C61_resize (m : Machine) (ce : CommandExecutor) (e e' : Editor) (h : Awaits m ce e) (w : Nat)
    (t : TermInfo) (out : StepOut) (hstep : step m ce e (.resize w) t = .ok (out, e')) :
    (∃ d, out = ⟨[d], none, false⟩) ∧ e' = { e with cols := w, scrollOffset := e'.scrollOffset } :=
  step_redraw (e1 := { e with cols := w }) rfl h.ok.2 hstep

/-- Keys without a meaning do nothing. -/
theorem C61_ignored (m : Machine) (ce : CommandExecutor) (e : Editor) (ev : Event) (hev : Meaningless ev)
    (t : TermInfo) : step m ce e ev t = .ok (⟨[], none, false⟩, e) := by
  refine step_ignore ?_
  have hasc : ∀ c : Char, 128 ≤ c.toNat → isAscii c = false := by
    intro c hc
    unfold isAscii
    simp
    exact hc
  unfold Meaningless at hev
  split at hev
  · rename_i c
    change handleChar e c .none = _
    unfold handleChar
    rw [hasc c hev]
    rfl
  · rename_i c
    change handleChar e c .shift = _
    unfold handleChar
    rw [hasc c hev]
    rfl
  · rename_i c
    change handleChar e c .other = _
    unfold handleChar
    split <;> rfl
  · rename_i c
    change handleChar e c .control = _
    unfold handleChar
    split
    · rfl
    · simp only [List.mem_cons, List.not_mem_nil, or_false, not_or] at hev
      simp only
      rw [if_neg (by rintro (h | h | h) <;> simp [h] at hev), if_neg (by rintro (h | h) <;> simp [h] at hev)]
  · rfl
  · rfl
  · rfl
  · rfl
  · exact absurd hev id

/-- Ctrl+C, Ctrl+D and Ctrl+Z end the program without evaluating the line. -/
theorem C61_quit (m : Machine) (ce : CommandExecutor) (e : Editor) (c : Char) (hc : c ∈ ['c', 'd', 'z'])
    (t : TermInfo) : step m ce e (.key (.char c) .control) t = .ok (⟨[], none, true⟩, e) := by
  simp only [List.mem_cons, List.not_mem_nil, or_false] at hc
  rcases hc with rfl | rfl | rfl <;> rfl

/-- And no other event does. -/
theorem C61_quit_only (m : Machine) (ce : CommandExecutor) (e e' : Editor) (ev : Event)
    (t : TermInfo) (out : StepOut) (hstep : step m ce e ev t = .ok (out, e')) (hq : out.quit = true) :
    ∃ c, ev = .key (.char c) .control ∧ c ∈ ['c', 'd', 'z'] := by
  cases step_cases hstep with
  | ignored h1 => cases hq
  | redrawn h1 h2 h3 => cases hq
  | entered h1 h2 h3 h4 h5 => cases hq
  | quit h1 =>
    have hins : ∀ c, insertAtCursor e c ≠ .ok (.quit, e') := by
      intro c hc
      unfold insertAtCursor at hc
      obtain ⟨l, _, hc⟩ := outcome_bind_ok hc
      cases hc
    cases ev with
    | paste => cases h1
    | resize w => cases h1
    | other => cases h1
    | key code mods =>
      cases code with
      | char c =>
        change handleChar e c mods = _ at h1
        unfold handleChar at h1
        split at h1
        · cases h1
        · cases mods with
          | none => exact absurd h1 (hins _)
          | shift => exact absurd h1 (hins _)
          | other => cases h1
          | control =>
            simp only at h1
            split at h1
            · rename_i hc
              refine ⟨c, rfl, ?_⟩
              rcases hc with rfl | rfl | rfl <;> simp
            · split at h1
              · obtain ⟨l, _, h1⟩ := outcome_bind_ok h1
                obtain ⟨r, _, h1⟩ := outcome_bind_ok h1
                cases r <;> cases h1
              · cases h1
      | backspace =>
        unfold handleEvent at h1
        simp only at h1
        split at h1
        · cases h1
        · obtain ⟨l, _, h1⟩ := outcome_bind_ok h1
          cases h1
      | delete =>
        unfold handleEvent at h1
        obtain ⟨l, _, h1⟩ := outcome_bind_ok h1
        split at h1
        · cases h1
        · obtain ⟨l, _, h1⟩ := outcome_bind_ok h1
          cases h1
      | up =>
        unfold handleEvent at h1
        simp only at h1
        split at h1
        · obtain ⟨l, _, h1⟩ := outcome_bind_ok h1
          cases h1
        · cases h1
        · cases h1
        · cases h1
        · cases h1
      | down =>
        unfold handleEvent at h1
        simp only at h1
        split at h1
        · obtain ⟨l, _, h1⟩ := outcome_bind_ok h1
          cases h1
        · cases h1
      | left =>
        unfold handleEvent at h1
        simp only at h1
        split at h1 <;> cases h1
      | right =>
        unfold handleEvent at h1
        simp only at h1
        split at h1
        · cases h1
        · obtain ⟨l, _, h1⟩ := outcome_bind_ok h1
          cases h1
      | home => cases h1
      | «end» =>
        unfold handleEvent at h1
        obtain ⟨l, _, h1⟩ := outcome_bind_ok h1
        cases h1
      | enter => cases h1
      | other => cases h1

/-- Pasting is not implemented: the program ends saying so. -/
theorem C61_paste (m : Machine) (ce : CommandExecutor) (e : Editor) (t : TermInfo) :
    step m ce e .paste t = .err (.internal "Paste unimplemented!".toList) := rfl

/-- No key but Enter evaluates anything or changes the settings, the variables or the database (Up may
read it). -/
theorem C61_quiet (m : Machine) (ce : CommandExecutor) (e e' : Editor) (h : Awaits m ce e) (ev : Event)
    (hne : ∀ mods, ev ≠ .key .enter mods) (t : TermInfo) (out : StepOut)
    (hstep : step m ce e ev t = .ok (out, e')) :
    out.output = none ∧ e'.args = e.args ∧ e'.vars = e.vars ∧ (e'.db = e.db ∨ ∃ mods, ev = .key .up mods) := by
  obtain ⟨⟨line, ho⟩, hc⟩ := h.ok
  have hen : isEnter ev = false := by
    cases hx : isEnter ev with
    | false => rfl
    | true => obtain ⟨mods, rfl⟩ := isEnter_iff hx; exact absurd rfl (hne mods)
  obtain ⟨h1, a, e1, h2, hn, ⟨off, h3⟩, _⟩ := step_other ho hc hen hstep
  rw [h3]
  refine ⟨h1, hn.args, hn.vars, ?_⟩
  simp only
  have hins : ∀ c, insertAtCursor e c = .ok (a, e1) → e1.db = e.db := by
    intro c hc
    unfold insertAtCursor at hc
    obtain ⟨l, _, hc⟩ := outcome_bind_ok hc
    cases hc; rfl
  cases ev with
  | paste => cases h2
  | resize w => cases h2; exact .inl rfl
  | other => cases h2; exact .inl rfl
  | key code mods =>
    cases code with
    | up => exact .inr ⟨mods, rfl⟩
    | char c =>
      left
      change handleChar e c mods = _ at h2
      unfold handleChar at h2
      split at h2
      · cases h2; rfl
      · cases mods with
        | none => exact hins _ h2
        | shift => exact hins _ h2
        | other => cases h2; rfl
        | control =>
          simp only at h2
          split at h2
          · cases h2; rfl
          · split at h2
            · obtain ⟨l, _, h2⟩ := outcome_bind_ok h2
              obtain ⟨r, _, h2⟩ := outcome_bind_ok h2
              cases r <;> (cases h2; rfl)
            · cases h2; rfl
    | backspace =>
      left
      unfold handleEvent at h2
      simp only at h2
      split at h2
      · cases h2; rfl
      · obtain ⟨l, _, h2⟩ := outcome_bind_ok h2
        cases h2; rfl
    | delete =>
      left
      unfold handleEvent at h2
      obtain ⟨l, _, h2⟩ := outcome_bind_ok h2
      split at h2
      · cases h2; rfl
      · obtain ⟨l, _, h2⟩ := outcome_bind_ok h2
        cases h2; rfl
    | down =>
      left
      rcases down_cases ho h2 with ⟨_, _, h3⟩ | ⟨_, _, _, _, h3⟩ <;> rw [h3]
    | left =>
      left
      unfold handleEvent at h2
      simp only at h2
      split at h2 <;> (cases h2; rfl)
    | right =>
      left
      unfold handleEvent at h2
      simp only at h2
      split at h2
      · cases h2; rfl
      · obtain ⟨l, _, h2⟩ := outcome_bind_ok h2
        cases h2; rfl
    | home => cases h2; exact .inl rfl
    | «end» =>
      left
      unfold handleEvent at h2
      obtain ⟨l, _, h2⟩ := outcome_bind_ok h2
      cases h2; rfl
    | enter => exact absurd rfl (hne mods)
    | other => cases h2; exact .inl rfl

/-- The state used in the examples: "12345" with the cursor before the 4, after an entered line. -/
def exEdit : List Event := typed "7" ++ [.key .enter .none] ++ typed "12345" ++ [.key .left .none, .key .left .none]

example : Awaits (exMachine true) table (exAfter 80 false exEdit) ∧
    Shows (exAfter 80 false exEdit) "12345".toList ∧ (exAfter 80 false exEdit).cursorPos = 3 ∧
    Shows (exAfter 80 false (exEdit ++ [.key (.char 'x') .shift])) "123X45".toList ∧
    Shows (exAfter 80 false (exEdit ++ [.key .backspace .none])) "1245".toList ∧
    Shows (exAfter 80 false (exEdit ++ [.key .delete .none])) "1235".toList ∧
    (exAfter 80 false (exEdit ++ [.key .left .none])).cursorPos = 2 ∧
    (exAfter 80 false (exEdit ++ [.key .left .control])).cursorPos = 0 ∧
    (exAfter 80 false (exEdit ++ [.key .right .shift])).cursorPos = 5 :=
  ⟨exAfter_awaits (by decide +kernel), by unfold Shows; decide +kernel, by decide +kernel,
    by unfold Shows; decide +kernel, by unfold Shows; decide +kernel, by unfold Shows; decide +kernel,
    by decide +kernel, by decide +kernel, by decide +kernel⟩

end Bcalc
