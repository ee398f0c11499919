import Verif.Proof.Emulator3

/-! # Whole sessions on the alternate screen -/

namespace Bcalc
open Spec

/-- The rows of a redraw of the wrapping view. -/
theorem wrapped_rows {m : Machine} {e : Editor} {line : Str} {d : Drawing} (h : drawWrapped m e line = .ok d) {w : Nat}
    (hw : w = e.cols) (hn : '\n' ∉ line) : 3 ≤ w ∧ d.rows.map rowText = inputRows w line ∧ d.rows ≠ [] ∧
      d.rows.length = (inputRows w line).length ∧
      (∀ t ∈ d.rows.map rowText, '\n' ∉ t) ∧ ∀ t ∈ d.rows.map rowText, t.length ≤ w := by
  subst hw
  obtain ⟨h1, h2⟩ := drawWrapped_inputRows h
  refine ⟨h1, h2, ?_, by rw [← h2, List.length_map], ?_, ?_⟩
  · intro h0
    rw [h0] at h2
    exact inputRows_ne line h2.symm
  · rw [h2]; exact fun t ht => (inputRows_fit h1 ht).2 hn
  · rw [h2]; exact fun t ht => (inputRows_fit h1 ht).1

theorem moveTo_keeps {s : Screen} (h : s.Ok) (col row base : Nat) : Keeps s (s.run [.moveTo col row, .flush]) base ∧
    (s.run [.moveTo col row, .flush]).cell = s.cell := by
  have := h.wide
  have := h.above
  have := h.below
  have hrun : s.run [.moveTo col row, .flush] =
      { s with col := min col (s.width - 1), row := s.top + min row (s.height - 1) } := rfl
  rw [hrun]
  exact ⟨⟨⟨h.wide, by simp, by simp only; omega, by simp only; omega⟩, rfl, rfl, rfl, fun _ _ _ => rfl⟩, rfl⟩

/-- What a redraw shows on the alternate screen. -/
structure AlternateShows (s : Screen) (e : Editor) (line : Str) : Prop where
  input : e.startRow + (inputRows s.width line).length ≤ s.height →
    s.RowsAre (s.top + e.startRow) (inputRows s.width line) ∧
      s.BlankFrom (s.top + e.startRow + (inputRows s.width line).length)
  cursor : s.width < 65536 → e.startRow + e.cursorPos / (s.width - 2) < 65536 →
    e.startRow + e.cursorPos / (s.width - 2) < s.height →
    s.row = s.top + e.startRow + e.cursorPos / (s.width - 2) ∧ s.col = 2 + e.cursorPos % (s.width - 2)

/-- A redraw of the wrapping view. -/
theorem drawn_alternate {m : Machine} {e1 e2 : Editor} {d : Drawing} {line : Str} (hd : draw m e1 = .ok (d, e2))
    (ho : EditorOk e1 line) (hc : e1.inputComplete = false) (ha : e1.args.alternateScreen = true) (hcol : e1.startCol = 0)
    (hn : '\n' ∉ line) {s : Screen} (hs : s.Ok) (hrow : e1.startRow < s.height) (hw : s.width = e1.cols) :
    e2 = e1 ∧ Keeps s (s.run (drawOps e2 d)) (s.top + e1.startRow) ∧ AlternateShows (s.run (drawOps e2 d)) e2 line := by
  obtain ⟨h1, he⟩ := draw_wrapped ho.shows ha hd
  subst he
  obtain ⟨h3, hrows, hne, hlen, hnt, hwt⟩ := wrapped_rows h1 hw hn
  obtain ⟨col, row, hcur⟩ := drawWrapped_cursor h1
  rw [hc, if_neg (by simp)] at hcur
  have hops : drawOps e2 d = [.moveTo 0 e2.startRow, .clearFromCursorDown] ++ rowOps true d.rows ++ [.moveTo col row, .flush] := by
    unfold drawOps wrappedOps
    rw [ha, hcur, hcol]
    simp
  rw [hops, run_append, run_append]
  obtain ⟨hA, hA1, hA2, hA3, hA4⟩ := alternate_start hs hrow
  generalize s.run [.moveTo 0 e2.startRow, .clearFromCursorDown] = s1 at *
  rw [← hA1] at hwt
  have hB := alternate_rows_keep hA hne hnt hwt
  obtain ⟨hC, hCc⟩ := moveTo_keeps hB.ok col row (s.top + e2.startRow)
  have hK : Keeps s s1 (s.top + e2.startRow) := ⟨hA.ok, hA1, hA2, hA3, hA4⟩
  have hall := (hK.trans hB).trans hC
  refine ⟨rfl, hall, ?_, ?_⟩
  · intro hf
    rw [hall.width, hall.height] at hf
    obtain ⟨h4, h5, h6, h7, h8⟩ := alternate_rows hA hne hnt hwt (by rw [hlen, hA3, hA2]; omega)
    rw [hall.width, hall.top]
    rw [hrows] at h4
    rw [hlen] at h5
    refine ⟨fun i text hi => ?_, fun r c hr hcw => ?_⟩
    · obtain ⟨k1, k2⟩ := h4 i text hi
      refine ⟨by rw [hC.width]; exact k1, fun c hcw => ?_⟩
      rw [hCc]
      exact k2 c (by rw [← hC.width]; exact hcw)
    · rw [hCc]
      exact h5 r c hr (by rw [← hC.width]; exact hcw)
  · intro h16 hu hf
    rw [hall.width] at h16 hu hf ⊢
    rw [hall.height] at hf
    rw [hall.top]
    obtain ⟨rest, hd2, _⟩ := drawWrapped_ok (m := m) (e := e2) (input := line) (by rw [← hw]; exact h3) (by rw [← hw]; exact h16)
      (by rw [← hw]; omega)
    rw [h1] at hd2
    simp only [Outcome.ok.injEq] at hd2
    rw [hd2, hc] at hcur
    simp only [Bool.false_eq_true, if_false, Option.some.injEq, Prod.mk.injEq] at hcur
    obtain ⟨h9, h10⟩ := hcur
    rw [← hw] at h9 h10
    have hm := Nat.mod_lt e2.cursorPos (show 0 < s.width - 2 by omega)
    have hrun : ∀ x : Screen, (x.run [.moveTo col row, .flush]).row = x.top + min row (x.height - 1) ∧
        (x.run [.moveTo col row, .flush]).col = min col (x.width - 1) := fun x => ⟨rfl, rfl⟩
    obtain ⟨h11, h12⟩ := hrun (s1.run (rowOps true d.rows))
    rw [h11, h12, hB.top, hB.height, hB.width, hA1, hA2, hA3]
    generalize e2.cursorPos / (s.width - 2) = q at *
    generalize e2.cursorPos % (s.width - 2) = r at *
    omega

/-- What the screen shows in a session on the alternate screen, as long as there is room. -/
structure AlternateScreen (s0 : Screen) (e : Editor) (s : Screen) (log : List (Str × Str)) : Prop where
  ok : s.Ok
  width : s.width = s0.width
  height : s.height = s0.height
  top : s.top = s0.top
  cols : e.cols = s0.width
  startCol : e.startCol = 0
  start : s0.top + e.startRow = s0.row + (transcript s0.width log).length
  above : s0.SameAbove s s0.row
  rows : s.RowsAre s0.row (transcript s0.width log)
  shows : ∀ line, Shows e line → AlternateShows s e line

/-- How a session on the alternate screen stands. -/
def AlternateAt (m : Machine) (s0 : Screen) (e : Editor) (s : Screen) (log : List (Str × Str)) : Prop :=
  Awaits m table e ∧ e.args.alternateScreen = true ∧ (∀ line, Shows e line → '\n' ∉ line) ∧
    (s0.row + (transcript s0.width log).length < s0.top + s0.height → AlternateScreen s0 e s log)

/-- What an event that does not end the session leaves of the screen. -/
theorem alternate_event {m : Machine} {errorText : RuntimeErr → Str} {s0 s : Screen} {e e' : Editor} {log : List (Str × Str)}
    {line line' : Str} {ev : Event} {t : TermInfo} {as : List Act} {a : Args}
    (ih : AlternateAt m s0 e s log) (hsh : Shows e line) (hre : ∀ w, ev ≠ .resize w)
    (htr : stepTrace m table errorText e ev t = (as, a, .ok (false, e'))) (htruth : Truthful s (as.map (·.op)) t)
    (hsh' : Shows e' line') (hn' : '\n' ∉ line') :
    AlternateAt m s0 e' (s.run (as.map (·.op))) (log ++ exchange errorText line (step m table e ev t)) := by
  unfold AlternateAt at ih ⊢
  obtain ⟨haw, hargs0, hclean0, ih⟩ := ih
  obtain ⟨out, ds, hstep, hst⟩ := stepTrace_cases htr
  have ho := haw.line hsh
  have hc0 : e.inputComplete = false := haw.ok.2
  have haw' := Awaits.event haw hst rfl
  have ho' := haw'.line hsh'
  have hclean : ∀ l, Shows e' l → '\n' ∉ l := fun l hl => by rw [hl.unique hsh']; exact hn'
  rw [hst]
  generalize as.map (·.op) = ops at hstep htruth
  cases hstep with
  | ignored h1 =>
    have hv := ignored_same ho (by simp) h1
    have hrun : s.run [.readEvent] = s := rfl
    rw [hrun]
    simp only [exchange, List.append_nil]
    refine ⟨haw', by rw [hv.args]; exact hargs0, hclean, fun hf => ?_⟩
    have ih := ih hf
    refine ⟨ih.ok, ih.width, ih.height, ih.top, by rw [hv.cols]; exact ih.cols,
      by rw [(handleEvent_kept h1).2]; exact ih.startCol, by rw [hv.row]; exact ih.start, ih.above, ih.rows, fun l hl => ?_⟩
    have hx := ih.shows l (hv.shows l hl)
    exact ⟨by rw [hv.row]; exact hx.input, by rw [hv.row, hv.cursor]; exact hx.cursor⟩
  | @redrawn e1 _ d h1 h2 h3 =>
    obtain ⟨hargs, hsc⟩ := handleEvent_kept h1
    have hd := draw_ok h3
    have hnx : Next e ev e1 := by
      rcases handleEvent_inv ho ev with ⟨err, he⟩ | ⟨a', e1', he, hnx⟩
      · rw [h1] at he; cases he
      · rw [h1] at he; cases he; exact hnx
    have hcols : e1.cols = e.cols := hnx.cols.resolve_right (hre _)
    simp only [exchange, List.append_nil]
    refine ⟨haw', by rw [hd]; simp only; rw [hargs]; exact hargs0, hclean, fun hf => ?_⟩
    have ih := ih hf
    have hstart := ih.start
    obtain ⟨he, hk, hshow⟩ := drawn_alternate (line := line') h3
      (by rw [hd] at ho'; exact ⟨ho'.hist, ho'.shows, ho'.cursor, ho'.db⟩) h2 (by rw [hargs]; exact hargs0)
      (by rw [hsc]; exact ih.startCol) hn' (s := s) ih.ok (by rw [hnx.row, ih.height]; omega)
      (by rw [hcols, ih.cols, ih.width])
    subst he
    have hrun : s.run ([.readEvent] ++ drawOps e' d) = s.run (drawOps e' d) := rfl
    rw [hrun]
    rw [ih.top, hnx.row, hstart] at hk
    refine ⟨hk.ok, hk.width.trans ih.width, hk.height.trans ih.height, hk.top.trans ih.top, hcols.trans ih.cols,
      hsc.trans ih.startCol, by rw [hnx.row]; exact hstart, ?_, ?_, ?_⟩
    · intro r c hlt
      rw [hk.above r c (by omega), ih.above r c hlt]
    · exact RowsAre.keep ih.rows hk.width hk.above (Nat.le_refl _)
    · intro l hl
      rw [hl.unique hsh']
      exact hshow
  | @entered e1 e2 e3 _ d d' out h1 h2 h3 h4 h5 =>
    have hen : isEnter ev = true := by
      rcases handleEvent_inv ho ev with ⟨err, he⟩ | ⟨a', e1', he, hnx⟩
      · rw [h1] at he; cases he
      · rw [h1] at he; cases he
        have := hnx.complete
        rw [h2, hc0] at this
        simpa using this.symm
    obtain ⟨mods, rfl⟩ := isEnter_iff hen
    have he1 : e1 = { e with inputComplete := true } := by cases h1; rfl
    have hs1 : Shows e1 line := by rw [he1]; exact ho.shows
    obtain ⟨hdw, he2⟩ := drawn_complete hs1 h2 h3
    subst he2
    have halt2 : e2.args.alternateScreen = true := by rw [he1]; exact hargs0
    have halt3 : e3.args.alternateScreen = true := by rw [finishLine_alternate h4]; exact halt2
    have hd := draw_ok h5
    simp only [exchange, saidFor_eq]
    refine ⟨haw', by rw [hd]; exact halt3, hclean, fun hf => ?_⟩
    rw [transcript_snoc, List.length_append, List.length_append] at hf
    have ih := ih (by omega)
    rw [← ih.width] at hf
    have hstart := ih.start
    have htl : (transcript s.width log).length = (transcript s0.width log).length := by rw [ih.width]
    have hcols : s.width = e2.cols := by rw [he1]; simp only; rw [ih.cols, ih.width]
    obtain ⟨h3w, hrows, hne, hlen, hnt, hwt⟩ := wrapped_rows hdw hcols (hclean0 line hsh)
    have hsr : e2.startRow = e.startRow := by rw [he1]
    have hsc : e2.startCol = 0 := by rw [he1]; exact ih.startCol
    obtain ⟨hA, hA1, hA2, hA3, hA4⟩ := alternate_start ih.ok (row := e2.startRow) (by rw [hsr, ih.height]; omega)
    have hfit : textRows (s.run [.moveTo 0 e2.startRow, .clearFromCursorDown]).width (inputRows s.width line) =
        inputRows s.width line :=
      textRows_fit fun t ht => by rw [hA1]; rw [hrows] at hwt; exact hwt t ht
    have hstart' : s.top + e2.startRow = s0.row + (transcript s.width log).length := by
      rw [ih.top, hsr, ih.width]; exact hstart
    have hih : s.RowsAre s0.row (transcript s.width log) := by rw [ih.width]; exact ih.rows
    rw [← ih.width] at hstart
    obtain ⟨hB1, hB2, hB3⟩ := lines_written true (inputRows s.width line) (by rw [← hrows]; exact hnt) hA
      (by rw [hfit, hA3, hA2, hstart', ih.top, ih.height]; intro; omega)
    rw [hfit] at hB1 hB2
    have hinput : s.run ([.readEvent] ++ drawOps e2 d) =
        (s.run [.moveTo 0 e2.startRow, .clearFromCursorDown]).run (linesOps true (inputRows s.width line)) := by
      have hops : drawOps e2 d = [.moveTo 0 e2.startRow, .clearFromCursorDown] ++ rowOps true d.rows ++
          newLineOps true ++ [.flush] := by
        unfold drawOps wrappedOps
        rw [h2, complete_cursor hdw h2, halt2, hsc]
        rfl
      have : [TermOp.readEvent] ++ drawOps e2 d = .readEvent :: drawOps e2 d := rfl
      rw [this, run_cons, hops, run_append, run_append, run_append]
      have h0 : s.after .readEvent = s := rfl
      rw [h0, rowOps_lines true d.rows _ hne, hrows]
      rfl
    have hw2 : ((s.run [.moveTo 0 e2.startRow, .clearFromCursorDown]).run (linesOps true (inputRows s.width line))).width =
        s.width := hB3.width.trans hA1
    have htop2 : ((s.run [.moveTo 0 e2.startRow, .clearFromCursorDown]).run (linesOps true (inputRows s.width line))).top =
        s0.top := by
      have e1 := hB3.top
      have e2 := hB1.atStart.1
      rw [hA2, hA3, e2, hstart', ih.top, ih.height] at e1
      omega
    have hh2 : ((s.run [.moveTo 0 e2.startRow, .clearFromCursorDown]).run (linesOps true (inputRows s.width line))).height =
        s0.height := by rw [hB3.height, hA2, ih.height]
    obtain ⟨hC1, hC2, hC3⟩ := lines_written true (splitLines (out.text errorText)) (splitLines_clean _) hB1
      (by rw [hw2, ← outputRows_eq, htop2, hh2, hstart']; intro; omega)
    rw [hw2, ← outputRows_eq] at hC1 hC2
    have hbefore : s.run ([.readEvent] ++ drawOps e2 d ++ outputOps e3.args.alternateScreen (out.text errorText)) =
        ((s.run [.moveTo 0 e2.startRow, .clearFromCursorDown]).run (linesOps true (inputRows s.width line))).run
          (linesOps true (splitLines (out.text errorText))) := by
      rw [run_append, hinput, halt3, outputOps_eq, run_append]
      rfl
    have ht := htruth _ _ rfl
    rw [hbefore] at ht
    have hrunAll : s.run ([.readEvent] ++ drawOps e2 d ++ outputOps e3.args.alternateScreen (out.text errorText) ++
        (.queryPosition :: .querySize :: drawOps e' d')) =
        (((s.run [.moveTo 0 e2.startRow, .clearFromCursorDown]).run (linesOps true (inputRows s.width line))).run
          (linesOps true (splitLines (out.text errorText)))).run (drawOps e' d') := by
      rw [run_append, hbefore]
      rfl
    rw [hrunAll]
    generalize hS0 : s.run [.moveTo 0 e2.startRow, .clearFromCursorDown] = S0 at *
    generalize hS1 : S0.run (linesOps true (inputRows s.width line)) = S1 at *
    generalize hS : S1.run (linesOps true (splitLines (out.text errorText))) = S at *
    have hSw : S.width = s.width := hC3.width.trans hw2
    have hSrow := hC1.atStart.1
    have hScol := hC1.atStart.2.1
    have hSh : S.height = s0.height := hC3.height.trans hh2
    have hStop : S.top = s0.top := by
      have e1 := hC3.top
      rw [hh2, htop2, hSrow, hstart'] at e1
      omega
    have htc : t.cols = s.width := by rw [ht]; exact hSw
    have htcol : t.startCol = 0 := by rw [ht]; simp only [Screen.reports, hScol, Nat.zero_min]
    have htrow : t.startRow = S.row - s0.top := by rw [ht]; simp only [Screen.reports, hStop]
    have hSab := hC1.ok.above
    have hSbe := hC1.ok.below
    rw [hStop] at hSab
    rw [hStop, hSh] at hSbe
    obtain ⟨he, hk, hshow⟩ := drawn_alternate (line := line') h5
      (by rw [hd] at ho'; exact ⟨ho'.hist, ho'.shows, ho'.cursor, ho'.db⟩) rfl halt3 htcol hn' (s := S) hC1.ok
      (by show t.startRow < S.height; rw [htrow, hSh]; omega) (by show S.width = t.cols; rw [htc, hSw])
    have hbase : S.top + (e3.newLine t).startRow = S.row := by
      show S.top + t.startRow = S.row
      rw [htrow, hStop]; omega
    rw [hbase] at hk
    have hrowS : S.row = s0.row + (transcript s0.width (log ++ [(line, out.text errorText)])).length := by
      rw [hSrow, transcript_snoc, ← ih.width, hstart']
      simp only [List.length_append]
      omega
    refine ⟨hk.ok, by rw [hk.width, hSw, ih.width], by rw [hk.height, hSh], by rw [hk.top, hStop],
      by rw [hd, ← ih.width]; exact htc, by rw [hd]; exact htcol, ?_, ?_, ?_, ?_⟩
    · have : e'.startRow = t.startRow := by rw [hd]; rfl
      rw [this, htrow, ← hrowS]
      omega
    · intro r c hlt
      rw [hk.above r c (by omega), hC3.above r c (by omega), hB3.above r c (by omega), hA4 r c (by omega)]
      exact ih.above r c hlt
    · have hab : s.SameAbove S (s.top + e2.startRow) := fun r c hlt => by
        rw [hC3.above r c (by omega), hB3.above r c hlt, hA4 r c hlt]
      have k1 : S.RowsAre s0.row (transcript s.width log) := RowsAre.keep hih hSw hab (by omega)
      have k2 : S.RowsAre (s.top + e2.startRow) (inputRows s.width line) :=
        RowsAre.keep hB2 (by rw [hC3.width]) hC3.above (Nat.le_refl _)
      have k3 := RowsAre.append k1 (rows' := inputRows s.width line ++ outputRows s.width (out.text errorText))
        (by rw [← hstart']; exact RowsAre.append k2 hC2)
      rw [← ih.width, transcript_snoc] at hrowS ⊢
      exact RowsAre.keep k3 hk.width hk.above (by omega)
    · intro l hl
      rw [hl.unique hsh']
      exact hshow

theorem alternate_course {m : Machine} {errorText : RuntimeErr → Str} {args : Args} {s0 s : Screen}
    {e : Editor} {log : List (Str × Str)} (h : Course m table errorText args s0 e s log) (ha : args.alternateScreen = true)
    (hok : s0.Ok) (hcol : s0.col = 0) :
    Awaits m table e ∧ e.args.alternateScreen = true ∧ (∀ line, Shows e line → '\n' ∉ line) ∧
      (s0.row + (transcript s0.width log).length < s0.top + s0.height → AlternateScreen s0 e s log) := by
  induction h with
  | @start db d e hst =>
    obtain ⟨ho, hc⟩ := start_ok hst
    have hst' := hst
    unfold Editor.start at hst'
    have hd := draw_ok hst'
    refine ⟨.start hst, by rw [hd]; exact ha, fun line hl => by rw [hl.unique ho.shows]; simp, fun _ => ?_⟩
    have hab := hok.above
    have hbe := hok.below
    obtain ⟨he, hk, hsh⟩ := drawn_alternate (line := []) hst'
      (by rw [hd] at ho; exact ⟨ho.hist, ho.shows, ho.cursor, ho.db⟩) rfl ha
      (by simp only [Screen.reports, hcol, Nat.zero_min]) (by simp) (s := s0) hok
      (by simp only [Screen.reports]; omega) rfl
    have hrun : s0.run ([.queryPosition, .querySize] ++ drawOps e d) = s0.run (drawOps e d) := rfl
    have hbase : s0.top + (s0.row - s0.top) = s0.row := by omega
    simp only [Screen.reports] at hk
    rw [hbase] at hk
    rw [hrun]
    have hsr : e.startRow = s0.row - s0.top := by rw [hd]; rfl
    refine ⟨hk.ok, hk.width, hk.height, hk.top, by rw [hd]; rfl, by rw [hd]; simp only [Screen.reports, hcol, Nat.zero_min],
      by rw [hsr, hbase]; rfl, hk.above, fun i text hi => by simp [transcript] at hi, fun line hl => ?_⟩
    rw [hl.unique ho.shows]
    exact hsh
  | event _ h1 h2 h3 h4 h5 h6' ih => exact alternate_event ih h1 h2 h3 h4 h5 h6'

end Bcalc
