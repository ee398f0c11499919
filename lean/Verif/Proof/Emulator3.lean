import Verif.Proof.Emulator2

/-! # Whole sessions on the screen -/

namespace Bcalc
open Spec

theorem saidFor_eq (errorText : RuntimeErr → Str) (out : Shown) : saidFor errorText out = out.text errorText := by
  cases out <;> rfl

/-- The course of an event that does not end the session, with the operations on the terminal. -/
inductive TraceStep (m : Machine) (ce : CommandExecutor) (errorText : RuntimeErr → Str) (e : Editor) (ev : Event)
    (t : TermInfo) : List TermOp → Option Shown → List Drawing → Editor → Prop
  | ignored {e'} : handleEvent e ev = .ok (.ignore, e') → TraceStep m ce errorText e ev t [.readEvent] none [] e'
  | redrawn {e1 e' d} : handleEvent e ev = .ok (.redraw, e1) → e1.inputComplete = false → draw m e1 = .ok (d, e') →
      TraceStep m ce errorText e ev t ([.readEvent] ++ drawOps e' d) none [d] e'
  | entered {e1 e2 e3 e' d d' out} : handleEvent e ev = .ok (.redraw, e1) → e1.inputComplete = true →
      draw m e1 = .ok (d, e2) → finishLine m ce e2 = .ok (out, e3) → draw m (e3.newLine t) = .ok (d', e') →
      TraceStep m ce errorText e ev t
        (([.readEvent] ++ drawOps e2 d ++ outputOps e3.args.alternateScreen (out.text errorText)) ++
          (.queryPosition :: .querySize :: drawOps e' d')) (some out) [d, d'] e'

theorem map_acts (args : Args) (ops : List TermOp) : (acts args ops).map (·.op) = ops := by
  simp [acts, Function.comp_def]

theorem stepTrace_cases {m : Machine} {ce : CommandExecutor} {errorText : RuntimeErr → Str} {e e' : Editor} {ev : Event}
    {t : TermInfo} {as : List Act} {a : Args} (h : stepTrace m ce errorText e ev t = (as, a, .ok (false, e'))) :
    ∃ out ds, TraceStep m ce errorText e ev t (as.map (·.op)) out ds e' ∧
      step m ce e ev t = .ok (⟨ds, out, false⟩, e') := by
  have hres := stepTrace_result m ce errorText e ev t
  rw [h] at hres
  cases hst : step m ce e ev t with
  | err x => rw [hst] at hres; cases hres
  | panic x => rw [hst] at hres; cases hres
  | diverge => rw [hst] at hres; cases hres
  | ok r =>
    obtain ⟨⟨ds, out, q⟩, e2⟩ := r
    rw [hst] at hres
    simp only [stepResult, Outcome.ok.injEq, Prod.mk.injEq] at hres
    obtain ⟨rfl, rfl⟩ := hres
    refine ⟨out, ds, ?_, rfl⟩
    unfold stepTrace at h
    cases step_cases hst with
    | ignored h1 =>
      rw [h1] at h
      simp only [Prod.mk.injEq] at h
      rw [← h.1, map_acts]
      exact .ignored h1
    | redrawn h1 h2 h3 =>
      rw [h1] at h
      simp only at h
      rw [h3] at h
      have hc : e'.inputComplete = false := by rw [draw_ok h3]; exact h2
      simp only [hc, Bool.false_eq_true, if_false, Prod.mk.injEq] at h
      rw [← h.1, map_acts]
      exact .redrawn h1 h2 h3
    | @entered e1 e2 e3 _ d d' out h1 h2 h3 h4 h5 =>
      rw [h1] at h
      simp only at h
      rw [h3] at h
      have hc : e2.inputComplete = true := by rw [draw_ok h3]; exact h2
      simp only [hc, if_true] at h
      rw [h4] at h
      simp only [newLineTrace, h5, Prod.mk.injEq] at h
      rw [← h.1, List.map_append, List.map_append, map_acts, map_acts, map_acts]
      exact .entered h1 h2 h3 h4 h5

theorem drawWrapped_cursor {m : Machine} {e : Editor} {line : Str} {d : Drawing} (h : drawWrapped m e line = .ok d) :
    ∃ col row, d.cursor = if e.inputComplete then none else some (col, some row) := by
  unfold drawWrapped at h
  simp only at h
  split at h
  · cases h
  · split at h
    · cases h
    · obtain ⟨_, _, h⟩ := outcome_bind_ok h
      obtain ⟨row, _, h⟩ := outcome_bind_ok h
      obtain ⟨col, _, h⟩ := outcome_bind_ok h
      obtain ⟨_, _, h⟩ := outcome_bind_ok h
      obtain ⟨_, _, h⟩ := outcome_bind_ok h
      simp only [Outcome.ok.injEq] at h
      exact ⟨col, row, by rw [← h]⟩

theorem complete_cursor {m : Machine} {e : Editor} {line : Str} {d : Drawing} (h : drawWrapped m e line = .ok d)
    (hc : e.inputComplete = true) : d.cursor = none := by
  obtain ⟨col, row, hcur⟩ := drawWrapped_cursor h
  rw [hcur, hc]
  rfl

/-! ## The inline view -/

/-- A redraw of the inline view. -/
theorem drawn_inline {m : Machine} {e1 e2 : Editor} {d : Drawing} {line : Str} (hd : draw m e1 = .ok (d, e2))
    (ho : EditorOk e1 line) (hc : e1.inputComplete = false) (ha : e1.args.alternateScreen = false)
    (h6 : 6 ≤ e1.cols) (h16 : e1.cols < 65536) (hn : '\n' ∉ line) {s : Screen} (hw : s.width = e1.cols) :
    ∃ col, RowRedrawn s (s.run (drawOps e2 d)) (drawnRow d) col ∧ d.cursor = some (col, none) ∧ col < s.width := by
  obtain ⟨off, h1, h2⟩ := draw_scrolled ho.shows hc ha hd
  have hv := scrollView_of h6 h16 ho.cursor h1 h2
  have hcols : e2.cols = e1.cols := by rw [h2]
  obtain ⟨opener, text, col, hrows, hlen, ⟨hidden, hline, hclose⟩, hopen, hcur, hc1, hc2, hc3, _⟩ := hv
  rw [hcols] at hlen hc3
  have hops : drawOps e2 d = scrolledOps d := by
    unfold drawOps
    rw [h2]
    simp only [ha, hc, Bool.or_self, Bool.false_eq_true, if_false]
  have hrow : drawnRow d = opener ++ text ++ d.closer := by
    unfold drawnRow; rw [hrows]; simp [rowText]
  rw [hops]
  refine ⟨col, scrolled_run hrows hcur (by omega) ?_ ?_, hcur, by omega⟩
  · rw [hrow]
    have e1 : '\n' ∉ opener := by rcases hopen with ⟨rfl, _⟩ | ⟨rfl, _⟩ <;> decide
    have e2 : '\n' ∉ d.closer := by rcases hclose with ⟨h, _⟩ | ⟨h, _⟩ <;> rw [h] <;> decide
    have e3 : '\n' ∉ text := by
      intro hm
      apply hn
      rw [hline]
      simp [hm]
    simp only [List.mem_append, not_or]
    exact ⟨⟨e1, e3⟩, e2⟩
  · rw [hrow]
    simp only [List.length_append]
    omega

/-- What the screen shows in a session on the normal screen. -/
structure InlineScreen (m : Machine) (ce : CommandExecutor) (s0 : Screen) (e : Editor) (s : Screen)
    (log : List (Str × Str)) : Prop where
  ok : s.Ok
  width : s.width = s0.width
  height : s.height = s0.height
  args : e.args.alternateScreen = false
  cols : e.cols = s0.width
  above : s0.SameAbove s s0.row
  rows : s.RowsAre s0.row (transcript s0.width log)
  row : s.row = s0.row + (transcript s0.width log).length
  drawn : ∃ d, OnScreen m ce d e ∧ s.RowIs s.row (drawnRow d) ∧ d.cursor = some (s.col, none) ∧ s.col < s.width
  blank : s.BlankFrom (s.row + 1)
  clean : ∀ line, Shows e line → '\n' ∉ line

theorem RowRedrawn.ok {s s' : Screen} {text : Str} {col : Nat} (h : RowRedrawn s s' text col) (ho : s.Ok) (hc : col < s.width) :
    s'.Ok :=
  ⟨by rw [h.width]; exact ho.wide, by rw [h.top, h.row]; exact ho.above, by rw [h.top, h.row, h.height]; exact ho.below,
    by rw [h.col, h.width]; omega⟩

theorem transcript_snoc (w : Nat) (log : List (Str × Str)) (line out : Str) :
    transcript w (log ++ [(line, out)]) = transcript w log ++ (inputRows w line ++ outputRows w out) := by
  simp [transcript]

theorem outputRows_eq (w : Nat) (text : Str) : outputRows w text = textRows w (splitLines text) := by
  rw [splitLines_eq]; rfl

theorem outputOps_eq (alt : Bool) (text : Str) : outputOps alt text = linesOps alt (splitLines text) ++ [.flush] := rfl

/-- What an event that does not end the session leaves of the screen. -/
theorem inline_event {m : Machine} {errorText : RuntimeErr → Str} {s0 s : Screen} {e e' : Editor} {log : List (Str × Str)}
    {line line' : Str} {ev : Event} {t : TermInfo} {as : List Act} {a : Args} (h6 : 6 ≤ s0.width) (h16 : s0.width < 65536)
    (ih : InlineScreen m table s0 e s log) (hsh : Shows e line) (hre : ∀ w, ev ≠ .resize w)
    (htr : stepTrace m table errorText e ev t = (as, a, .ok (false, e'))) (htruth : Truthful s (as.map (·.op)) t)
    (hsh' : Shows e' line') (hn' : '\n' ∉ line') :
    InlineScreen m table s0 e' (s.run (as.map (·.op))) (log ++ exchange errorText line (step m table e ev t)) := by
  obtain ⟨d0, hon, hrow0, hcur0, hcol0⟩ := ih.drawn
  obtain ⟨out, ds, hstep, hst⟩ := stepTrace_cases htr
  have ho := hon.awaits.line hsh
  have hc0 : e.inputComplete = false := hon.awaits.ok.2
  have hon' := OnScreen.event hon hst rfl
  have ho' := hon'.awaits.line hsh'
  have hclean : ∀ l, Shows e' l → '\n' ∉ l := fun l hl => by rw [hl.unique hsh']; exact hn'
  rw [hst]
  generalize as.map (·.op) = ops at hstep htruth
  cases hstep with
  | ignored h1 =>
    have hv := ignored_same ho (by simp) h1
    have hrun : s.run [.readEvent] = s := rfl
    rw [hrun]
    simp only [exchange, List.append_nil]
    exact ⟨ih.ok, ih.width, ih.height, by rw [hv.args]; exact ih.args, by rw [hv.cols]; exact ih.cols, ih.above, ih.rows,
      ih.row, ⟨d0, hon', hrow0, hcur0, hcol0⟩, ih.blank, hclean⟩
  | @redrawn e1 _ d h1 h2 h3 =>
    have hargs : e1.args = e.args := handleEvent_args h1
    have hd := draw_ok h3
    have hcols : e1.cols = e.cols := by
      rcases handleEvent_inv ho ev with ⟨err, he⟩ | ⟨a', e1', he, hnx⟩
      · rw [h1] at he; cases he
      · rw [h1] at he; cases he
        exact hnx.cols.resolve_right (hre _)
    obtain ⟨col, hr, hcur, hcw⟩ := drawn_inline (line := line') h3
      (by rw [hd] at ho'; exact ⟨ho'.hist, ho'.shows, ho'.cursor, ho'.db⟩) h2 (by rw [hargs]; exact ih.args)
      (by rw [hcols, ih.cols]; exact h6) (by rw [hcols, ih.cols]; exact h16) hn' (s := s)
      (by rw [hcols, ih.cols, ih.width])
    have hrun : s.run ([.readEvent] ++ drawOps e' d) = s.run (drawOps e' d) := rfl
    rw [hrun]
    simp only [exchange, List.append_nil]
    refine ⟨hr.ok ih.ok hcw, hr.width.trans ih.width, hr.height.trans ih.height, by rw [hd]; simp only; rw [hargs]; exact ih.args,
      by rw [hd]; simp only; rw [hcols]; exact ih.cols, ?_, ?_, by rw [hr.row]; exact ih.row, ?_, ?_, hclean⟩
    · intro r c hlt
      have := ih.row
      rw [hr.others r c (by omega), ih.above r c hlt]
    · refine RowsAre.keep (base' := s.row) ih.rows hr.width (fun r c hlt => hr.others r c (by omega)) ?_
      have := ih.row
      omega
    · refine ⟨d, hon', ?_, by rw [hr.col]; exact hcur, by rw [hr.col, hr.width]; exact hcw⟩
      rw [hr.row]; exact hr.shows
    · intro r c hlt hcw
      rw [hr.row] at hlt
      rw [hr.width] at hcw
      rw [hr.others r c (by omega)]
      exact ih.blank r c hlt hcw
  | @entered e1 e2 e3 _ d d' out h1 h2 h3 h4 h5 =>
    have hen : isEnter ev = true := by
      rcases handleEvent_inv ho ev with ⟨err, he⟩ | ⟨a', e1', he, hnx⟩
      · rw [h1] at he; cases he
      · rw [h1] at he; cases he
        have := hnx.complete
        rw [h2, hc0] at this
        simpa using this.symm
    obtain ⟨mods, rfl⟩ := isEnter_iff hen
    have he1 : e1 = { e with inputComplete := true } := by cases h1; rfl
    have hs1 : Shows e1 line := by rw [he1]; exact ho.shows
    obtain ⟨hdw, he2⟩ := drawn_complete hs1 h2 h3
    subst he2
    have hcols : e2.cols = s.width := by rw [he1]; simp only; rw [ih.cols, ih.width]
    have halt2 : e2.args.alternateScreen = false := by rw [he1]; exact ih.args
    have halt3 : e3.args.alternateScreen = false := by rw [finishLine_alternate h4]; exact halt2
    obtain ⟨h3w, hrows⟩ := drawWrapped_inputRows hdw
    rw [hcols] at h3w hrows
    have hne : d.rows ≠ [] := by
      intro h0
      rw [h0] at hrows
      exact inputRows_ne line hrows.symm
    have hnl := ih.clean line hsh
    -- the input
    have hA : Writing (s.run [.moveToColumn 0, .clearCurrentLine]) s.row [] ∧
        (s.run [.moveToColumn 0, .clearCurrentLine]).width = s.width ∧
        Wrote s (s.run [.moveToColumn 0, .clearCurrentLine]) s.row := by
      have hr : s.run [.moveToColumn 0, .clearCurrentLine] =
          { s with col := 0, cell := fun r c => if r = s.row then ' ' else s.cell r c } := by
        change ({ s with col := min 0 (s.width - 1), cell := fun r c => if r = s.row then ' ' else s.cell r c } : Screen) = _
        rw [Nat.zero_min]
      rw [hr]
      have hok' : Screen.Ok { s with col := 0, cell := fun r c => if r = s.row then ' ' else s.cell r c } :=
        ⟨ih.ok.wide, ih.ok.above, ih.ok.below, by simp⟩
      refine ⟨writing_start hok' rfl ?_, rfl, rfl, rfl, ?_, ?_, Nat.le_refl _⟩
      · intro r c hge hcw
        simp only at hge hcw ⊢
        split
        · rfl
        · exact ih.blank r c (by omega) hcw
      · intro r c hlt
        simp only
        rw [if_neg (by omega)]
      · have := ih.ok.below
        simp only
        omega
    obtain ⟨hA1, hA2, hA3⟩ := hA
    have hfit : textRows (s.run [.moveToColumn 0, .clearCurrentLine]).width (inputRows s.width line) =
        inputRows s.width line :=
      textRows_fit fun t ht => by rw [hA2]; exact (inputRows_fit h3w ht).1
    obtain ⟨hB1, hB2, hB3⟩ := lines_written false (inputRows s.width line)
      (fun t ht => (inputRows_fit h3w ht).2 hnl) hA1 (by simp)
    rw [hfit] at hB1 hB2
    have hinput : s.run ([.readEvent] ++ drawOps e2 d) =
        (s.run [.moveToColumn 0, .clearCurrentLine]).run (linesOps false (inputRows s.width line)) := by
      have hops : drawOps e2 d = [.moveToColumn 0, .clearCurrentLine] ++ rowOps false d.rows ++
          newLineOps false ++ [.flush] := by
        unfold drawOps wrappedOps
        have hcur : d.cursor = none := complete_cursor hdw h2
        rw [h2, hcur, halt2]
        rfl
      have : [TermOp.readEvent] ++ drawOps e2 d = .readEvent :: drawOps e2 d := rfl
      rw [this, run_cons, hops, run_append, run_append, run_append]
      have h0 : s.after .readEvent = s := rfl
      rw [h0, rowOps_lines false d.rows _ hne, hrows]
      rfl
    -- the output
    obtain ⟨hC1, hC2, hC3⟩ := lines_written false (splitLines (out.text errorText)) (splitLines_clean _) hB1 (by simp)
    have hw2 : ((s.run [.moveToColumn 0, .clearCurrentLine]).run (linesOps false (inputRows s.width line))).width = s.width :=
      hB3.width.trans hA2
    rw [hw2, ← outputRows_eq] at hC1 hC2
    have hbefore : s.run ([.readEvent] ++ drawOps e2 d ++ outputOps e3.args.alternateScreen (out.text errorText)) =
        ((s.run [.moveToColumn 0, .clearCurrentLine]).run (linesOps false (inputRows s.width line))).run
          (linesOps false (splitLines (out.text errorText))) := by
      rw [run_append, hinput, halt3, outputOps_eq, run_append]
      rfl
    have ht := htruth _ _ rfl
    rw [hbefore] at ht
    have hrunAll : s.run ([.readEvent] ++ drawOps e2 d ++ outputOps e3.args.alternateScreen (out.text errorText) ++
        (.queryPosition :: .querySize :: drawOps e' d')) =
        (((s.run [.moveToColumn 0, .clearCurrentLine]).run (linesOps false (inputRows s.width line))).run
          (linesOps false (splitLines (out.text errorText)))).run (drawOps e' d') := by
      rw [run_append, hbefore]
      rfl
    rw [hrunAll]
    -- the new prompt
    generalize hS : ((s.run [.moveToColumn 0, .clearCurrentLine]).run (linesOps false (inputRows s.width line))).run
          (linesOps false (splitLines (out.text errorText))) = S at *
    have hSw : S.width = s.width := hC3.width.trans hw2
    have hd := draw_ok h5
    have htc : t.cols = s.width := by rw [ht]; exact hSw
    obtain ⟨col, hr, hcur, hcw⟩ := drawn_inline (line := line') h5
      (by rw [hd] at ho'; exact ⟨ho'.hist, ho'.shows, ho'.cursor, ho'.db⟩) rfl halt3
      (by show 6 ≤ t.cols; rw [htc, ih.width]; exact h6) (by show t.cols < 65536; rw [htc, ih.width]; exact h16) hn' (s := S)
      (by show S.width = t.cols; rw [htc, hSw])
    have hSrow := hC1.atStart.1
    have hSblank := hC1.atStart.2.2
    have hwrote : Wrote s S s.row := (hA3.trans hB3).trans (hC3.mono (by omega))
    have hih : s.row = s0.row + (transcript s.width log).length := by rw [ih.width]; exact ih.row
    have hihr : s.RowsAre s0.row (transcript s.width log) := by rw [ih.width]; exact ih.rows
    simp only [exchange, saidFor_eq]
    have hrowS : S.row = s0.row + (transcript s.width log ++ (inputRows s.width line ++ outputRows s.width (out.text errorText))).length := by
      rw [hSrow]
      simp only [List.length_append]
      omega
    refine ⟨hr.ok hC1.ok hcw, by rw [hr.width, hSw, ih.width], by rw [hr.height, hwrote.height]; exact ih.height,
      by rw [hd]; exact halt3, by rw [hd, ← ih.width]; exact htc, ?_, ?_,
      by rw [hr.row, ← ih.width, transcript_snoc]; exact hrowS, ?_, ?_, hclean⟩
    · intro r c hlt
      rw [hr.others r c (by omega), hwrote.above r c (by omega)]
      exact ih.above r c hlt
    · have k1 : S.RowsAre s0.row (transcript s.width log) :=
        RowsAre.keep (base' := s.row) hihr hSw hwrote.above (by omega)
      have k2 : S.RowsAre s.row (inputRows s.width line) :=
        RowsAre.keep (base' := s.row + (inputRows s.width line).length) hB2 (by rw [hC3.width]) hC3.above (by omega)
      have k3 := RowsAre.append k1 (rows' := inputRows s.width line ++ outputRows s.width (out.text errorText))
        (by rw [← hih]; exact RowsAre.append k2 hC2)
      rw [← ih.width, transcript_snoc]
      exact RowsAre.keep (base' := S.row) k3 hr.width (fun r c hlt => hr.others r c (by omega)) (by omega)
    · refine ⟨d', hon', ?_, by rw [hr.col]; exact hcur, by rw [hr.col, hr.width]; exact hcw⟩
      rw [hr.row]; exact hr.shows
    · intro r c hlt hcw
      rw [hr.row] at hlt
      rw [hr.width] at hcw
      rw [hr.others r c (by omega)]
      exact hSblank r c (by omega) hcw

theorem inline_course {m : Machine} {errorText : RuntimeErr → Str} {args : Args} {s0 s : Screen}
    {e : Editor} {log : List (Str × Str)} (h : Course m table errorText args s0 e s log) (ha : args.alternateScreen = false)
    (hok : s0.Ok) (h6 : 6 ≤ s0.width) (h16 : s0.width < 65536) (hb : s0.BlankFrom (s0.row + 1)) :
    InlineScreen m table s0 e s log := by
  induction h with
  | @start db d e hst =>
    obtain ⟨ho, hc⟩ := start_ok hst
    have hst' := hst
    unfold Editor.start at hst'
    have hd := draw_ok hst'
    obtain ⟨col, hr, hcur, hcw⟩ := drawn_inline (line := []) hst'
      (by rw [hd] at ho; exact ⟨ho.hist, ho.shows, ho.cursor, ho.db⟩) rfl ha h6 h16 (by simp) (s := s0) rfl
    have hrun : s0.run ([.queryPosition, .querySize] ++ drawOps e d) = s0.run (drawOps e d) := rfl
    rw [hrun]
    refine ⟨hr.ok hok hcw, hr.width, hr.height, by rw [hd]; exact ha, by rw [hd]; rfl,
      fun r c hlt => hr.others r c (by omega), fun i text hi => by simp [transcript] at hi, by rw [hr.row]; rfl, ?_, ?_, ?_⟩
    · refine ⟨d, .start hst, ?_, by rw [hr.col]; exact hcur, by rw [hr.col, hr.width]; exact hcw⟩
      rw [hr.row]; exact hr.shows
    · intro r c hlt hcw
      rw [hr.row] at hlt
      rw [hr.width] at hcw
      rw [hr.others r c (by omega)]
      exact hb r c hlt hcw
    · intro line hl
      rw [hl.unique ho.shows]
      simp
  | event _ h1 h2 h3 h4 h5 h6' ih => exact inline_event h6 h16 ih h1 h2 h3 h4 h5 h6'

end Bcalc
