import Verif.Proof.Emulator4
import Verif.Props.Terminal

/-!
# The screen: C82 to C84
-/

namespace Bcalc
open Spec

/-! ## C82 A redraw shows the line and touches nothing else -/

theorem editRow_of {d : Drawing} {e : Editor} {line : Str} (h : ScrollView d e line) {col : Nat}
    (hc : d.cursor = some (col, none)) : EditRow e.cols line e.scrollOffset e.cursorPos (drawnRow d) col := by
  obtain ⟨opener, text, col', hrows, hlen, ⟨hidden, hline, hclose⟩, hopen, hcur, hc1, hc2, hc3, hc4, hc5⟩ := h
  rw [hcur] at hc
  simp only [Option.some.injEq, Prod.mk.injEq, and_true] at hc
  subst hc
  have hrow : drawnRow d = opener ++ text ++ d.closer := by
    unfold drawnRow; rw [hrows]; simp [rowText]
  have ho : opener.length = 2 := by rcases hopen with ⟨rfl, _⟩ | ⟨rfl, _⟩ <;> decide
  refine ⟨opener, text, d.closer, hidden, hrow, ?_, hline, hclose, hopen, by omega, by omega, by omega, hc3, ?_⟩
  · rw [hrow]; simp only [List.length_append]; omega
  · intro c h
    have := hc5 c h
    rw [hrow, List.getElem?_append_left (List.getElem?_eq_some_iff.1 this).1]
    exact this

/-- On the normal screen: whatever is on the screen, a redraw replaces the row of the cursor by the prompt and the line (or
the part of it that fits), puts the cursor where it belongs, and changes no other row; nothing scrolls. -/
theorem C82_inline (m : Machine) (ce : CommandExecutor) (d : Drawing) (e : Editor) (line : Str) (s : Screen)
    (h : OnScreen m ce d e) (ha : e.args.alternateScreen = false) (h6 : 6 ≤ e.cols) (h16 : e.cols < 65536)
    (hs : Shows e line) (hn : '\n' ∉ line) (hw : s.width = e.cols) :
    ∃ row, EditRow s.width line e.scrollOffset e.cursorPos row (s.run (drawOps e d)).col ∧
      (s.run (drawOps e d)).RowIs s.row row ∧ (s.run (drawOps e d)).row = s.row ∧ (s.run (drawOps e d)).top = s.top ∧
      ∀ r c, r ≠ s.row → (s.run (drawOps e d)).cell r c = s.cell r c := by
  obtain ⟨e0, e1, l0, h1, h2, h3, h4⟩ := h.drawn
  obtain ⟨⟨l, ho⟩, hc⟩ := h.awaits.ok
  have hd := draw_ok h1
  have ha0 : e0.args.alternateScreen = false := by
    have := h4.args; rw [hd] at this; simp only at this; rw [← this]; exact ha
  have hcols : e.cols = e0.cols := by rw [h4.cols, hd]
  have hl0 : l0 = line := by
    have hx : Shows e1 line := h4.shows line hs
    have hy : Shows e1 l0 := by rw [hd]; exact h3.shows
    exact hy.unique hx
  subst hl0
  obtain ⟨col, hr, hcur, hcw⟩ := drawn_inline h1 h3 h2 ha0 (by rw [← hcols]; exact h6) (by rw [← hcols]; exact h16) hn
    (s := s) (by rw [hw, hcols])
  have hops : drawOps e d = drawOps e1 d := by
    unfold drawOps
    have hc1 : e1.inputComplete = false := by rw [hd]; exact h2
    rw [hc, hc1, ← h4.args, ha]
    simp
  obtain ⟨off, h5, h6'⟩ := draw_scrolled h3.shows h2 ha0 h1
  have hv := scrollView_of (by rw [← hcols]; exact h6) (by rw [← hcols]; exact h16) h3.cursor h5 h6'
  have hE := editRow_of hv hcur
  rw [← h4.cols, ← h4.offset, ← h4.cursor, ← hw] at hE
  rw [hops]
  refine ⟨drawnRow d, by rw [hr.col]; exact hE, hr.shows, hr.row, hr.top, hr.others⟩

theorem inputRows_get {w : Nat} {line : Str} {k r : Nat} {ch : Char} (hr : r < w - 2)
    (h : line[k * (w - 2) + r]? = some ch) : ∃ row, (inputRows w line)[k]? = some row ∧ row[2 + r]? = some ch := by
  have hn : 0 < w - 2 := by omega
  have hlt := (List.getElem?_eq_some_iff.1 h).1
  -- the piece
  have hp : ∀ (k : Nat) (text : Str), text[k * (w - 2) + r]? = some ch →
      ∃ piece, (pieces (w - 2) text)[k]? = some piece ∧ piece[r]? = some ch := by
    intro k
    induction k with
    | zero =>
      intro text h
      rw [Nat.zero_mul, Nat.zero_add] at h
      rw [pieces_head hn]
      refine ⟨_, rfl, ?_⟩
      rw [List.getElem?_take, if_pos hr]
      exact h
    | succ k ih =>
      intro text h
      have hl := (List.getElem?_eq_some_iff.1 h).1
      have he : (k + 1) * (w - 2) = k * (w - 2) + (w - 2) := by ring
      rw [pieces_long hn (by omega), List.getElem?_cons_succ]
      refine ih _ ?_
      rw [List.getElem?_drop, ← h]
      congr 1
      omega
  obtain ⟨piece, h1, h2⟩ := hp k line h
  have e1 : ("# ".toList : Str).length = 2 := by decide
  have e2 : ("  ".toList : Str).length = 2 := by decide
  unfold inputRows
  cases hps : pieces (w - 2) line with
  | nil => rw [hps] at h1; simp at h1
  | cons first rest =>
    rw [hps] at h1
    cases k with
    | zero =>
      simp only [List.getElem?_cons_zero, Option.some.injEq] at h1
      subst h1
      refine ⟨_, rfl, ?_⟩
      rw [List.getElem?_append_right (by omega), e1, ← h2]
      congr 1
      omega
    | succ k =>
      rw [List.getElem?_cons_succ] at h1
      simp only [List.getElem?_cons_succ, List.getElem?_map, h1, Option.map_some]
      refine ⟨_, rfl, ?_⟩
      rw [List.getElem?_append_right (by omega), e2, ← h2]
      congr 1
      omega

/-- On the alternate screen: a redraw changes nothing above the row in which the input starts, and nothing scrolls.  If
the input fits on the screen, it is shown in full, nothing else is on the rows from there on, and the cursor is on the
character it is at. -/
theorem C82_alternate (m : Machine) (ce : CommandExecutor) (d : Drawing) (e : Editor) (line : Str) (s : Screen)
    (h : OnScreen m ce d e) (ha : e.args.alternateScreen = true) (h16 : e.cols < 65536) (hh : s.height < 65536)
    (hcol : e.startCol = 0) (hrow : e.startRow < s.height)
    (hs : Shows e line) (hn : '\n' ∉ line) (hok : s.Ok) (hw : s.width = e.cols) :
    let s' := s.run (drawOps e d)
    s'.top = s.top ∧ s.SameAbove s' (s.top + e.startRow) ∧
    (e.startRow + (inputRows s.width line).length ≤ s.height →
      s'.RowsAre (s.top + e.startRow) (inputRows s.width line) ∧
      s'.BlankFrom (s.top + e.startRow + (inputRows s.width line).length)) ∧
    (e.startRow + e.cursorPos / (s.width - 2) < s.height →
      s'.row = s.top + e.startRow + e.cursorPos / (s.width - 2) ∧ s'.col = 2 + e.cursorPos % (s.width - 2)) ∧
    (e.startRow + (inputRows s.width line).length ≤ s.height → ∀ ch, line[e.cursorPos]? = some ch →
      s'.cell s'.row s'.col = ch) := by
  obtain ⟨e0, e1, l0, h1, h2, h3, h4⟩ := h.drawn
  obtain ⟨⟨l, ho⟩, hc⟩ := h.awaits.ok
  have hd := draw_ok h1
  have ha0 : e0.args.alternateScreen = true := by
    have := h4.args; rw [hd] at this; simp only at this; rw [← this]; exact ha
  have hcols : e.cols = e0.cols := by rw [h4.cols, hd]
  have hsr : e.startRow = e0.startRow := by rw [h4.row, hd]
  have hl0 : l0 = line := by
    have hx : Shows e1 line := h4.shows line hs
    have hy : Shows e1 l0 := by rw [hd]; exact h3.shows
    exact hy.unique hx
  subst hl0
  obtain ⟨he, hk, hshow⟩ := drawn_alternate h1 h3 h2 ha0 (by rw [← hcol, h4.col, hd]) hn (s := s) hok
    (by rw [← hsr]; exact hrow) (by rw [hw, hcols])
  have hops : drawOps e d = drawOps e1 d := by
    unfold drawOps wrappedOps
    have hc1 : e1.inputComplete = false := by rw [hd]; exact h2
    rw [hc, hc1, ← h4.args, ha, h4.col, h4.row]
  intro s'
  have hs' : s' = s.run (drawOps e1 d) := by rw [← hops]
  rw [← hs'] at hk hshow
  obtain ⟨hin, hcr⟩ := hshow
  have h3w : 3 ≤ s.width := by
    obtain ⟨hdw, _⟩ := draw_wrapped h3.shows ha0 h1
    have := (drawWrapped_inputRows hdw).1
    rw [hw, hcols]; exact this
  rw [hk.width, hk.height, hk.top, ← h4.row] at hin
  rw [hk.width, hk.height, hk.top, ← h4.row, ← h4.cursor] at hcr
  have hcr' : e.startRow + e.cursorPos / (s.width - 2) < s.height →
      s'.row = s.top + e.startRow + e.cursorPos / (s.width - 2) ∧ s'.col = 2 + e.cursorPos % (s.width - 2) :=
    fun hf => hcr (by omega) (by omega) hf
  refine ⟨hk.top, by rw [hsr]; exact hk.above, hin, hcr', ?_⟩
  intro hf ch hch
  have hm := Nat.mod_lt e.cursorPos (show 0 < s.width - 2 by omega)
  have hdm := Nat.div_add_mod e.cursorPos (s.width - 2)
  rw [Nat.mul_comm] at hdm
  obtain ⟨row, hr1, hr2⟩ := inputRows_get (k := e.cursorPos / (s.width - 2)) hm (by rw [hdm]; exact hch)
  have hlt := (List.getElem?_eq_some_iff.1 hr1).1
  obtain ⟨hc1, hc2⟩ := hcr' (by omega)
  obtain ⟨_, hcell⟩ := (hin hf).1 _ _ hr1
  rw [hc1, hc2, hcell _ (by rw [hk.width]; omega), List.getD_eq_getElem?_getD, hr2]
  rfl

/-! ## C83 The normal screen has the whole session -/

theorem inline_shows {m : Machine} {ce : CommandExecutor} {s0 s : Screen} {e : Editor} {log : List (Str × Str)} {line : Str}
    (hI : InlineScreen m ce s0 e s log) (h6 : 6 ≤ s0.width) (h16 : s0.width < 65536) (hs : Shows e line) :
    s0.SameAbove s s0.row ∧ s.RowsAre s0.row (transcript s0.width log) ∧
    s.row = s0.row + (transcript s0.width log).length ∧
    (∃ row offset, EditRow s0.width line offset e.cursorPos row s.col ∧ s.RowIs s.row row) ∧
    s.BlankFrom (s.row + 1) := by
  obtain ⟨d, hon, hrow, hcur, hcw⟩ := hI.drawn
  refine ⟨hI.above, hI.rows, hI.row, ?_, hI.blank⟩
  obtain ⟨e0, e1, l0, h1, h2, h3, h4⟩ := hon.drawn
  have hd := draw_ok h1
  have ha0 : e0.args.alternateScreen = false := by
    have := h4.args; rw [hd] at this; simp only at this; rw [← this]; exact hI.args
  have hcols : e.cols = e0.cols := by rw [h4.cols, hd]
  have hc0 := hI.cols
  have hl0 : l0 = line := by
    have hx : Shows e1 line := h4.shows line hs
    have hy : Shows e1 l0 := by rw [hd]; exact h3.shows
    exact hy.unique hx
  subst hl0
  obtain ⟨off, h5, h6'⟩ := draw_scrolled h3.shows h2 ha0 h1
  have hv := scrollView_of (by omega) (by omega) h3.cursor h5 h6'
  have hE := editRow_of hv hcur
  rw [← h4.cols, ← h4.offset, ← h4.cursor, hc0] at hE
  exact ⟨drawnRow d, e.scrollOffset, hE, hrow⟩

/-- A session on the normal screen, from its start on: the screen (with what has scrolled out of view) has, from the row
on which the program was started, all the inputs and their outputs, in full and in order; then the row in which the
current line is edited, with the cursor; then nothing.  What was there before the start is untouched. -/
theorem C83_transcript (m : Machine) (ce : CommandExecutor) (hce : CommandExecutor.new = .ok ce)
    (errorText : RuntimeErr → Str) (args : Args) (s0 s : Screen) (e : Editor) (log : List (Str × Str)) (line : Str)
    (h : Course m ce errorText args s0 e s log) (ha : args.alternateScreen = false) (hok : s0.Ok)
    (h6 : 6 ≤ s0.width) (h16 : s0.width < 65536) (hb : s0.BlankFrom (s0.row + 1)) (hs : Shows e line) :
    s0.SameAbove s s0.row ∧ s.RowsAre s0.row (transcript s0.width log) ∧
    s.row = s0.row + (transcript s0.width log).length ∧
    (∃ row offset, EditRow s0.width line offset e.cursorPos row s.col ∧ s.RowIs s.row row) ∧
    s.BlankFrom (s.row + 1) := by
  rw [new_eq_table hce] at h
  exact inline_shows (inline_course h ha hok h6 h16 hb) h6 h16 hs

/-- When the user quits, nothing that is on the screen is lost, and the cursor is on a blank row of its own below the input
(in the column where it was: the terminal is in raw mode, where a line feed does not return to the first column). -/
theorem C83_quit (m : Machine) (ce : CommandExecutor) (hce : CommandExecutor.new = .ok ce)
    (errorText : RuntimeErr → Str) (args a : Args) (s0 s : Screen) (e e' : Editor) (log : List (Str × Str)) (ev : Event)
    (t : TermInfo) (as : List Act)
    (h : Course m ce errorText args s0 e s log) (ha : args.alternateScreen = false) (hok : s0.Ok)
    (h6 : 6 ≤ s0.width) (h16 : s0.width < 65536) (hb : s0.BlankFrom (s0.row + 1))
    (hq : stepTrace m ce errorText e ev t = (as, a, .ok (true, e'))) :
    let s' := s.run (as.map (·.op))
    s.SameAbove s' (s.row + 1) ∧ s'.BlankFrom (s.row + 1) ∧ s'.row = s.row + 1 ∧ s'.col = s.col := by
  rw [new_eq_table hce] at h hq
  have hI := inline_course h ha hok h6 h16 hb
  have hops : as.map (·.op) = [.readEvent, .print ['\n']] := by
    unfold stepTrace at hq
    split at hq
    · cases hq
    · cases hq
    · cases hq
    · cases hq
    · injection hq with h1 _
      rw [← h1, if_neg (by rw [hI.args]; decide)]
      rfl
    · split at hq
      · cases hq
      · cases hq
      · cases hq
      · simp only at hq
        split at hq
        · split at hq
          · cases hq
          · cases hq
          · cases hq
          · unfold newLineTrace at hq
            split at hq
            · cases hq
            · cases hq
            · cases hq
            · cases hq
        · cases hq
  rw [hops]
  have hrun : s.run [.readEvent, .print ['\n']] = s.lineFeed := rfl
  rw [hrun]
  have hbl := hI.blank
  unfold Screen.lineFeed
  split
  · exact ⟨fun _ _ _ => rfl, hbl, rfl, rfl⟩
  · refine ⟨fun r c hr => if_neg (Nat.ne_of_lt hr), fun r c hr hc => ?_, rfl, rfl⟩
    simp only at hc ⊢
    split
    · rfl
    · exact hbl r c hr hc

/-! ## C84 The alternate screen shows the whole session as long as there is room -/

theorem alternate_shows {s0 s : Screen} {e : Editor} {log : List (Str × Str)} {line : Str} (hA : AlternateScreen s0 e s log)
    (hs : Shows e line) :
    s0.SameAbove s s0.row ∧ s.top = s0.top ∧ s.RowsAre s0.row (transcript s0.width log) ∧
    (s0.row + (transcript s0.width log ++ inputRows s0.width line).length ≤ s0.top + s0.height →
      s.RowsAre s0.row (transcript s0.width log ++ inputRows s0.width line) ∧
      s.BlankFrom (s0.row + (transcript s0.width log ++ inputRows s0.width line).length)) := by
  refine ⟨hA.above, hA.top, hA.rows, fun hf => ?_⟩
  rw [List.length_append] at hf ⊢
  have hst := hA.start
  have hin := (hA.shows line hs).input
  rw [hA.width, hA.height, hA.top, hst] at hin
  obtain ⟨h1, h2⟩ := hin (by omega)
  rw [Nat.add_assoc] at h2
  exact ⟨RowsAre.append hA.rows h1, h2⟩

/-- A session on the alternate screen, from its start on, as long as there is a row left for the prompt: the screen has,
from the first row on, all the inputs and their outputs, in full and in order, and has not scrolled; if the current
line fits below, it is shown there in full, and then nothing. -/
theorem C84_transcript (m : Machine) (ce : CommandExecutor) (hce : CommandExecutor.new = .ok ce)
    (errorText : RuntimeErr → Str) (args : Args) (s0 s : Screen) (e : Editor) (log : List (Str × Str)) (line : Str)
    (h : Course m ce errorText args s0 e s log) (ha : args.alternateScreen = true) (hok : s0.Ok) (hcol : s0.col = 0)
    (hroom : s0.row + (transcript s0.width log).length < s0.top + s0.height) (hs : Shows e line) :
    s0.SameAbove s s0.row ∧ s.top = s0.top ∧ s.RowsAre s0.row (transcript s0.width log) ∧
    (s0.row + (transcript s0.width log ++ inputRows s0.width line).length ≤ s0.top + s0.height →
      s.RowsAre s0.row (transcript s0.width log ++ inputRows s0.width line) ∧
      s.BlankFrom (s0.row + (transcript s0.width log ++ inputRows s0.width line).length)) := by
  rw [new_eq_table hce] at h
  exact alternate_shows ((alternate_course h ha hok hcol).2.2.2 hroom) hs

/-- The cursor, too, is where it belongs, if that is on the screen. -/
theorem C84_cursor (m : Machine) (ce : CommandExecutor) (hce : CommandExecutor.new = .ok ce)
    (errorText : RuntimeErr → Str) (args : Args) (s0 s : Screen) (e : Editor) (log : List (Str × Str)) (line : Str)
    (h : Course m ce errorText args s0 e s log) (ha : args.alternateScreen = true) (hok : s0.Ok) (hcol : s0.col = 0)
    (h16 : s0.width < 65536) (hh : s0.height < 65536) (hs : Shows e line)
    (hroom : s0.row + (transcript s0.width log).length + e.cursorPos / (s0.width - 2) < s0.top + s0.height) :
    s.row = s0.row + (transcript s0.width log).length + e.cursorPos / (s0.width - 2) ∧
      s.col = 2 + e.cursorPos % (s0.width - 2) := by
  rw [new_eq_table hce] at h
  have hA := (alternate_course h ha hok hcol).2.2.2 (Nat.lt_of_le_of_lt (Nat.le_add_right _ _) hroom)
  have hst := hA.start
  have hc := (hA.shows line hs).cursor
  rw [hA.width, hA.height, hA.top, hst] at hc
  exact hc h16 (by omega) (by omega)

/-- The case the claim leaves out: once the prompt is on the last row, the answer to an input is gone as soon as it is
there (the terminal does not scroll): after Enter the screen is as before, with an empty prompt on the last row. -/
theorem C84_last_row_violation (m : Machine) (ce : CommandExecutor) (hce : CommandExecutor.new = .ok ce)
    (errorText : RuntimeErr → Str) (e e' : Editor) (s : Screen) (line output : Str) (mods : Mods) (t : TermInfo)
    (as : List Act) (a : Args)
    (haw : Awaits m ce e) (ha : e.args.alternateScreen = true) (hsc : e.startCol = 0) (hlast : e.startRow + 1 = s.height)
    (hok : s.Ok) (hw : s.width = e.cols) (hs : Shows e line) (hn : '\n' ∉ line)
    (h : stepTrace m ce errorText e (.key .enter mods) t = (as, a, .ok (false, e')))
    (htruth : Truthful s (as.map (·.op)) t)
    (hout : exchange errorText line (step m ce e (.key .enter mods) t) = [(line, output)])
    (hfits : ∀ l ∈ output.splitOn '\n', l.length ≤ s.width) :
    let s' := s.run (as.map (·.op))
    s'.top = s.top ∧ s.SameAbove s' (s.top + e.startRow) ∧ s'.RowIs (s.top + e.startRow) "# ".toList := by
  rw [new_eq_table hce] at haw h hout
  obtain ⟨out, ds, hstep, hst⟩ := stepTrace_cases h
  have ho := haw.line hs
  have hE := step_enter_ok ho hst
  have hshow' : Shows e' [] := by unfold Shows; rw [hE.inputs]; rfl
  have haw' := Awaits.event haw hst rfl
  have ho' := haw'.line hshow'
  rw [hst] at hout
  intro s'
  have hs' : s' = s.run (as.map (·.op)) := rfl
  rw [hs']
  clear_value s'
  clear hs'
  generalize as.map (·.op) = ops at hstep htruth
  cases hstep with
  | ignored h1 => cases h1
  | redrawn h1 h2 => cases h1; cases h2
  | @entered e1 e2 e3 _ d d' out h1 h2 h3 h4 h5 =>
    simp only [exchange, saidFor_eq, List.cons.injEq, Prod.mk.injEq, true_and, and_true] at hout
    subst hout
    have he1 : e1 = { e with inputComplete := true } := by cases h1; rfl
    have hs1 : Shows e1 line := by rw [he1]; exact ho.shows
    obtain ⟨hdw, he2⟩ := drawn_complete hs1 h2 h3
    subst he2
    have halt2 : e2.args.alternateScreen = true := by rw [he1]; exact ha
    have halt3 : e3.args.alternateScreen = true := by rw [finishLine_alternate h4]; exact halt2
    have hd := draw_ok h5
    have hcols : s.width = e2.cols := by rw [he1]; exact hw
    obtain ⟨h3w, hrows, hne, hlen, hnt, hwt⟩ := wrapped_rows hdw hcols hn
    have hsr : e2.startRow = e.startRow := by rw [he1]
    have hsc2 : e2.startCol = 0 := by rw [he1]; exact hsc
    obtain ⟨hA, hA1, hA2, hA3, hA4⟩ := alternate_start hok (row := e2.startRow) (by rw [hsr]; omega)
    rw [hsr] at hA hA1 hA2 hA3 hA4
    obtain ⟨hA5, hA6, _⟩ := hA.atStart
    have hinput : s.run ([.readEvent] ++ drawOps e2 d) =
        (s.run [.moveTo 0 e.startRow, .clearFromCursorDown]).run (linesOps true (d.rows.map rowText)) := by
      have hops : drawOps e2 d = [.moveTo 0 e.startRow, .clearFromCursorDown] ++ rowOps true d.rows ++
          newLineOps true ++ [.flush] := by
        unfold drawOps wrappedOps
        rw [h2, complete_cursor hdw h2, halt2, hsc2, hsr]
        rfl
      have : [TermOp.readEvent] ++ drawOps e2 d = .readEvent :: drawOps e2 d := rfl
      rw [this, run_cons, hops, run_append, run_append, run_append]
      have h0 : s.after .readEvent = s := rfl
      rw [h0, rowOps_lines true d.rows _ hne]
      rfl
    have hbefore : s.run ([.readEvent] ++ drawOps e2 d ++ outputOps e3.args.alternateScreen (out.text errorText)) =
        ((s.run [.moveTo 0 e.startRow, .clearFromCursorDown]).run (linesOps true (d.rows.map rowText))).run
          (linesOps true (splitLines (out.text errorText))) := by
      rw [run_append, hinput, halt3, outputOps_eq, run_append]
      rfl
    have ht := htruth _ _ rfl
    rw [hbefore] at ht
    have hrunAll : s.run ([.readEvent] ++ drawOps e2 d ++ outputOps e3.args.alternateScreen (out.text errorText) ++
        (.queryPosition :: .querySize :: drawOps e' d')) =
        (((s.run [.moveTo 0 e.startRow, .clearFromCursorDown]).run (linesOps true (d.rows.map rowText))).run
          (linesOps true (splitLines (out.text errorText)))).run (drawOps e' d') := by
      rw [run_append, hbefore]
      rfl
    rw [hrunAll]
    obtain ⟨hB, hB1, hB2⟩ := alternate_lines (base := s.top + e.startRow) (d.rows.map rowText) hA.ok (by omega) hA6 hnt
      (by rw [hA1]; exact hwt)
    obtain ⟨hC, hC1, hC2⟩ := alternate_lines (base := s.top + e.startRow) (splitLines (out.text errorText)) hB.ok hB1 hB2
      (splitLines_clean _) (by rw [splitLines_eq, hB.width, hA1]; exact hfits)
    generalize s.run [.moveTo 0 e.startRow, .clearFromCursorDown] = S0 at *
    generalize S0.run (linesOps true (d.rows.map rowText)) = S1 at *
    generalize S1.run (linesOps true (splitLines (out.text errorText))) = S at *
    have hSw : S.width = s.width := by rw [hC.width, hB.width, hA1]
    have hSh : S.height = s.height := by rw [hC.height, hB.height, hA2]
    have hSt : S.top = s.top := by rw [hC.top, hB.top, hA3]
    have hSbe := hC.ok.below
    rw [hSh, hSt] at hSbe
    have htc : t.cols = s.width := by rw [ht]; exact hSw
    have htcol : t.startCol = 0 := by rw [ht]; simp only [Screen.reports, hC2, Nat.zero_min]
    have htrow : t.startRow = e.startRow := by rw [ht]; simp only [Screen.reports, hSt]; omega
    obtain ⟨he, hk, hshow⟩ := drawn_alternate (line := []) h5
      (by rw [hd] at ho'; exact ⟨ho'.hist, ho'.shows, ho'.cursor, ho'.db⟩) rfl halt3 htcol (by simp) (s := S) hC.ok
      (by show t.startRow < S.height; rw [htrow, hSh]; omega) (by show S.width = t.cols; rw [htc, hSw])
    have hbase : S.top + (e3.newLine t).startRow = s.top + e.startRow := by
      show S.top + t.startRow = _
      rw [htrow, hSt]
    rw [hbase] at hk
    have hrow' : e'.startRow = e.startRow := by rw [hd]; exact htrow
    have hempty : inputRows s.width [] = ["# ".toList] := by
      unfold inputRows
      rw [pieces_short (by simp)]
      rfl
    refine ⟨by rw [hk.top, hSt], fun r c hlt => ?_, ?_⟩
    · rw [hk.above r c hlt, hC.above r c hlt, hB.above r c hlt, hA4 r c hlt]
    · have := hshow.input
      rw [hk.width, hk.height, hSw, hSh, hempty, hrow', hk.top, hSt] at this
      have := (this (by simp; omega)).1 0 _ rfl
      exact this

/-! ## Examples -/

/-- A blank screen, with the cursor at the beginning of a row. -/
def exBlank (width height row : Nat) : Screen := ⟨width, height, fun _ _ => ' ', 0, row, 0⟩

/-- What the terminal answers on the first question. -/
def exAnswer (s : Screen) (ops : List TermOp) : TermInfo := (s.run (ops.takeWhile (· ≠ .queryPosition))).reports

theorem exAnswer_truthful {s : Screen} {ops : List TermOp} {t : TermInfo} (h : ops.count .queryPosition ≤ 1)
    (ht : t = exAnswer s ops) : Truthful s ops t := by
  intro before after he
  subst he
  have hb : TermOp.queryPosition ∉ before := by
    intro hm
    have := List.count_pos_iff.2 hm
    rw [List.count_append, List.count_cons_self] at h
    omega
  rw [ht]
  unfold exAnswer
  congr 2
  clear h ht
  induction before with
  | nil => simp
  | cons x xs ih =>
    rw [List.mem_cons, not_or] at hb
    have hx : (decide (x ≠ TermOp.queryPosition)) = true := by simpa using Ne.symm hb.1
    rw [List.cons_append, List.takeWhile_cons, if_pos hx, ih hb.2]

/-- Where a session stands: the state, the screen and what has been entered and answered. -/
abbrev ExStand := Editor × Screen × List (Str × Str)

/-- Whether the terminal answers truthfully. -/
def exTruthful (s : Screen) (ops : List TermOp) (t : TermInfo) : Bool :=
  if .queryPosition ∈ ops then decide (ops.count .queryPosition ≤ 1) && decide (t = exAnswer s ops) else true

theorem exTruthful_is {s : Screen} {ops : List TermOp} {t : TermInfo} (h : exTruthful s ops t = true) :
    Truthful s ops t := by
  unfold exTruthful at h
  split at h
  · simp only [Bool.and_eq_true, decide_eq_true_eq] at h
    exact exAnswer_truthful h.1 h.2
  · rename_i hn
    intro before after he
    exact absurd (by rw [he]; simp) hn

/-- The session handles an event; `t` is what the terminal answers when it is asked. -/
def exStand (ev : Event × TermInfo) : ExStand → Option ExStand
  | (e, s, log) =>
    match (e.inputs.currentLine : Outcome RuntimeErr Str),
        stepTrace (exMachine true) table (fun _ => []) e ev.1 ev.2 with
    | .ok line, (as, _, .ok (false, e')) =>
      match (e'.inputs.currentLine : Outcome RuntimeErr Str) with
      | .ok line' =>
        if exTruthful s (as.map (·.op)) ev.2 = true ∧ '\n' ∉ line' ∧
            (match ev.1 with | .resize _ => false | _ => true) = true then
          some (e', s.run (as.map (·.op)),
            log ++ exchange (fun _ => []) line (step (exMachine true) table e ev.1 ev.2))
        else none
      | _ => none
    | _, _ => none

/-- A session on a screen. -/
def exCourse (args : Args) (s0 : Screen) (events : List (Event × TermInfo)) : Option ExStand :=
  match Editor.start (exMachine true) args none s0.reports with
  | .ok (d, e) =>
    events.foldl (fun st ev => st.bind (exStand ev)) (some (e, s0.run ([.queryPosition, .querySize] ++ drawOps e d), []))
  | _ => none

theorem exCourse_is {args : Args} {s0 : Screen} {events : List (Event × TermInfo)} {e : Editor} {s : Screen}
    {log : List (Str × Str)} (h : exCourse args s0 events = some (e, s, log)) :
    Course (exMachine true) table (fun _ => []) args s0 e s log := by
  unfold exCourse at h
  split at h
  · rename_i d e0 hst
    have key : ∀ (events : List (Event × TermInfo)) (st : Option ExStand),
        (∀ e s log, st = some (e, s, log) → Course (exMachine true) table (fun _ => []) args s0 e s log) →
        ∀ e s log, events.foldl (fun st ev => st.bind (exStand ev)) st = some (e, s, log) →
          Course (exMachine true) table (fun _ => []) args s0 e s log := by
      intro events
      induction events with
      | nil => intro st h; exact h
      | cons ev events ih =>
        intro st hst
        rw [List.foldl_cons]
        refine ih _ ?_
        intro e s log he
        obtain ⟨⟨e1, s1, log1⟩, h1, h2⟩ := Option.bind_eq_some_iff.1 he
        have hc := hst _ _ _ h1
        unfold exStand at h2
        simp only at h2
        split at h2
        · rename_i line as a e' hl hs
          split at h2
          · rename_i line' hl'
            obtain ⟨⟨h3, h5, h6⟩, h2⟩ := Option.ite_none_right_eq_some.1 h2
            simp only [Option.some.injEq, Prod.mk.injEq] at h2
            obtain ⟨rfl, rfl, rfl⟩ := h2
            exact Course.event hc hl (by intro w hw; rw [hw] at h6; simp at h6) hs (exTruthful_is h3) hl' h5
          · cases h2
        · cases h2
    refine key events _ ?_ _ _ _ h
    intro e s log he
    simp only [Option.some.injEq, Prod.mk.injEq] at he
    obtain ⟨rfl, rfl, rfl⟩ := he
    exact Course.start hst
  · cases h

/-- Typing a text (the terminal is not asked anything). -/
def exUnasked (text : String) : List (Event × TermInfo) := (typed text).map (·, ⟨0, 0, 0⟩)

theorem exCourse_meets {args : Args} {s0 : Screen} {events : List (Event × TermInfo)} {log : List (Str × Str)} {line : Str}
    (h : (exCourse args s0 events).map (fun x => (x.2.2, (x.1.inputs.currentLine : Outcome RuntimeErr Str))) =
      some (log, .ok line)) :
    ∃ e s, Course (exMachine true) table (fun _ => []) args s0 e s log ∧ Shows e line := by
  obtain ⟨⟨e, s, log⟩, h1, h2⟩ := Option.map_eq_some_iff.1 h
  simp only [Prod.mk.injEq] at h2
  obtain ⟨rfl, h2⟩ := h2
  exact ⟨e, s, exCourse_is h1, h2⟩

/-- The hypotheses of C83 are met: an input and its answer on the normal screen, and a digit of the next line. -/
example : ∃ e s, Course (exMachine true) table (fun _ => []) .default (exBlank 12 5 2) e s [("7".toList, "7".toList)] ∧
    Shows e "4".toList ∧ (exBlank 12 5 2).Ok ∧ (exBlank 12 5 2).BlankFrom ((exBlank 12 5 2).row + 1) := by
  obtain ⟨e, s, h1, h2⟩ := exCourse_meets (args := .default) (s0 := exBlank 12 5 2)
    (events := exUnasked "7" ++ [(.key .enter .none, ⟨0, 4, 12⟩)] ++ exUnasked "4") (log := [("7".toList, "7".toList)])
    (line := "4".toList) (by decide +kernel)
  exact ⟨e, s, h1, h2, ⟨by decide, by decide, by decide, by decide⟩, fun _ _ _ _ => rfl⟩

/-- And the user quits there with Ctrl+D. -/
example (e : Editor) (h : e.args.alternateScreen = false) (t : TermInfo) :
    stepTrace (exMachine true) table (fun _ => []) e (.key (.char 'd') .control) t =
      (acts e.args [.readEvent, .print ['\n']], e.args, .ok (true, e)) := by
  show (acts e.args ([.readEvent] ++ if e.args.alternateScreen then [] else [.print ['\n']]), e.args, _) = _
  rw [h]
  rfl

/-- The hypotheses of C84 are met: an input and its answer on an alternate screen of 5 columns, and a line that takes two
rows, which fill the screen. -/
example : ∃ e s, Course (exMachine true) table (fun _ => []) { Args.default with alternateScreen := true }
    (exBlank 5 4 0) e s [("7".toList, "7".toList)] ∧ Shows e "1234".toList ∧ (exBlank 5 4 0).Ok ∧
    (exBlank 5 4 0).row + (transcript 5 [("7".toList, "7".toList)] ++ inputRows 5 "1234".toList).length ≤ 4 := by
  obtain ⟨e, s, h1, h2⟩ := exCourse_meets (args := { Args.default with alternateScreen := true }) (s0 := exBlank 5 4 0)
    (events := exUnasked "7" ++ [(.key .enter .none, ⟨0, 2, 5⟩)] ++ exUnasked "1234") (log := [("7".toList, "7".toList)])
    (line := "1234".toList) (by decide +kernel)
  refine ⟨e, s, h1, h2, ⟨by decide, by decide, by decide, by decide⟩, ?_⟩
  have e1 : inputRows 5 "7".toList = ["# 7".toList] := by
    unfold inputRows; rw [pieces_short (by decide)]; rfl
  have e2 : outputRows 5 "7".toList = ["7".toList] := by
    unfold outputRows; rw [← splitLines_eq]
    have : splitLines "7".toList = ["7".toList] := by decide +kernel
    rw [this, List.map_cons, pieces_short (by decide)]; rfl
  have e3 : (inputRows 5 "1234".toList).length = 2 := by
    unfold inputRows
    rw [pieces_long (by decide) (by decide), pieces_short (by decide)]
    rfl
  simp only [transcript, List.map_cons, List.map_nil, List.flatten_cons, List.flatten_nil, e1, e2, List.length_append, e3]
  decide

/-- The hypotheses of C84_last_row_violation are met: on a screen of one row. -/
example : (∃ e', (stepTrace (exMachine true) table (fun _ => []) (exAfter 8 true (typed "2*2")) (.key .enter .none)
      ⟨0, 0, 8⟩).2.2 = .ok (false, e')) ∧
    exTruthful (exBlank 8 1 0) ((stepTrace (exMachine true) table (fun _ => []) (exAfter 8 true (typed "2*2"))
      (.key .enter .none) ⟨0, 0, 8⟩).1.map (·.op)) ⟨0, 0, 8⟩ = true ∧
    exchange (fun _ => []) "2*2".toList (step (exMachine true) table (exAfter 8 true (typed "2*2")) (.key .enter .none)
      ⟨0, 0, 8⟩) = [("2*2".toList, "4".toList)] := by
  refine ⟨?_, by decide +kernel, by decide +kernel⟩
  have h : (match (stepTrace (exMachine true) table (fun _ => []) (exAfter 8 true (typed "2*2")) (.key .enter .none)
      ⟨0, 0, 8⟩).2.2 with | .ok (false, _) => true | _ => false) = true := by decide +kernel
  revert h
  cases (stepTrace (exMachine true) table (fun _ => []) (exAfter 8 true (typed "2*2")) (.key .enter .none)
      ⟨0, 0, 8⟩).2.2 with
  | ok x => obtain ⟨b, e'⟩ := x; cases b <;> simp
  | err => simp
  | panic => simp
  | diverge => simp

/-- The states C82 is about: any state of a session. -/
example : OnScreen (exMachine true) table ⟨[("# ".toList, [])], [], some (2, none)⟩ (exAfter 12 false []) ∧
    Shows (exAfter 12 false []) [] := by
  refine ⟨?_, ?_⟩
  · refine OnScreen.start (args := .default) (db := none) (t := ⟨0, 0, 12⟩) ?_
    rfl
  · show _ = _
    decide +kernel

end Bcalc
