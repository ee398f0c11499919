import Verif.Proof.Emulator

/-! # Redraws on the screen -/

namespace Bcalc
open Spec

/-! ## The texts -/

theorem splitLines_eq (text : Str) : splitLines text = text.splitOn '\n' := by
  induction text with
  | nil => simp [splitLines]
  | cons c cs ih =>
    rw [List.splitOn_cons_eq_if_modifyHead, splitLines, ih]
    by_cases h : c = '\n'
    · simp [h]
    · rw [if_neg h, if_neg (by simpa using h)]
      cases hs : List.splitOn '\n' cs with
      | nil => exact absurd hs (List.splitOn_ne_nil _ _)
      | cons l ls => rfl

theorem splitLines_clean (text : Str) : ∀ l ∈ splitLines text, '\n' ∉ l := by
  induction text with
  | nil => simp [splitLines]
  | cons c cs ih =>
    unfold splitLines
    split
    · intro l hl
      rcases List.mem_cons.1 hl with rfl | hl
      · simp
      · exact ih l hl
    · rename_i hc
      cases hs : splitLines cs with
      | nil => simp [Ne.symm hc]
      | cons l ls =>
        rw [hs] at ih
        intro l' hl'
        rcases List.mem_cons.1 hl' with rfl | hl'
        · simp only [List.mem_cons, not_or]
          exact ⟨Ne.symm hc, ih l (by simp)⟩
        · exact ih l' (by simp [hl'])

/-- The later rows of the wrapped view. -/
theorem wrapRows_pieces (wrapStr : Str) {n : Nat} (hn : 0 < n) (input : Str) : ∀ fuel start rows,
    wrapRows wrapStr n input fuel start = .ok rows →
      rows = if start < input.length then (pieces n (input.drop start)).map (wrapStr, ·) else [] := by
  intro fuel
  induction fuel with
  | zero => intro start rows h; cases h
  | succ fuel ih =>
    intro start rows h
    unfold wrapRows at h
    by_cases hlt : start < input.length
    · rw [if_pos hlt] at h ⊢
      simp only at h
      rw [strSlice_ok (by omega) (by omega)] at h
      simp only [bind, Outcome.bind] at h
      cases hr : wrapRows wrapStr n input fuel (min (start + n) input.length) with
      | ok rest =>
        rw [hr] at h
        simp only [Outcome.ok.injEq] at h
        have := ih _ _ hr
        rw [← h, this]
        rcases Nat.lt_or_ge (start + n) input.length with h1 | h1
        · rw [Nat.min_eq_left (by omega), if_pos h1, pieces_long (text := input.drop start) hn (by simp; omega), List.drop_drop, List.map_cons]
          congr 3
          omega
        · rw [Nat.min_eq_right h1, if_neg (by omega), pieces_short (text := input.drop start) (by simp; omega)]
          rw [List.take_of_length_le (by simp)]
          rfl
      | err e => rw [hr] at h; cases h
      | panic k => rw [hr] at h; cases h
      | diverge => rw [hr] at h; cases h
    · rw [if_neg hlt] at h ⊢
      cases h; rfl

theorem pieces_head {n : Nat} (hn : 0 < n) (input : Str) :
    pieces n input = input.take n :: if n < input.length then pieces n (input.drop n) else [] := by
  rcases Nat.lt_or_ge n input.length with h | h
  · rw [if_pos h, pieces_long hn h]
  · rw [if_neg (by omega), pieces_short h, List.take_of_length_le h]

/-- A row as it is printed. -/
def rowText (r : Str × Str) : Str := r.1 ++ r.2

/-- The rows of the wrapped view are those of the input. -/
theorem drawWrapped_inputRows {m : Machine} {e : Editor} {input : Str} {d : Drawing}
    (h : drawWrapped m e input = .ok d) : 3 ≤ e.cols ∧ d.rows.map rowText = inputRows e.cols input := by
  have hw : (List.replicate promptStr.length ' ' : Str) = "  ".toList := by decide
  have hl : ("  ".toList : Str).length = 2 := by decide
  unfold drawWrapped at h
  simp only [hw, hl] at h
  by_cases h1 : e.cols < 2
  · rw [if_pos h1] at h; cases h
  rw [if_neg h1] at h
  by_cases h2 : e.cols - 2 = 0
  · rw [if_pos h2] at h; cases h
  rw [if_neg h2] at h
  refine ⟨by omega, ?_⟩
  obtain ⟨n1, _, h⟩ := outcome_bind_ok h
  obtain ⟨n2, _, h⟩ := outcome_bind_ok h
  obtain ⟨n3, _, h⟩ := outcome_bind_ok h
  rw [strSlice_ok (by omega) (by omega)] at h
  obtain ⟨first, hfirst, h⟩ := outcome_bind_ok h
  simp only [Outcome.ok.injEq] at hfirst
  subst hfirst
  obtain ⟨rest, hr, h⟩ := outcome_bind_ok h
  have hr' := wrapRows_pieces "  ".toList (by omega) input _ _ _ hr
  simp only [Outcome.ok.injEq] at h
  rw [← h]
  unfold inputRows
  rw [pieces_head (by omega)]
  simp only [List.map_cons, List.drop_zero, Nat.sub_zero]
  rw [hr']
  congr 1
  · unfold rowText
    simp only
    congr 1
    rcases Nat.le_total (e.cols - 2) input.length with h | h
    · rw [Nat.min_eq_left h]
    · rw [Nat.min_eq_right h, List.take_of_length_le (Nat.le_refl _), List.take_of_length_le h]
  · rcases Nat.lt_or_ge (e.cols - 2) input.length with h | h
    · rw [Nat.min_eq_left (by omega), if_pos h, if_pos h]
      simp only [List.map_map]
      rfl
    · rw [Nat.min_eq_right h, if_neg (by omega), if_neg (by omega)]
      rfl

theorem pieces_fit {n : Nat} (hn : 0 < n) {text piece : Str} (h : piece ∈ pieces n text) :
    piece.length ≤ n ∧ ∀ c ∈ piece, c ∈ text := by
  obtain ⟨i, hi⟩ := List.getElem?_of_mem h
  have := pieces_get hn i text piece hi
  rw [this]
  refine ⟨by simp only [List.length_take]; omega, fun c hc => List.mem_of_mem_drop (List.mem_of_mem_take hc)⟩

/-- The rows of an input fit, and have no line feeds if the input has none. -/
theorem inputRows_fit {w : Nat} (hw : 3 ≤ w) {line row : Str} (h : row ∈ inputRows w line) :
    row.length ≤ w ∧ ('\n' ∉ line → '\n' ∉ row) := by
  have h2 : ("# ".toList : Str).length = 2 := by decide
  have h3 : ("  ".toList : Str).length = 2 := by decide
  have h4 : '\n' ∉ ("# ".toList : Str) := by decide
  have h5 : '\n' ∉ ("  ".toList : Str) := by decide
  unfold inputRows at h
  have hp : ∀ piece ∈ pieces (w - 2) line, piece.length ≤ w - 2 ∧ ∀ c ∈ piece, c ∈ line :=
    fun piece h => pieces_fit (by omega) h
  generalize pieces (w - 2) line = ps at h hp
  cases ps with
  | nil => simp at h
  | cons first rest =>
    simp only [List.mem_cons, List.mem_map] at h
    rcases h with rfl | ⟨piece, hm, rfl⟩
    · obtain ⟨h6, h7⟩ := hp first (by simp)
      refine ⟨by rw [List.length_append]; omega, fun hn => ?_⟩
      rw [List.mem_append, not_or]
      exact ⟨h4, fun hc => hn (h7 _ hc)⟩
    · obtain ⟨h6, h7⟩ := hp piece (by simp [hm])
      refine ⟨by rw [List.length_append]; omega, fun hn => ?_⟩
      rw [List.mem_append, not_or]
      exact ⟨h5, fun hc => hn (h7 _ hc)⟩

theorem inputRows_ne {w : Nat} (line : Str) : inputRows w line ≠ [] := by
  unfold inputRows
  have : pieces (w - 2) line ≠ [] := by
    rw [pieces]
    split <;> simp
  cases h : pieces (w - 2) line with
  | nil => exact absurd h this
  | cons => simp

/-- Texts that fit take a row each. -/
theorem textRows_fit {w : Nat} {texts : List Str} (h : ∀ t ∈ texts, t.length ≤ w) : textRows w texts = texts := by
  unfold textRows
  induction texts with
  | nil => rfl
  | cons t ts ih =>
    rw [List.map_cons, List.flatten_cons, pieces_short (h t (by simp)), ih (fun t' ht' => h t' (by simp [ht']))]
    rfl

/-! ## The operations of rows -/

theorem print_print (s : Screen) (a b : Str) : (s.after (.print a)).after (.print b) = s.after (.print (a ++ b)) := by
  simp [Screen.after, List.foldl_append]

theorem rowOps_lines (alt : Bool) : ∀ (rows : List (Str × Str)) (s : Screen), rows ≠ [] →
    (s.run (rowOps alt rows)).run (newLineOps alt) = s.run (linesOps alt (rows.map rowText)) := by
  intro rows
  induction rows with
  | nil => intro s h; exact absurd rfl h
  | cons r rows ih =>
    intro s _
    obtain ⟨o, t⟩ := r
    cases rows with
    | nil =>
      have : linesOps alt ([(o, t)].map rowText) = [TermOp.print (o ++ t)] ++ newLineOps alt := by
        simp [linesOps, rowText]
      rw [this, run_append]
      congr 1
      exact print_print s o t
    | cons r' rest =>
      have h1 : rowOps alt ((o, t) :: r' :: rest) = [.print o, .print t] ++ newLineOps alt ++ rowOps alt (r' :: rest) := rfl
      have h2 : linesOps alt (((o, t) :: r' :: rest).map rowText) =
          [TermOp.print (o ++ t)] ++ newLineOps alt ++ linesOps alt ((r' :: rest).map rowText) := rfl
      rw [h1, h2, run_append, run_append, run_append, run_append, ih _ (by simp)]
      congr 2
      exact print_print s o t

/-- All rows but the last end with a line break. -/
theorem rowOps_last (alt : Bool) : ∀ (rows : List (Str × Str)) (s : Screen), rows ≠ [] →
    ∃ init last, rows.map rowText = init ++ [last] ∧
      s.run (rowOps alt rows) = (s.run (linesOps alt init)).after (.print last) := by
  intro rows
  induction rows with
  | nil => intro s h; exact absurd rfl h
  | cons r rows ih =>
    intro s _
    obtain ⟨o, t⟩ := r
    cases rows with
    | nil => exact ⟨[], o ++ t, rfl, print_print s o t⟩
    | cons r' rest =>
      have h1 : rowOps alt ((o, t) :: r' :: rest) = [.print o, .print t] ++ newLineOps alt ++ rowOps alt (r' :: rest) := rfl
      obtain ⟨init, last, h2, h3⟩ := ih ((s.run [.print o, .print t]).run (newLineOps alt)) (by simp)
      refine ⟨(o ++ t) :: init, last, by rw [List.map_cons, h2]; rfl, ?_⟩
      rw [h1, run_append, run_append, h3]
      have h4 : linesOps alt ((o ++ t) :: init) = [TermOp.print (o ++ t)] ++ newLineOps alt ++ linesOps alt init := rfl
      rw [h4, run_append, run_append]
      congr 3
      exact print_print s o t

/-! ## Printing within a row -/

/-- A text that fits the rest of the row. -/
theorem print_within : ∀ (text : Str) (s : Screen), '\n' ∉ text → s.col + text.length ≤ s.width →
    s.after (.print text) = { s with
      cell := fun r c => if r = s.row ∧ s.col ≤ c ∧ c < s.col + text.length then text.getD (c - s.col) ' ' else s.cell r c
      col := s.col + text.length } := by
  intro text
  induction text with
  | nil =>
    intro s _ _
    have : s.after (.print []) = s := rfl
    rw [this]
    cases s with
    | mk w h cell top row col =>
      simp only [List.length_nil, Nat.add_zero, Screen.mk.injEq, true_and, and_true]
      funext r c
      rw [if_neg (by omega)]
  | cons ch cs ih =>
    intro s hn hl
    simp only [List.mem_cons, not_or] at hn
    simp only [List.length_cons] at hl
    have h1 : s.after (.print (ch :: cs)) = (s.put ch).after (.print cs) := rfl
    have h2 : s.put ch = { s with cell := fun r k => if r = s.row ∧ k = s.col then ch else s.cell r k, col := s.col + 1 } := by
      unfold Screen.put
      rw [if_neg (Ne.symm hn.1), if_pos (by omega)]
    rw [h1, ih _ hn.2 (by rw [h2]; simp only; omega), h2]
    simp only [List.length_cons, Screen.mk.injEq, true_and]
    refine ⟨?_, by omega⟩
    funext r c
    by_cases hr : r = s.row
    · by_cases hc : c = s.col
      · rw [if_neg (by omega), if_pos ⟨hr, hc⟩, if_pos (by omega), hc, Nat.sub_self]
        rfl
      · rw [if_neg (c := r = s.row ∧ c = s.col) (by omega)]
        by_cases hin : s.col + 1 ≤ c ∧ c < s.col + 1 + cs.length
        · rw [if_pos ⟨hr, hin⟩, if_pos (by omega)]
          have : c - s.col = (c - (s.col + 1)) + 1 := by omega
          rw [this]
          rfl
        · rw [if_neg (by omega), if_neg (by omega)]
    · rw [if_neg (by omega), if_neg (by omega), if_neg (by omega)]

/-- What the redraw puts on the row. -/
def drawnRow (d : Drawing) : Str := (d.rows.map rowText).flatten ++ d.closer

/-- One row has been redrawn. -/
structure RowRedrawn (s s' : Screen) (text : Str) (col : Nat) : Prop where
  width : s'.width = s.width
  height : s'.height = s.height
  top : s'.top = s.top
  row : s'.row = s.row
  col : s'.col = col
  shows : s'.RowIs s.row text
  others : ∀ r c, r ≠ s.row → s'.cell r c = s.cell r c

/-- A redraw of the scrolling view. -/
theorem scrolled_run {s : Screen} {d : Drawing} {opener text : Str} {col : Nat} (hr : d.rows = [(opener, text)])
    (hc : d.cursor = some (col, none)) (hcol : col < s.width) (hn : '\n' ∉ drawnRow d) (hl : (drawnRow d).length ≤ s.width) :
    RowRedrawn s (s.run (scrolledOps d)) (drawnRow d) col := by
  have hops : scrolledOps d = [.moveToColumn 0, .clearCurrentLine] ++ [.print opener, .print text, .print d.closer] ++
      [.moveToColumn col] := by
    unfold scrolledOps
    rw [hr, hc]
    rfl
  have hrow : drawnRow d = opener ++ text ++ d.closer := by
    unfold drawnRow; rw [hr]; simp [rowText]
  have hrun : s.run (scrolledOps d) = (({ s with col := 0, cell := fun r c => if r = s.row then ' ' else s.cell r c } : Screen).after
      (.print (drawnRow d))).after (.moveToColumn col) := by
    rw [hops, run_append, run_append, hrow]
    have h1 : s.run [.moveToColumn 0, .clearCurrentLine] =
        { s with col := 0, cell := fun r c => if r = s.row then ' ' else s.cell r c } := by
      change ({ s with col := min 0 (s.width - 1), cell := fun r c => if r = s.row then ' ' else s.cell r c } : Screen) = _
      rw [Nat.zero_min]
    rw [h1]
    rw [← print_print, ← print_print]
    rfl
  rw [print_within _ _ hn (by simpa using hl)] at hrun
  rw [hrun]
  refine ⟨rfl, rfl, rfl, rfl, by simp only [Screen.after]; omega, ⟨hl, fun c hcw => ?_⟩, fun r c hne => ?_⟩
  · simp only [Screen.after, Nat.zero_add]
    simp only [Screen.after] at hcw
    by_cases h2 : c < (drawnRow d).length
    · rw [if_pos ⟨trivial, by omega, h2⟩]
      rfl
    · rw [if_neg (by omega), if_pos trivial, getD_ge (by omega)]
  · simp only [Screen.after]
    rw [if_neg (by omega), if_neg hne]

/-! ## A redraw of the wrapping view on the alternate screen -/

/-- Back to the start of the input, and everything from there on is cleared. -/
theorem alternate_start {s : Screen} (h : s.Ok) {row : Nat} (hr : row < s.height) :
    Writing (s.run [.moveTo 0 row, .clearFromCursorDown]) (s.top + row) [] ∧
      (s.run [.moveTo 0 row, .clearFromCursorDown]).width = s.width ∧
      (s.run [.moveTo 0 row, .clearFromCursorDown]).height = s.height ∧
      (s.run [.moveTo 0 row, .clearFromCursorDown]).top = s.top ∧
      s.SameAbove (s.run [.moveTo 0 row, .clearFromCursorDown]) (s.top + row) := by
  have hrun : s.run [.moveTo 0 row, .clearFromCursorDown] = { s with
      col := 0, row := s.top + row
      cell := fun r c => if (r = s.top + row ∧ 0 ≤ c) ∨ s.top + row < r then ' ' else s.cell r c } := by
    change ({ s with
      col := min 0 (s.width - 1), row := s.top + min row (s.height - 1)
      cell := fun r c => if (r = s.top + min row (s.height - 1) ∧ min 0 (s.width - 1) ≤ c) ∨
        s.top + min row (s.height - 1) < r then ' ' else s.cell r c } : Screen) = _
    rw [Nat.zero_min, Nat.min_eq_left (by omega)]
  rw [hrun]
  refine ⟨writing_start (s := { s with col := 0, row := s.top + row, cell := _ })
    ⟨h.wide, by simp, by simp only; omega, by simp⟩ rfl ?_, rfl, rfl, rfl, ?_⟩
  · intro r c hr hc
    simp only at hr ⊢
    rw [if_pos (by omega)]
  · intro r c hr
    simp only
    rw [if_neg (by omega)]

/-- The rows are written, if there is room. -/
theorem alternate_rows {s : Screen} {base : Nat} {rows : List (Str × Str)} (h : Writing s base []) (hne : rows ≠ [])
    (hn : ∀ t ∈ rows.map rowText, '\n' ∉ t) (hw : ∀ t ∈ rows.map rowText, t.length ≤ s.width)
    (hf : base + rows.length ≤ s.top + s.height) :
    (s.run (rowOps true rows)).RowsAre base (rows.map rowText) ∧
      (s.run (rowOps true rows)).BlankFrom (base + rows.length) ∧
      Wrote s (s.run (rowOps true rows)) base ∧ (s.run (rowOps true rows)).top = s.top ∧ (s.run (rowOps true rows)).Ok := by
  obtain ⟨init, last, h1, h2⟩ := rowOps_last true rows s hne
  rw [h1] at hn hw ⊢
  have hlen : rows.length = init.length + 1 := by
    have := congrArg List.length h1
    simpa using this
  have hfit : textRows s.width init = init := textRows_fit (fun t ht => hw t (by simp [ht]))
  obtain ⟨h3, h4, h5⟩ := lines_written true init (fun t ht => hn t (by simp [ht])) h (by rw [hfit]; intro; omega)
  rw [hfit] at h3 h4
  obtain ⟨h6, h7⟩ := print_writing (hn last (by simp)) h3
  rw [List.nil_append] at h6
  have hrun : (s.run (linesOps true init)).after (.print last) = last.foldl Screen.put (s.run (linesOps true init)) := rfl
  rw [h2, hrun]
  obtain ⟨h8, h9⟩ := h6.rows
  have hb := h6.blank
  have hwid : (last.foldl Screen.put (s.run (linesOps true init))).width = s.width := h7.width.trans h5.width
  rw [hwid, pieces_short (hw last (by simp))] at h8 h9
  rw [h9] at hb
  simp only [List.length_cons, List.length_nil] at h9 hb
  refine ⟨?_, ?_, h5.trans (h7.mono (by omega)), ?_, h6.ok⟩
  · refine RowsAre.append ?_ h8
    exact RowsAre.keep (base' := base + init.length) h4 h7.width h7.above (by omega)
  · rw [hlen, ← Nat.add_assoc]
    exact hb
  · have e1 := h7.top
    have e2 := h5.top
    have e3 := h3.atStart.1
    rw [h5.height] at e1
    omega

/-- The operations keep what is above `base`, and do not scroll. -/
structure Keeps (s s' : Screen) (base : Nat) : Prop where
  ok : s'.Ok
  width : s'.width = s.width
  height : s'.height = s.height
  top : s'.top = s.top
  above : s.SameAbove s' base

theorem Keeps.trans {a b c : Screen} {base : Nat} (h : Keeps a b base) (h' : Keeps b c base) : Keeps a c base :=
  ⟨h'.ok, h'.width.trans h.width, h'.height.trans h.height, h'.top.trans h.top,
    fun r k hr => (h'.above r k hr).trans (h.above r k hr)⟩

/-- Even without room nothing above is touched. -/
theorem alternate_line {s : Screen} {base : Nat} {text : Str} (h : s.Ok) (hr : base ≤ s.row) (hc : s.col = 0)
    (hn : '\n' ∉ text) (hw : text.length ≤ s.width) :
    Keeps s (s.after (.print text)) base ∧ (s.after (.print text)).row = s.row := by
  rw [print_within text s hn (by omega)]
  refine ⟨⟨⟨h.wide, h.above, h.below, by simp only; omega⟩, rfl, rfl, rfl, fun r c hlt => ?_⟩, rfl⟩
  simp only
  rw [if_neg (by omega)]

theorem alternate_next {s : Screen} {base : Nat} (h : s.Ok) (hr : base ≤ s.row) :
    Keeps s (s.run (newLineOps true)) base ∧ base ≤ (s.run (newLineOps true)).row ∧ (s.run (newLineOps true)).col = 0 := by
  have hrun : s.run (newLineOps true) = { s with col := 0, row := min (s.row + 1) (s.top + s.height - 1) } := rfl
  have := h.above
  have := h.below
  rw [hrun]
  exact ⟨⟨⟨h.wide, by simp only; omega, by simp only; omega, by simp⟩, rfl, rfl, rfl, fun _ _ _ => rfl⟩, by simp only; omega, rfl⟩

theorem alternate_lines {base : Nat} : ∀ (texts : List Str) {s : Screen}, s.Ok → base ≤ s.row → s.col = 0 →
    (∀ t ∈ texts, '\n' ∉ t) → (∀ t ∈ texts, t.length ≤ s.width) →
    Keeps s (s.run (linesOps true texts)) base ∧ base ≤ (s.run (linesOps true texts)).row ∧
      (s.run (linesOps true texts)).col = 0 := by
  intro texts
  induction texts with
  | nil => intro s h hr hc _ _; exact ⟨⟨h, rfl, rfl, rfl, fun _ _ _ => rfl⟩, hr, hc⟩
  | cons t ts ih =>
    intro s h hr hc hn hw
    have hrun : s.run (linesOps true (t :: ts)) = (((s.after (.print t))).run (newLineOps true)).run (linesOps true ts) := by
      have : linesOps true (t :: ts) = [TermOp.print t] ++ newLineOps true ++ linesOps true ts := rfl
      rw [this, run_append, run_append]
      rfl
    rw [hrun]
    obtain ⟨h1, h2⟩ := alternate_line h hr hc (hn t (by simp)) (hw t (by simp))
    obtain ⟨h3, h4, h5⟩ := alternate_next (base := base) h1.ok (by rw [h2]; exact hr)
    obtain ⟨h6, h7, h8⟩ := ih h3.ok h4 h5 (fun t' ht' => hn t' (by simp [ht']))
      (fun t' ht' => by rw [h3.width, h1.width]; exact hw t' (by simp [ht']))
    exact ⟨(h1.trans h3).trans h6, h7, h8⟩

theorem alternate_rows_keep {s : Screen} {base : Nat} {rows : List (Str × Str)} (h : Writing s base []) (hne : rows ≠ [])
    (hn : ∀ t ∈ rows.map rowText, '\n' ∉ t) (hw : ∀ t ∈ rows.map rowText, t.length ≤ s.width) :
    Keeps s (s.run (rowOps true rows)) base := by
  obtain ⟨init, last, h1, h2⟩ := rowOps_last true rows s hne
  rw [h1] at hn hw
  rw [h2]
  obtain ⟨h3, h4, _⟩ := h.atStart
  obtain ⟨h5, h6, h7⟩ := alternate_lines (base := base) init h.ok (by omega) h4 (fun t ht => hn t (by simp [ht]))
    (fun t ht => hw t (by simp [ht]))
  obtain ⟨h8, _⟩ := alternate_line h5.ok h6 h7 (hn last (by simp)) (by rw [h5.width]; exact hw last (by simp))
  exact h5.trans h8

end Bcalc
