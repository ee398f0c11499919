import Verif.Proof.Editor3

/-! # What is on the screen -/

namespace Bcalc
open Spec

theorem Spec.OnScreen.awaits {m : Machine} {ce : CommandExecutor} {d : Drawing} {e : Editor}
    (h : OnScreen m ce d e) : Awaits m ce e := by
  induction h with
  | start h => exact .start h
  | event _ h hq ih => exact .event ih h hq

/-- Events that are ignored change nothing that is seen. -/
structure SameView (e e' : Editor) : Prop where
  args : e'.args = e.args
  cursor : e'.cursorPos = e.cursorPos
  offset : e'.scrollOffset = e.scrollOffset
  row : e'.startRow = e.startRow
  col : e'.startCol = e.startCol
  cols : e'.cols = e.cols
  shows : ∀ line, Shows e' line → Shows e line

theorem SameView.refl (e : Editor) : SameView e e := ⟨rfl, rfl, rfl, rfl, rfl, rfl, fun _ h => h⟩

theorem outcome_bind_not_ok {ε α β : Type} {o : Outcome ε α} {f : α → Outcome ε β} {b : β}
    (h : ∀ a, f a ≠ .ok b) : (o >>= f) ≠ .ok b := by
  cases o with
  | ok a => exact h a
  | err e => intro h; cases h
  | panic k => intro h; cases h
  | diverge => intro h; cases h

theorem ignored_same {e e1 : Editor} {line : Str} (ho : EditorOk e line) {ev : Event} {a : Action}
    (ha : a ≠ .redraw) (h : handleEvent e ev = .ok (a, e1)) : SameView e e1 := by
  have hmatch : ∀ {o : Outcome RuntimeErr Str} {g : Str → Outcome RuntimeErr (Option Nat)},
      (o >>= fun line => g line >>= fun r =>
        match r with
        | some pos => (.ok (.redraw, { e with cursorPos := pos }) : Outcome RuntimeErr (Action × Editor))
        | none => .ok (.ignore, e)) = .ok (a, e1) → e1 = e := by
    intro o g h
    obtain ⟨l, _, h⟩ := outcome_bind_ok h
    obtain ⟨r, _, h⟩ := outcome_bind_ok h
    cases r with
    | none => cases h; rfl
    | some p => cases h; exact absurd rfl ha
  have hins : ∀ c, insertAtCursor e c ≠ .ok (a, e1) := by
    intro c hc
    unfold insertAtCursor at hc
    obtain ⟨l, _, hc⟩ := outcome_bind_ok hc
    cases hc
    exact ha rfl
  have hsame : e1 = e → SameView e e1 := by rintro rfl; exact .refl _
  cases ev with
  | key code mods =>
    cases code with
    | char c =>
      change handleChar e c mods = _ at h
      unfold handleChar at h
      split at h
      · cases h; exact .refl _
      · cases mods with
        | none => exact absurd h (hins _)
        | shift => exact absurd h (hins _)
        | other => cases h; exact .refl _
        | control =>
          simp only at h
          split at h
          · cases h; exact .refl _
          · split at h
            · exact hsame (hmatch h)
            · cases h; exact .refl _
    | backspace =>
      unfold handleEvent at h
      simp only at h
      split at h
      · cases h; exact .refl _
      · obtain ⟨l, _, h⟩ := outcome_bind_ok h
        cases h; exact absurd rfl ha
    | delete =>
      unfold handleEvent at h
      obtain ⟨l, _, h⟩ := outcome_bind_ok h
      split at h
      · cases h; exact .refl _
      · obtain ⟨l, _, h⟩ := outcome_bind_ok h
        cases h; exact absurd rfl ha
    | up =>
      rcases up_cases ho h with ⟨h1, _⟩ | ⟨_, _, h2, _⟩
      · exact absurd h1 ha
      · rw [h2]
        exact ⟨rfl, rfl, rfl, rfl, rfl, rfl, fun _ h => h⟩
    | down =>
      rcases down_cases ho h with ⟨_, _, h2⟩ | ⟨h1, _⟩
      · exact hsame h2
      · exact absurd h1 ha
    | left =>
      unfold handleEvent at h
      simp only at h
      split at h
      · cases h; exact .refl _
      · cases h; exact absurd rfl ha
    | right =>
      unfold handleEvent at h
      simp only at h
      split at h
      · cases h; exact .refl _
      · obtain ⟨l, _, h⟩ := outcome_bind_ok h
        cases h; exact absurd rfl ha
    | home => cases h; exact absurd rfl ha
    | «end» =>
      unfold handleEvent at h
      obtain ⟨l, _, h⟩ := outcome_bind_ok h
      cases h; exact absurd rfl ha
    | enter => cases h; exact absurd rfl ha
    | other => cases h; exact .refl _
  | paste => cases h
  | resize w => cases h; exact absurd rfl ha
  | other => cases h; exact .refl _

/-- What is on the screen was drawn for a state that looks like the present one. -/
theorem Spec.OnScreen.drawn {m : Machine} {ce : CommandExecutor} {d : Drawing} {e : Editor}
    (h : OnScreen m ce d e) : ∃ e0 e1 line, draw m e0 = .ok (d, e1) ∧ e0.inputComplete = false ∧
      EditorOk e0 line ∧ SameView e1 e := by
  induction h with
  | start h =>
    obtain ⟨ho, hc⟩ := start_ok h
    unfold Editor.start at h
    have hd := draw_ok h
    refine ⟨_, _, [], h, rfl, ?_, .refl _⟩
    rw [hd] at ho
    exact ⟨ho.hist, ho.shows, ho.cursor, ho.db⟩
  | @event d e e' ev t out h hs hq ih =>
    obtain ⟨⟨line, ho⟩, hc⟩ := h.awaits.ok
    obtain ⟨⟨line', ho'⟩, hc'⟩ := step_inv ho hc hs
    obtain ⟨e0, e1, l0, h1, h2, h3, h4⟩ := ih
    cases step_cases hs with
    | ignored hh =>
      refine ⟨e0, e1, l0, h1, h2, h3, ?_⟩
      have h5 := ignored_same ho (by simp) hh
      exact ⟨h5.args.trans h4.args, h5.cursor.trans h4.cursor, h5.offset.trans h4.offset,
        h5.row.trans h4.row, h5.col.trans h4.col, h5.cols.trans h4.cols, fun l h => h4.shows l (h5.shows l h)⟩
    | quit hh => cases hq
    | redrawn hh hi hd =>
      have h6 := draw_ok hd
      refine ⟨_, _, line', hd, hi, ?_, .refl _⟩
      rw [h6] at ho'
      exact ⟨ho'.hist, ho'.shows, ho'.cursor, ho'.db⟩
    | entered hh hi hd hf hd' =>
      have h6 := draw_ok hd'
      refine ⟨_, _, line', hd', rfl, ?_, .refl _⟩
      rw [h6] at ho'
      exact ⟨ho'.hist, ho'.shows, ho'.cursor, ho'.db⟩

theorem draw_scrolled {m : Machine} {e0 e1 : Editor} {line : Str} {d : Drawing} (hs : Shows e0 line)
    (hc : e0.inputComplete = false) (ha : e0.args.alternateScreen = false) (h : draw m e0 = .ok (d, e1)) :
    ∃ off, drawScrolled e0 line = .ok (d, off) ∧ e1 = { e0 with scrollOffset := off } := by
  unfold draw at h
  unfold Shows at hs
  rw [hs] at h
  simp only [bind, Outcome.bind, hc, ha, Bool.or_false, Bool.false_eq_true, if_false] at h
  cases hd : drawScrolled e0 line with
  | ok r =>
    obtain ⟨d', off⟩ := r
    rw [hd] at h
    simp only [Outcome.ok.injEq, Prod.mk.injEq] at h
    obtain ⟨rfl, rfl⟩ := h
    exact ⟨off, rfl, by rw [hc]⟩
  | err e => rw [hd] at h; cases h
  | panic k => rw [hd] at h; cases h
  | diverge => rw [hd] at h; cases h

theorem draw_wrapped {m : Machine} {e0 e1 : Editor} {line : Str} {d : Drawing} (hs : Shows e0 line)
    (ha : e0.args.alternateScreen = true) (h : draw m e0 = .ok (d, e1)) :
    drawWrapped m e0 line = .ok d ∧ e1 = e0 := by
  unfold draw at h
  unfold Shows at hs
  rw [hs] at h
  simp only [bind, Outcome.bind, ha, Bool.true_or, if_true] at h
  cases hd : drawWrapped m e0 line with
  | ok d' =>
    rw [hd] at h
    simp only [Outcome.ok.injEq, Prod.mk.injEq] at h
    rw [h.1, h.2]; exact ⟨rfl, rfl⟩
  | err e => rw [hd] at h; cases h
  | panic k => rw [hd] at h; cases h
  | diverge => rw [hd] at h; cases h

/-- The scrolling view, drawn. -/
theorem scrollView_of {e0 e1 : Editor} {line : Str} {d : Drawing} {off : Nat} (h6 : 6 ≤ e0.cols)
    (h16 : e0.cols < 65536) (hcur : e0.cursorPos ≤ line.length) (h : drawScrolled e0 line = .ok (d, off))
    (he : e1 = { e0 with scrollOffset := off }) : ScrollView d e1 line := by
  obtain ⟨off', hoff, hd⟩ := drawScrolled_ok (by omega) h16 hcur
  rw [h] at hd
  simp only [Outcome.ok.injEq, Prod.mk.injEq] at hd
  obtain ⟨rfl, rfl⟩ := hd
  have hle := newScrollOffset_le (cursor := e0.cursorPos) (off := e0.scrollOffset) (window := e0.cols - 4)
    (len := line.length)
  have hwin := newScrollOffset_window (cursor := e0.cursorPos) (off := e0.scrollOffset) (window := e0.cols - 4)
    (len := line.length) (by omega) hcur
  rw [← hoff] at hle hwin
  rw [he]
  clear h hoff he
  have hol : (if off = 0 then promptStr else scrollLeftStr).length = 2 := by split <;> decide
  have hlen : ((line.drop off).take (e0.cols - 4)).length = min (e0.cols - 4) (line.length - off) := by simp
  refine ⟨_, _, e0.cursorPos - off + 2, rfl, ?_, ⟨line.drop (off + (e0.cols - 4)), ?_, ?_⟩, ?_, rfl, ?_, ?_, ?_, ?_, ?_⟩
  · simp only [hol, hlen]
    split
    · have : scrollRightStr.length = 2 := by decide
      omega
    · simp only [List.length_nil]
      omega
  · simp only
    rw [← List.drop_drop, List.append_assoc, List.take_append_drop, List.take_append_drop]
  · simp only
    split
    · left
      refine ⟨rfl, ?_⟩
      intro hn
      have := congrArg List.length hn
      simp at this
      omega
    · right
      refine ⟨rfl, List.drop_eq_nil_of_le (by omega)⟩
  · simp only
    split
    · right; exact ⟨rfl, by assumption⟩
    · left; exact ⟨rfl, by omega⟩
  · rw [hol]; omega
  · rw [hol, hlen]; omega
  · simp only; omega
  · simp only [hol]; omega
  · intro c hc
    simp only at hc
    rw [List.getElem?_append_right (by rw [hol]; omega), hol, List.getElem?_take]
    rw [if_pos (by omega), List.getElem?_drop]
    rw [← hc]
    congr 1
    omega

/-- The wrapping view, drawn. -/
theorem wrapView_of {m : Machine} {e : Editor} {line : Str} {d : Drawing}
    (h16 : e.cols < 65536) (hrow : e.startRow + line.length < 65536)
    (hcur : e.cursorPos ≤ line.length) (hc : e.inputComplete = false)
    (h : drawWrapped m e line = .ok d) : WrapView d e line := by
  obtain ⟨h3, _⟩ := drawWrapped_rows h
  have hle : e.cursorPos / (e.cols - 2) ≤ e.cursorPos := Nat.div_le_self _ _
  obtain ⟨rest, hd, hr⟩ := drawWrapped_ok (m := m) (input := line) h3 h16 (by omega)
  rw [h] at hd
  simp only [Outcome.ok.injEq] at hd
  subst hd
  have hpos : 0 < e.cols - 2 := by omega
  have hmod := Nat.mod_lt e.cursorPos hpos
  have hdm := Nat.div_add_mod e.cursorPos (e.cols - 2)
  refine ⟨rfl, hr.all, ⟨_, _, rfl, rfl, fun r h => (hr.fit r h).1⟩, ?_,
    e.cursorPos % (e.cols - 2) + 2, e.cursorPos / (e.cols - 2), ?_, by omega, by omega, ?_, ?_⟩
  · intro r hm
    simp only [List.mem_cons] at hm
    rcases hm with rfl | hm
    · have : promptStr.length = 2 := by decide
      simp only [this, List.length_take]
      omega
    · obtain ⟨h1, h2, _⟩ := hr.fit r hm
      rw [h1]
      have : ("  ".toList : Str).length = 2 := by decide
      omega
  · simp only [hc, Bool.false_eq_true, if_false]
    rw [Nat.add_comm e.startRow]
  · rw [Nat.mul_comm]; omega
  · intro c hcc
    have hlt := (List.getElem?_eq_some_iff.1 hcc).1
    cases hk : e.cursorPos / (e.cols - 2) with
    | zero =>
      refine ⟨_, rfl, ?_⟩
      simp only
      have hp2 : promptStr.length = 2 := by decide
      rw [List.getElem?_append_right (by omega), hp2, List.getElem?_take, if_pos (by omega), ← hcc]
      congr 1
      rw [hk] at hdm
      omega
    | succ k =>
      rw [hk] at hdm
      have hexp : (e.cols - 2) * (k + 1) = k * (e.cols - 2) + (e.cols - 2) := by
        rw [Nat.mul_comm, Nat.succ_mul]
      have hmin : min (e.cols - 2) line.length = e.cols - 2 := by
        have : 0 ≤ k * (e.cols - 2) := Nat.zero_le _
        omega
      have hrow := hr.row k (by rw [hmin]; omega)
      refine ⟨_, by rw [List.getElem?_cons_succ]; exact hrow, ?_⟩
      simp only
      have hp2 : ("  ".toList : Str).length = 2 := by decide
      rw [List.getElem?_append_right (by omega), hp2, List.getElem?_take, if_pos (by omega),
        List.getElem?_drop, hmin, ← hcc]
      congr 1
      omega

end Bcalc
