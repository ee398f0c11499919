import Verif.Spec.Editor
import Mathlib.Tactic.Ring
import Mathlib.Tactic.Linarith

/-! # What the two views show -/

namespace Bcalc
open Spec

theorem strSlice_ok {ε : Type} {s : Str} {a b : Nat} (h : a ≤ b) (h' : b ≤ s.length) :
    (strSlice s a b : Outcome ε Str) = .ok ((s.drop a).take (b - a)) := by
  unfold strSlice
  rw [if_pos ⟨h, h'⟩]

/-! ## The wrapped view -/

/-- The rows from a place on. -/
structure RowsFrom (wrapStr : Str) (available : Nat) (input : Str) (start : Nat)
    (rows : List (Str × Str)) : Prop where
  text : (rows.map (·.2)).flatten = input.drop start
  fit : ∀ r ∈ rows, r.1 = wrapStr ∧ r.2.length ≤ available ∧ r.2 ≠ []
  row : ∀ k, start + k * available < input.length →
    rows[k]? = some (wrapStr, (input.drop (start + k * available)).take available)

theorem wrapRows_ok (wrapStr : Str) {available : Nat} (ha : 0 < available) (input : Str) :
    ∀ fuel start, start ≤ input.length → input.length - start < fuel →
      ∃ rows, wrapRows wrapStr available input fuel start = .ok rows ∧
        RowsFrom wrapStr available input start rows := by
  intro fuel
  induction fuel with
  | zero =>
    intro start _ hf
    omega
  | succ fuel ih =>
    intro start hle hf
    unfold wrapRows
    by_cases hlt : start < input.length
    · rw [if_pos hlt]
      simp only
      rw [strSlice_ok (by omega) (by omega)]
      obtain ⟨rows, hr, hs⟩ := ih (min (start + available) input.length) (by omega) (by omega)
      simp only [bind, Outcome.bind]
      rw [hr]
      refine ⟨_, rfl, ?_, ?_, ?_⟩
      · simp only [List.map_cons, List.flatten_cons]
        rw [hs.text]
        have h1 : input.drop (min (start + available) input.length) =
            (input.drop start).drop (min (start + available) input.length - start) := by
          rw [List.drop_drop]; congr 1; omega
        rw [h1, List.take_append_drop]
      · intro r hr
        rcases List.mem_cons.1 hr with rfl | hr
        · refine ⟨rfl, by simp; omega, ?_⟩
          intro h
          have := congrArg List.length h
          simp at this
          omega
        · exact hs.fit r hr
      · intro k hk
        cases k with
        | zero =>
          simp only [List.getElem?_cons_zero, Nat.zero_mul, Nat.add_zero, Option.some.injEq,
            Prod.mk.injEq, true_and]
          rcases Nat.lt_or_ge (start + available) input.length with h | h
          · rw [Nat.min_eq_left (by omega)]; congr 1; omega
          · rw [Nat.min_eq_right h, List.take_of_length_le (by simp), List.take_of_length_le (by simp; omega)]
        | succ k =>
          simp only [List.getElem?_cons_succ]
          have hk' : start + available + k * available < input.length := by
            have : (k + 1) * available = available + k * available := by ring
            omega
          have hlt' : start + available < input.length := by omega
          rw [Nat.min_eq_left (by omega)] at hs
          rw [hs.row k hk']
          have : start + (k + 1) * available = start + available + k * available := by ring
          rw [this]
    · rw [if_neg hlt]
      refine ⟨[], rfl, ?_, by simp, ?_⟩
      · simp; omega
      · intro k hk; omega

/-- The wrapped view. -/
theorem drawWrapped_ok {m : Machine} {e : Editor} {input : Str} (hc : 3 ≤ e.cols) (hc' : e.cols < 65536)
    (hrow : e.cursorPos / (e.cols - 2) + e.startRow < 65536) :
    ∃ rest, drawWrapped m e input = .ok
      { rows := (promptStr, input.take (e.cols - 2)) :: rest, closer := [],
        cursor := if e.inputComplete then none else
          some (e.cursorPos % (e.cols - 2) + 2, some (e.cursorPos / (e.cols - 2) + e.startRow)) } ∧
      RowsFrom "  ".toList (e.cols - 2) input (min (e.cols - 2) input.length) rest := by
  have hw : (List.replicate promptStr.length ' ' : Str) = "  ".toList := by decide
  have hl : ("  ".toList : Str).length = 2 := by decide
  unfold drawWrapped
  simp only [hw, hl]
  rw [if_neg (by omega), if_neg (by omega)]
  obtain ⟨rest, hr, hs⟩ := wrapRows_ok "  ".toList (available := e.cols - 2) (by omega) input
    (input.length + 1) (min (e.cols - 2) input.length) (by omega) (by omega)
  have hmod : e.cursorPos % (e.cols - 2) < e.cols - 2 := Nat.mod_lt _ (by omega)
  refine ⟨rest, ?_, hs⟩
  unfold toU16 u16Add
  rw [if_pos (by omega), if_pos (by omega)]
  simp only [bind, Outcome.bind]
  rw [if_pos (by omega)]
  simp only
  rw [strSlice_ok (by omega) (by omega), hr]
  simp only [List.drop_zero, Nat.sub_zero]
  congr 3
  rcases Nat.le_total (e.cols - 2) input.length with h | h
  · rw [Nat.min_eq_left h]
  · rw [Nat.min_eq_right h, List.take_of_length_le (Nat.le_refl _), List.take_of_length_le h]

/-- The only ways in which the wrapped view fails. -/
theorem drawWrapped_fails {m : Machine} {e : Editor} {input : Str} :
    (∃ d, drawWrapped m e input = .ok d) ∨ (∃ err, drawWrapped m e input = .err err) ∨
    (drawWrapped m e input = .panic .divisionByZero ∧ e.cols = 2) ∨
    (drawWrapped m e input = .panic .arithmetic ∧ m.overflowChecks = true ∧
      65536 ≤ e.cursorPos / (e.cols - 2) + e.startRow) := by
  have hw : (List.replicate promptStr.length ' ' : Str) = "  ".toList := by decide
  have hl : ("  ".toList : Str).length = 2 := by decide
  unfold drawWrapped
  simp only [hw, hl]
  by_cases h1 : e.cols < 2
  · rw [if_pos h1]; exact .inr (.inl ⟨_, rfl⟩)
  rw [if_neg h1]
  by_cases h2 : e.cols - 2 = 0
  · rw [if_pos h2]; exact .inr (.inr (.inl ⟨rfl, by omega⟩))
  rw [if_neg h2]
  obtain ⟨rest, hr, hs⟩ := wrapRows_ok "  ".toList (available := e.cols - 2) (by omega) input
    (input.length + 1) (min (e.cols - 2) input.length) (by omega) (by omega)
  unfold toU16 u16Add
  rw [strSlice_ok (by omega) (by omega), hr]
  by_cases h3 : e.cursorPos / (e.cols - 2) < 65536
  · rw [if_pos h3]
    simp only [bind, Outcome.bind]
    by_cases h4 : e.cursorPos / (e.cols - 2) + e.startRow < 65536
    · rw [if_pos h4]
      simp only
      by_cases h5 : e.cursorPos % (e.cols - 2) + 2 < 65536
      · rw [if_pos h5]; exact .inl ⟨_, rfl⟩
      · rw [if_neg h5]; exact .inr (.inl ⟨_, rfl⟩)
    · rw [if_neg h4]
      cases hm : m.overflowChecks with
      | true => exact .inr (.inr (.inr ⟨rfl, rfl, by omega⟩))
      | false =>
        simp only [Bool.false_eq_true, if_false]
        by_cases h5 : e.cursorPos % (e.cols - 2) + 2 < 65536
        · rw [if_pos h5]; exact .inl ⟨_, rfl⟩
        · rw [if_neg h5]; exact .inr (.inl ⟨_, rfl⟩)
  · rw [if_neg h3]
    exact .inr (.inl ⟨_, rfl⟩)

/-- Whatever the wrapped view shows, the rows are the line. -/
theorem drawWrapped_rows {m : Machine} {e : Editor} {input : Str} {d : Drawing}
    (h : drawWrapped m e input = .ok d) :
    3 ≤ e.cols ∧ ∃ rest, d.rows = (promptStr, input.take (e.cols - 2)) :: rest ∧ d.closer = [] ∧
      RowsFrom "  ".toList (e.cols - 2) input (min (e.cols - 2) input.length) rest := by
  have hw : (List.replicate promptStr.length ' ' : Str) = "  ".toList := by decide
  have hl : ("  ".toList : Str).length = 2 := by decide
  unfold drawWrapped at h
  simp only [hw, hl] at h
  by_cases h1 : e.cols < 2
  · rw [if_pos h1] at h; cases h
  rw [if_neg h1] at h
  by_cases h2 : e.cols - 2 = 0
  · rw [if_pos h2] at h; cases h
  rw [if_neg h2] at h
  refine ⟨by omega, ?_⟩
  obtain ⟨rest, hr, hs⟩ := wrapRows_ok "  ".toList (available := e.cols - 2) (by omega) input
    (input.length + 1) (min (e.cols - 2) input.length) (by omega) (by omega)
  rw [strSlice_ok (by omega) (by omega), hr] at h
  have key : ∀ {x : Nat → Outcome RuntimeErr Drawing} {o : Outcome RuntimeErr Nat}, (o >>= x) = .ok d →
      ∃ n, x n = .ok d := by
    intro x o ho
    cases o with
    | ok n => exact ⟨n, ho⟩
    | err e => cases ho
    | panic k => cases ho
    | diverge => cases ho
  obtain ⟨n1, h⟩ := key h
  obtain ⟨n2, h⟩ := key h
  obtain ⟨n3, h⟩ := key h
  simp only [bind, Outcome.bind, Outcome.ok.injEq] at h
  refine ⟨rest, ?_, by rw [← h], hs⟩
  rw [← h]
  simp only [List.drop_zero, Nat.sub_zero]
  congr 2
  rcases Nat.le_total (e.cols - 2) input.length with h | h
  · rw [Nat.min_eq_left h]
  · rw [Nat.min_eq_right h, List.take_of_length_le (Nat.le_refl _), List.take_of_length_le h]

theorem RowsFrom.all {n : Nat} {input : Str} {rest : List (Str × Str)}
    (h : RowsFrom "  ".toList n input (min n input.length) rest) :
    (((promptStr, input.take n) :: rest).map (·.2)).flatten = input := by
  simp only [List.map_cons, List.flatten_cons]
  rw [h.text]
  rcases Nat.le_total n input.length with h | h
  · rw [Nat.min_eq_left h, List.take_append_drop]
  · rw [Nat.min_eq_right h, List.take_of_length_le h]; simp

/-! ## The scrolling view -/

theorem newScrollOffset_le {cursor off window len : Nat} :
    newScrollOffset cursor off window len ≤ cursor := by
  unfold newScrollOffset
  simp only
  split
  · split
    · omega
    · split <;> omega
  · omega

theorem newScrollOffset_window {cursor off window len : Nat} (hw : 2 ≤ window) (hc : cursor ≤ len) :
    cursor + 1 ≤ newScrollOffset cursor off window len + window := by
  unfold newScrollOffset
  simp only
  split
  · split
    · omega
    · split <;> omega
  · omega

theorem newScrollOffset_window1 {cursor off window len : Nat} (hw : 1 ≤ window) (hc : cursor ≤ len) :
    cursor ≤ newScrollOffset cursor off window len + window := by
  unfold newScrollOffset
  simp only
  split
  · split
    · omega
    · split <;> omega
  · omega

/-- The scrolling view. -/
theorem drawScrolled_ok {e : Editor} {input : Str} (hc : 5 ≤ e.cols) (hc' : e.cols < 65536)
    (hcur : e.cursorPos ≤ input.length) :
    ∃ off, off = newScrollOffset e.cursorPos e.scrollOffset (e.cols - 4) input.length ∧
      drawScrolled e input = .ok
        ({ rows := [(if off = 0 then promptStr else scrollLeftStr, (input.drop off).take (e.cols - 4))]
           closer := if off + (e.cols - 4) < input.length then scrollRightStr else []
           cursor := some (e.cursorPos - off + 2, none) }, off) := by
  refine ⟨_, rfl, ?_⟩
  have h4 : scrollLeftStr.length + scrollRightStr.length = 4 := by decide
  unfold drawScrolled
  simp only [h4]
  rw [if_neg (by omega)]
  have h1 := newScrollOffset_le (cursor := e.cursorPos) (off := e.scrollOffset) (window := e.cols - 4)
    (len := input.length)
  have h2 := newScrollOffset_window1 (cursor := e.cursorPos) (off := e.scrollOffset) (window := e.cols - 4)
    (len := input.length) (by omega) hcur
  generalize newScrollOffset e.cursorPos e.scrollOffset (e.cols - 4) input.length = off at *
  have ho : (if off = 0 then promptStr else scrollLeftStr).length = 2 := by split <;> decide
  rw [ho]
  unfold usizeSub toU16
  rw [if_pos h1]
  simp only [bind, Outcome.bind]
  rw [if_pos (by omega)]
  simp only [gt_iff_lt]
  by_cases hov : off + (e.cols - 4) < input.length
  · simp only [hov, decide_true, if_true]
    rw [strSlice_ok (by omega) (by omega)]
    simp only
    congr 6
    omega
  · simp only [hov, decide_false, Bool.false_eq_true, if_false]
    rw [strSlice_ok (by omega) (by omega)]
    simp only
    rw [List.take_of_length_le (by simp), List.take_of_length_le (by simp; omega)]

/-- The scrolling view never panics. -/
theorem drawScrolled_fails {e : Editor} {input : Str} (hcur : e.cursorPos ≤ input.length) :
    (∃ r, drawScrolled e input = .ok r) ∨ ∃ err, drawScrolled e input = .err err := by
  have h4 : scrollLeftStr.length + scrollRightStr.length = 4 := by decide
  unfold drawScrolled
  simp only [h4]
  by_cases hc : e.cols ≤ 4
  · rw [if_pos hc]; exact .inr ⟨_, rfl⟩
  rw [if_neg hc]
  have h1 := newScrollOffset_le (cursor := e.cursorPos) (off := e.scrollOffset) (window := e.cols - 4)
    (len := input.length)
  generalize newScrollOffset e.cursorPos e.scrollOffset (e.cols - 4) input.length = off at *
  have ho : (if off = 0 then promptStr else scrollLeftStr).length = 2 := by split <;> decide
  rw [ho]
  unfold usizeSub toU16
  rw [if_pos h1]
  simp only [bind, Outcome.bind]
  by_cases h5 : e.cursorPos - off + 2 < 65536
  · rw [if_pos h5]
    simp only [gt_iff_lt]
    by_cases hov : off + (e.cols - 4) < input.length
    · simp only [hov, decide_true, if_true]
      rw [strSlice_ok (by omega) (by omega)]
      exact .inl ⟨_, rfl⟩
    · simp only [hov, decide_false, Bool.false_eq_true, if_false]
      rw [strSlice_ok (by omega) (by omega)]
      exact .inl ⟨_, rfl⟩
  · rw [if_neg h5]
    exact .inr ⟨_, rfl⟩

/-! ## A redraw -/

theorem draw_ok {m : Machine} {e e' : Editor} {d : Drawing} (h : draw m e = .ok (d, e')) :
    e' = { e with scrollOffset := e'.scrollOffset } := by
  unfold draw at h
  cases hc : (e.inputs.currentLine : Outcome RuntimeErr Str) with
  | ok line =>
    rw [hc] at h
    simp only [bind, Outcome.bind] at h
    split at h
    · cases hd : drawWrapped m e line with
      | ok d' => rw [hd] at h; simp only [Outcome.ok.injEq, Prod.mk.injEq] at h; rw [← h.2]
      | err e => rw [hd] at h; cases h
      | panic k => rw [hd] at h; cases h
      | diverge => rw [hd] at h; cases h
    · cases hd : drawScrolled e line with
      | ok r => rw [hd] at h; simp only [Outcome.ok.injEq, Prod.mk.injEq] at h; rw [← h.2]
      | err e => rw [hd] at h; cases h
      | panic k => rw [hd] at h; cases h
      | diverge => rw [hd] at h; cases h
  | err e => rw [hc] at h; cases h
  | panic k => rw [hc] at h; cases h
  | diverge => rw [hc] at h; cases h

end Bcalc
