import Verif.Props.Stays

/-!
# The screen is determined by what was answered and what is edited: C116
-/

namespace Bcalc
open Spec

theorem shown_rows {s s' : Screen} {b w : Nat} {rows : List Str} (h : s.RowsAre b rows) (h' : s'.RowsAre b rows)
    (hw : s.width = w) (hw' : s'.width = w) {r c : Nat} (h1 : b ≤ r) (h2 : r < b + rows.length) (hc : c < w) :
    s.cell r c = s'.cell r c := by
  have hi : rows[r - b]? = some rows[r - b] := List.getElem?_eq_getElem (by omega)
  have g := (h _ _ hi).2 c (by omega)
  have g' := (h' _ _ hi).2 c (by omega)
  rw [show b + (r - b) = r from by omega] at g g'
  rw [g, g']

/-- On the alternate screen, while there is room: two runs of the program, however different the keys that were pressed, the
saved data, the build and the settings are, show exactly the same, to the last cell, if the same was entered and answered and the same
line is being edited; and the cursor is at the same place if it is at the same place of the line. -/
theorem C116_alternate (m m' : Machine) (ce : CommandExecutor) (hce : CommandExecutor.new = .ok ce)
    (errorText errorText' : RuntimeErr → Str) (args args' : Args) (opened opened' : Outcome DbError (Option SavedData))
    (s0 : Screen) (events events' : List (Event × TermInfo)) (e e' : Editor) (log : List (Str × Str)) (line : Str)
    (h : ProgramWatched m ce errorText args opened s0 events e log)
    (h' : ProgramWatched m' ce errorText' args' opened' s0 events' e' log) (hs : Shows e line) (hs' : Shows e' line)
    (ha : args.alternateScreen = true) (ha' : args'.alternateScreen = true) (hok : s0.Ok) (hcol : s0.col = 0)
    (hroom : s0.row + (transcript s0.width log ++ inputRows s0.width line).length ≤ s0.top + s0.height)
    (hprompt : s0.row + (transcript s0.width log).length < s0.top + s0.height) :
    let s := s0.run (mainInteractive m ce errorText args opened false false none s0.reports events).1
    let s' := s0.run (mainInteractive m' ce errorText' args' opened' false false none s0.reports events').1
    s.width = s'.width ∧ s.height = s'.height ∧ s.top = s'.top ∧ (∀ r c, c < s0.width → s.cell r c = s'.cell r c) ∧
    (e.cursorPos = e'.cursorPos → s0.width < 65536 → s0.height < 65536 →
      s0.row + (transcript s0.width log).length + e.cursorPos / (s0.width - 2) < s0.top + s0.height →
      s.row = s'.row ∧ s.col = s'.col) := by
  intro s s'
  have ht := new_eq_table hce
  have hA := ((alternate_course (ht ▸ (program_waits h).2) ha hok hcol).2.2.2 hprompt)
  have hA' := ((alternate_course (ht ▸ (program_waits h').2) ha' hok hcol).2.2.2 hprompt)
  rw [← ht] at hA hA'
  have hA : AlternateScreen s0 e s log := hA
  have hA' : AlternateScreen s0 e' s' log := hA'
  obtain ⟨_, a2, a3, _, a5⟩ := C84_program m ce hce errorText args opened s0 events e log line h hs ha hok hcol hprompt
  obtain ⟨_, b2, b3, _, b5⟩ :=
    C84_program m' ce hce errorText' args' opened' s0 events' e' log line h' hs' ha' hok hcol hprompt
  obtain ⟨a6, a7⟩ := a5 hroom
  obtain ⟨b6, b7⟩ := b5 hroom
  have hw : s.width = s0.width := hA.width
  have hw' : s'.width = s0.width := hA'.width
  refine ⟨hw.trans hw'.symm, hA.height.trans hA'.height.symm, a3.trans b3.symm, fun r c hc => ?_, fun hp g1 g2 g3 => ?_⟩
  · rcases Nat.lt_or_ge r s0.row with hr | hr
    · exact (a2 r c hr).trans (b2 r c hr).symm
    · rcases Nat.lt_or_ge r (s0.row + (transcript s0.width log ++ inputRows s0.width line).length) with hr' | hr'
      · exact shown_rows a6 b6 hw hw' hr hr' hc
      · exact (a7 r c hr' (by rw [← hw] at hc; exact hc)).trans (b7 r c hr' (by rw [← hw'] at hc; exact hc)).symm
  · obtain ⟨c1, c2⟩ := C84_program_cursor m ce hce errorText args opened s0 events e log line h hs ha hok hcol g1 g2 g3
    obtain ⟨d1, d2⟩ := C84_program_cursor m' ce hce errorText' args' opened' s0 events' e' log line h' hs' ha' hok hcol g1
      g2 (by rw [← hp]; exact g3)
    exact ⟨c1.trans (by rw [hp]; exact d1.symm), c2.trans (by rw [hp]; exact d2.symm)⟩

/-- On the normal screen: the same, but for the row in which the line is edited, of which a line that does not fit shows a part
(which part depends on how the cursor has been moved). -/
theorem C116_normal (m m' : Machine) (ce : CommandExecutor) (hce : CommandExecutor.new = .ok ce)
    (errorText errorText' : RuntimeErr → Str) (args args' : Args) (opened opened' : Outcome DbError (Option SavedData))
    (s0 : Screen) (events events' : List (Event × TermInfo)) (e e' : Editor) (log : List (Str × Str)) (line line' : Str)
    (h : ProgramWatched m ce errorText args opened s0 events e log)
    (h' : ProgramWatched m' ce errorText' args' opened' s0 events' e' log) (hs : Shows e line) (hs' : Shows e' line')
    (ha : args.alternateScreen = false) (ha' : args'.alternateScreen = false) (hok : s0.Ok)
    (h6 : 6 ≤ s0.width) (h16 : s0.width < 65536) (hb : s0.BlankFrom (s0.row + 1)) :
    let s := s0.run (mainInteractive m ce errorText args opened false false none s0.reports events).1
    let s' := s0.run (mainInteractive m' ce errorText' args' opened' false false none s0.reports events').1
    s.width = s'.width ∧ s.height = s'.height ∧ s.top = s'.top ∧ s.row = s'.row ∧
    ∀ r c, c < s0.width → r ≠ s.row → s.cell r c = s'.cell r c := by
  intro s s'
  have ht := new_eq_table hce
  have hA := inline_course (ht ▸ (program_waits h).2) ha hok h6 h16 hb
  have hA' := inline_course (ht ▸ (program_waits h').2) ha' hok h6 h16 hb
  rw [← ht] at hA hA'
  have hw : s.width = s0.width := hA.width
  have hw' : s'.width = s0.width := hA'.width
  have hh : s.height = s0.height := hA.height
  have hh' : s'.height = s0.height := hA'.height
  obtain ⟨_, a2, a3, a4, _, a6⟩ := C83_program m ce hce errorText args opened s0 events e log line h hs ha hok h6 h16 hb
  obtain ⟨_, b2, b3, b4, _, b6⟩ :=
    C83_program m' ce hce errorText' args' opened' s0 events' e' log line' h' hs' ha' hok h6 h16 hb
  have a4 : s.row = s0.row + (transcript s0.width log).length := a4
  have b4 : s'.row = s0.row + (transcript s0.width log).length := b4
  have ht : s.top = s'.top := by
    have g := (C115_scroll m ce hce errorText args opened false false none s0.reports events s0 ha hok).1
    have g' := (C115_scroll m' ce hce errorText' args' opened' false false none s0.reports events' s0 ha' hok).1
    have g : s.top = max s0.top (s.row + 1 - s0.height) := g
    have g' : s'.top = max s0.top (s'.row + 1 - s0.height) := g'
    rw [g, g', a4, b4]
  refine ⟨hw.trans hw'.symm, hh.trans hh'.symm, ht, a4.trans b4.symm, fun r c hc hne => ?_⟩
  rcases Nat.lt_or_ge r s0.row with hr | hr
  · exact (a2 r c hr).trans (b2 r c hr).symm
  · rcases Nat.lt_or_ge r s.row with hr' | hr'
    · exact shown_rows a3 b3 hw hw' hr (by omega) hc
    · exact (a6 r c (show s.row + 1 ≤ r by omega) (by rw [← hw] at hc; exact hc)).trans
        (b6 r c (show s'.row + 1 ≤ r by omega) (by rw [← hw'] at hc; exact hc)).symm

/-! ## Examples -/

/-- The hypotheses of C116_alternate are met: 1+2 typed at once, and with a detour; the next line begun. -/
example : (∃ e, ProgramWatched (exMachine true) table (fun _ => []) { Args.default with noDb := true, alternateScreen := true }
      (.err .environment) (exBlank 9 4 0) (exUnasked "1+2" ++ [(.key .enter .none, ⟨0, 2, 9⟩)] ++ exUnasked "7") e
      [("1+2".toList, "3".toList)] ∧ Shows e "7".toList) ∧
    (∃ e, ProgramWatched (exMachine true) table (fun _ => []) { Args.default with noDb := true, alternateScreen := true }
      (.err .environment) (exBlank 9 4 0) (exUnasked "1+23" ++ [(.key .backspace .none, ⟨0, 0, 0⟩)] ++
        [(.key .enter .none, ⟨0, 2, 9⟩)] ++ exUnasked "7") e
      [("1+2".toList, "3".toList)] ∧ Shows e "7".toList) :=
  ⟨exProgram_meets (by decide +kernel), exProgram_meets (by decide +kernel)⟩

/-- Those of C116_normal are. -/
example : (∃ e, ProgramWatched (exMachine true) table (fun _ => []) { Args.default with noDb := true, alternateScreen := false }
      (.err .environment) (exBlank 9 4 0) (exUnasked "1+2" ++ [(.key .enter .none, ⟨0, 2, 9⟩)] ++ exUnasked "7") e
      [("1+2".toList, "3".toList)] ∧ Shows e "7".toList) ∧
    (∃ e, ProgramWatched (exMachine true) table (fun _ => []) { Args.default with noDb := true, alternateScreen := false }
      (.err .environment) (exBlank 9 4 0) (exUnasked "1+23" ++ [(.key .backspace .none, ⟨0, 0, 0⟩)] ++
        [(.key .enter .none, ⟨0, 2, 9⟩)]) e
      [("1+2".toList, "3".toList)] ∧ Shows e []) :=
  ⟨exProgram_meets (by decide +kernel), exProgram_meets (by decide +kernel)⟩

end Bcalc
