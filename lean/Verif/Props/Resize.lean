import Verif.Props.Program
import Verif.Spec.Resize

/-!
# Changing the size of the window: C113
-/

namespace Bcalc
open Spec

/-- What every event keeps is kept by all the events of a watched run. -/
theorem watched_keeps {m : Machine} {ce : CommandExecutor} {errorText : RuntimeErr → Str}
    {P : Editor → Screen → List (Str × Str) → Prop}
    (hP : ∀ {e e' s log line line' ev t as a}, P e s log → Shows e line → (∀ w, ev ≠ .resize w) →
      stepTrace m ce errorText e ev t = (as, a, .ok (false, e')) → Truthful s (as.map (·.op)) t → Shows e' line' →
      '\n' ∉ line' → P e' (s.run (as.map (·.op))) (log ++ exchange errorText line (step m ce e ev t)))
    {e e' : Editor} {s : Screen} {events : List (Event × TermInfo)} {log : List (Str × Str)}
    (h : Watched m ce errorText e s events e' log) : ∀ {log0}, P e s log0 →
    P e' (s.run ((eventsTrace m ce errorText e events).1.map (·.op))) (log0 ++ log) ∧
      (eventsTrace m ce errorText e events).2.2 = .waiting := by
  induction h with
  | over => intro log0 h0; exact ⟨by simpa [Screen.run, eventsTrace] using h0, rfl⟩
  | @event e s line ev t as a e' line' rest e'' log h1 h2 h3 h4 h5 h6 _ ih =>
    intro log0 h0
    obtain ⟨i1, i2⟩ := ih (hP h0 h1 h2 h3 h4 h5 h6)
    have he : eventsTrace m ce errorText e ((ev, t) :: rest) =
        (as ++ (eventsTrace m ce errorText e' rest).1, (eventsTrace m ce errorText e' rest).2.1,
          (eventsTrace m ce errorText e' rest).2.2) := by
      conv_lhs => unfold eventsTrace
      rw [h3]
    rw [he]
    refine ⟨?_, i2⟩
    rw [List.map_append, run_append, ← List.append_assoc]
    exact i1

theorem eventsTrace_cons {m : Machine} {ce : CommandExecutor} {errorText : RuntimeErr → Str} {e e1 : Editor} {ev : Event}
    {t : TermInfo} {as : List Act} {a : Args} (events : List (Event × TermInfo))
    (h : stepTrace m ce errorText e ev t = (as, a, .ok (false, e1))) :
    eventsTrace m ce errorText e ((ev, t) :: events) =
      (as ++ (eventsTrace m ce errorText e1 events).1, (eventsTrace m ce errorText e1 events).2.1,
        (eventsTrace m ce errorText e1 events).2.2) := by
  conv_lhs => unfold eventsTrace
  rw [h]

/-- What the program does when the window has changed its size. -/
theorem resize_redraws {m : Machine} {ce : CommandExecutor} {errorText : RuntimeErr → Str} {e e1 : Editor} {w : Nat}
    {t : TermInfo} {as : List Act} {a : Args} (hc : e.inputComplete = false)
    (h : stepTrace m ce errorText e (.resize w) t = (as, a, .ok (false, e1))) :
    ∃ d out, draw m { e with cols := w } = .ok (d, e1) ∧ as.map (·.op) = [.readEvent] ++ drawOps e1 d ∧
      step m ce e (.resize w) t = .ok (⟨[d], out, false⟩, e1) := by
  obtain ⟨out, ds, h1, h2⟩ := stepTrace_cases h
  generalize as.map (·.op) = ops at h1
  cases h1 with
  | ignored h3 => cases h3
  | redrawn h3 h4 h5 => cases h3; exact ⟨_, _, h5, rfl, h2⟩
  | entered h3 h4 => cases h3; rw [hc] at h4; cases h4

theorem awaits_onScreen {m : Machine} {ce : CommandExecutor} {e : Editor} (h : Awaits m ce e) : ∃ d, OnScreen m ce d e := by
  induction h with
  | start h => exact ⟨_, .start h⟩
  | event _ h hq ih => obtain ⟨d, hd⟩ := ih; exact ⟨_, hd.event h hq⟩

/-- The window of a program on the normal screen changes its size, and the terminal does with the old text whatever it likes.
From the row on which the cursor then is everything is again as in C83: the screen has all the inputs that are entered
from then on and their outputs, in full and in order, each on as many rows as the new width requires; then the row in which
the current line is edited, with the cursor; then nothing.  What is above is untouched. -/
theorem C113_normal (m : Machine) (ce : CommandExecutor) (hce : CommandExecutor.new = .ok ce)
    (errorText : RuntimeErr → Str) (e e' : Editor) (s : Screen) (t : TermInfo) (events : List (Event × TermInfo))
    (log : List (Str × Str)) (line : Str) (haw : Awaits m ce e) (ha : e.args.alternateScreen = false)
    (h : ResizedWatched m ce errorText e s t events e' log) (hs : Shows e' line) (hok : s.Ok)
    (h6 : 6 ≤ s.width) (h16 : s.width < 65536) (hb : s.BlankFrom (s.row + 1)) :
    let run := eventsTrace m ce errorText e ((.resize s.width, t) :: events)
    let s' := s.run (run.1.map (·.op))
    run.2.2 = .waiting ∧ s.SameAbove s' s.row ∧ s'.RowsAre s.row (transcript s.width log) ∧
    s'.row = s.row + (transcript s.width log).length ∧
    (∃ row offset, EditRow s.width line offset e'.cursorPos row s'.col ∧ s'.RowIs s'.row row) ∧
    s'.BlankFrom (s'.row + 1) := by
  obtain ⟨as, a, e1, line1, h1, h2, h3, h4⟩ := h
  rw [new_eq_table hce] at *
  rw [eventsTrace_cons events h1]
  obtain ⟨d, out, g1, g2, g3⟩ := resize_redraws haw.ok.2 h1
  have haw1 : Awaits m table e1 := .event haw g3 rfl
  have hd := draw_ok g1
  have ho := haw1.line h2
  obtain ⟨col, hr, hcur, hcw⟩ := drawn_inline (line := line1) g1
    (by rw [hd] at ho; exact ⟨ho.hist, ho.shows, ho.cursor, ho.db⟩) haw.ok.2 ha h6 h16 h3 (s := s) rfl
  have hrun : s.run (as.map (·.op)) = s.run (drawOps e1 d) := by rw [g2]; rfl
  obtain ⟨d0, hon⟩ := awaits_onScreen haw
  have hI : InlineScreen m table s e1 (s.run (as.map (·.op))) [] := by
    rw [hrun]
    refine ⟨hr.ok hok hcw, hr.width, hr.height, by rw [hd]; exact ha, by rw [hd],
      fun r c hlt => hr.others r c (by omega), fun i text hi => by simp [transcript] at hi, by rw [hr.row]; rfl, ?_, ?_, ?_⟩
    · exact ⟨d, hon.event g3 rfl, by rw [hr.row]; exact hr.shows, by rw [hr.col]; exact hcur, by rw [hr.col, hr.width]; exact hcw⟩
    · intro r c hlt hcw
      rw [hr.row] at hlt
      rw [hr.width] at hcw
      rw [hr.others r c (by omega)]
      exact hb r c hlt hcw
    · intro l hl
      rw [hl.unique h2]
      exact h3
  obtain ⟨k1, k2⟩ := watched_keeps (P := fun e' s' log => InlineScreen m table s e' s' log)
    (fun h1 h2 h3 h4 h5 h6' h7 => inline_event h6 h16 h1 h2 h3 h4 h5 h6' h7) h4 hI
  rw [List.nil_append] at k1
  simp only [List.map_append, run_append]
  exact ⟨k2, inline_shows k1 h6 h16 hs⟩

/-- The same on the alternate screen, as long as there is a row left for the prompt: the inputs and outputs begin on the row
of the window on which the prompt was. -/
theorem C113_alternate (m : Machine) (ce : CommandExecutor) (hce : CommandExecutor.new = .ok ce)
    (errorText : RuntimeErr → Str) (e e' : Editor) (s : Screen) (t : TermInfo) (events : List (Event × TermInfo))
    (log : List (Str × Str)) (line : Str) (haw : Awaits m ce e) (ha : e.args.alternateScreen = true)
    (h : ResizedWatched m ce errorText e s t events e' log) (hs : Shows e' line) (hok : s.Ok) (hcol : e.startCol = 0)
    (hroom : e.startRow + (transcript s.width log).length < s.height) :
    let run := eventsTrace m ce errorText e ((.resize s.width, t) :: events)
    let s' := s.run (run.1.map (·.op))
    run.2.2 = .waiting ∧ s.SameAbove s' (s.top + e.startRow) ∧ s'.top = s.top ∧
    s'.RowsAre (s.top + e.startRow) (transcript s.width log) ∧
    (e.startRow + (transcript s.width log ++ inputRows s.width line).length ≤ s.height →
      s'.RowsAre (s.top + e.startRow) (transcript s.width log ++ inputRows s.width line) ∧
      s'.BlankFrom (s.top + e.startRow + (transcript s.width log ++ inputRows s.width line).length)) := by
  obtain ⟨as, a, e1, line1, h1, h2, h3, h4⟩ := h
  rw [new_eq_table hce] at *
  rw [eventsTrace_cons events h1]
  obtain ⟨d, out, g1, g2, g3⟩ := resize_redraws haw.ok.2 h1
  have haw1 : Awaits m table e1 := .event haw g3 rfl
  have hd := draw_ok g1
  have ho := haw1.line h2
  -- where the transcript begins
  let s0 : Screen := { s with row := s.top + e.startRow, col := 0 }
  obtain ⟨he, hk, hshow⟩ := drawn_alternate (line := line1) g1
    (by rw [hd] at ho; exact ⟨ho.hist, ho.shows, ho.cursor, ho.db⟩) haw.ok.2 ha hcol h3 (s := s) hok
    (by show e.startRow < s.height; omega) rfl
  have hrun : s.run (as.map (·.op)) = s.run (drawOps e1 d) := by rw [g2]; rfl
  have hat : AlternateAt m s0 e1 (s.run (as.map (·.op))) [] := by
    refine ⟨haw1, by rw [hd]; exact ha, fun l hl => by rw [hl.unique h2]; exact h3, fun _ => ?_⟩
    rw [hrun]
    refine ⟨hk.ok, hk.width, hk.height, hk.top, by rw [hd], by rw [hd]; exact hcol,
      by rw [hd]; rfl, hk.above, fun i text hi => by simp [transcript] at hi, fun l hl => ?_⟩
    rw [hl.unique h2]
    exact hshow
  obtain ⟨k1, k2⟩ := watched_keeps (P := fun e' s' log => AlternateAt m s0 e' s' log)
    (fun h1 h2 h3 h4 h5 h6' h7 => alternate_event h1 h2 h3 h4 h5 h6' h7) h4 hat
  rw [List.nil_append] at k1
  simp only [List.map_append, run_append]
  have hA := k1.2.2.2 (by show s.top + e.startRow + (transcript s.width log).length < s.top + s.height; omega)
  obtain ⟨q1, q2, q3, q4⟩ := alternate_shows hA hs
  refine ⟨k2, q1, q2, q3, fun hf => q4 ?_⟩
  show s.top + e.startRow + (transcript s.width log ++ inputRows s.width line).length ≤ s.top + s.height
  omega

/-- On the normal screen the program goes on after every change to at least 5 columns, with the same line and the cursor at the
same place in it. -/
theorem C113_goes_on (m : Machine) (ce : CommandExecutor) (errorText : RuntimeErr → Str) (e : Editor) (s : Screen)
    (t : TermInfo) (line : Str) (haw : Awaits m ce e) (hs : Shows e line) (hn : '\n' ∉ line)
    (ha : e.args.alternateScreen = false) (h5 : 5 ≤ s.width) (h16 : s.width < 65536) :
    ∃ e', ResizedWatched m ce errorText e s t [] e' [] ∧ Shows e' line ∧ e'.cursorPos = e.cursorPos := by
  have ho := haw.line hs
  obtain ⟨off, _, hd⟩ := drawScrolled_ok (e := { e with cols := s.width }) (input := line) h5 h16 ho.cursor
  have hs' : (e.inputs.currentLine : Outcome RuntimeErr Str) = .ok line := hs
  have hdraw : ∃ d e1, draw m { e with cols := s.width } = .ok (d, e1) := by
    unfold draw
    simp only [bind, Outcome.bind, hs', ha, haw.ok.2, Bool.or_false, Bool.false_eq_true, if_false]
    rw [haw.ok.2] at hd
    rw [hd]
    exact ⟨_, _, rfl⟩
  obtain ⟨d, e1, hdr⟩ := hdraw
  have hd1 := draw_ok hdr
  have hsh : Shows e1 line := by rw [hd1]; exact hs
  refine ⟨e1, ⟨acts e1.args ([.readEvent] ++ drawOps e1 d), e1.args, e1, line, ?_, hsh, hn, .over⟩, hsh, by rw [hd1]⟩
  have hc1 : e1.inputComplete = false := by rw [hd1]; exact haw.ok.2
  have hargs : e1.args = e.args := by rw [hd1]
  unfold stepTrace handleEvent
  simp only [hdr, hc1, Bool.false_eq_true, if_false, hargs]

/-! ## Examples -/

/-- The program in the state `e` after a change of the window to the screen `s`, and these events. -/
def exResized (e : Editor) (s : Screen) (events : List (Event × TermInfo)) : Option (Editor × List (Str × Str)) :=
  match stepTrace (exMachine true) table (fun _ => []) e (.resize s.width) ⟨0, 0, 0⟩ with
  | (as, _, .ok (false, e1)) =>
    match (e1.inputs.currentLine : Outcome RuntimeErr Str) with
    | .ok line => if '\n' ∉ line then exWatch (exMachine true) e1 (s.run (as.map (·.op))) events else none
    | _ => none
  | _ => none

theorem exResized_meets {e : Editor} {s : Screen} {events : List (Event × TermInfo)} {log : List (Str × Str)} {line : Str}
    (h : (exResized e s events).map (fun x => (x.2, (x.1.inputs.currentLine : Outcome RuntimeErr Str))) =
      some (log, .ok line)) :
    ∃ e', ResizedWatched (exMachine true) table (fun _ => []) e s ⟨0, 0, 0⟩ events e' log ∧ Shows e' line := by
  obtain ⟨⟨e', log'⟩, h1, h2⟩ := Option.map_eq_some_iff.1 h
  simp only [Prod.mk.injEq] at h2
  obtain ⟨rfl, h2⟩ := h2
  refine ⟨e', ?_, h2⟩
  unfold exResized at h1
  split at h1
  · rename_i as a e1 hst
    split at h1
    · rename_i line1 hl
      obtain ⟨hn, h3⟩ := Option.ite_none_right_eq_some.1 h1
      exact ⟨as, a, e1, line1, hst, hl, hn, exWatch_is _ _ _ _ _ h3⟩
    · cases h1
  · cases h1

/-- The hypotheses of C113_normal are met: 1+2 is typed in a window of 20 columns, which then becomes 12 columns wide, and whose
rows the terminal has filled anew; *3 is added and the line entered. -/
example : Awaits (exMachine true) table (exAfter 20 false (typed "1+2")) ∧
    (exAfter 20 false (typed "1+2")).args.alternateScreen = false ∧
    (∃ e', ResizedWatched (exMachine true) table (fun _ => []) (exAfter 20 false (typed "1+2"))
      ⟨12, 5, fun r _ => if r ≤ 3 then 'x' else ' ', 0, 3, 5⟩ ⟨0, 0, 0⟩
      (exUnasked "*3" ++ [(.key .enter .none, ⟨0, 4, 12⟩)] ++ exUnasked "4") e' [("1+2*3".toList, "7".toList)] ∧
      Shows e' "4".toList) ∧
    (⟨12, 5, fun r _ => if r ≤ 3 then 'x' else ' ', 0, 3, 5⟩ : Screen).BlankFrom 4 :=
  ⟨exAfter_awaits (by decide +kernel), by decide +kernel, exResized_meets (by decide +kernel), fun r c h _ => by
    show (if r ≤ 3 then 'x' else ' ') = ' '
    rw [if_neg (by omega)]⟩

/-- Those of C113_alternate are met. -/
example : Awaits (exMachine true) table (exAfter 20 true (typed "1+2")) ∧
    (exAfter 20 true (typed "1+2")).args.alternateScreen = true ∧ (exAfter 20 true (typed "1+2")).startCol = 0 ∧
    (∃ e', ResizedWatched (exMachine true) table (fun _ => []) (exAfter 20 true (typed "1+2"))
      ⟨9, 5, fun _ _ => 'x', 0, 3, 5⟩ ⟨0, 0, 0⟩
      (exUnasked "*3" ++ [(.key .enter .none, ⟨0, 2, 9⟩)] ++ exUnasked "4") e' [("1+2*3".toList, "7".toList)] ∧
      Shows e' "4".toList) ∧
    (exAfter 20 true (typed "1+2")).startRow + (transcript 9 [("1+2*3".toList, "7".toList)]).length < 5 :=
  ⟨exAfter_awaits (by decide +kernel), by decide +kernel, by decide +kernel, exResized_meets (by decide +kernel), by decide +kernel⟩

end Bcalc
