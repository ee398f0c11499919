import Verif.Props.Screen
import Verif.Spec.Program

/-!
# What the program as a whole shows: C83 and C84

The operations on the terminal that `main` performs from beginning to end, with the set-up of the terminal, the first prompt,
everything that is drawn on the events, and at the end the restoration of the terminal, on the screen it is started on.
-/

namespace Bcalc
open Spec

/-- The operations of the loop over the events, event by event. -/
theorem watched_trace {m : Machine} {ce : CommandExecutor} {errorText : RuntimeErr → Str} {e e' : Editor} {s : Screen}
    {events : List (Event × TermInfo)} {log : List (Str × Str)} (h : Watched m ce errorText e s events e' log) :
    ∀ {args : Args} {s0 : Screen} {log0 : List (Str × Str)}, Course m ce errorText args s0 e s log0 →
    ∃ as : List Act, Course m ce errorText args s0 e' (s.run (as.map (·.op))) (log0 ++ log) ∧
      ∀ more, eventsTrace m ce errorText e (events ++ more) =
        (as ++ (eventsTrace m ce errorText e' more).1, (eventsTrace m ce errorText e' more).2.1,
          (eventsTrace m ce errorText e' more).2.2) := by
  induction h with
  | over =>
    intro args s0 log0 hc
    exact ⟨[], by simpa [Screen.run] using hc, fun more => rfl⟩
  | @event e s line ev t as a e' line' rest e'' log h1 h2 h3 h4 h5 h6 _ ih =>
    intro args s0 log0 hc
    obtain ⟨as', hc', hs'⟩ := ih (.event hc h1 h2 h3 h4 h5 h6)
    refine ⟨as ++ as', ?_, fun more => ?_⟩
    · rw [List.map_append, run_append, ← List.append_assoc]
      exact hc'
    · rw [List.cons_append]
      conv_lhs => unfold eventsTrace
      rw [h3]
      simp only
      rw [hs' more]
      simp only [List.append_assoc]

/-- What the program has sent to the terminal when it has handled the events, and more events come. -/
theorem program_trace {m : Machine} {ce : CommandExecutor} {errorText : RuntimeErr → Str} {args : Args}
    {opened : Outcome DbError (Option SavedData)} {s0 : Screen} {events : List (Event × TermInfo)} {e : Editor}
    {log : List (Str × Str)} (h : ProgramWatched m ce errorText args opened s0 events e log) :
    ∃ as : List Act, Course m ce errorText args s0 e (s0.run (as.map (·.op))) log ∧
      ∀ more, interactiveTrace m ce errorText args opened s0.reports (events ++ more) =
        (as ++ (eventsTrace m ce errorText e more).1, (eventsTrace m ce errorText e more).2.1,
          (eventsTrace m ce errorText e more).2.2) := by
  obtain ⟨db, d, e0, ho, hn, hst, hw⟩ := h
  have h1 : (if args.noDb then .ok none else opened : Outcome DbError (Option SavedData)) = .ok db := by
    cases h : args.noDb with
    | true => rw [hn h]; rfl
    | false => rw [ho h]; rfl
  obtain ⟨as, hc, ht⟩ := watched_trace hw (Course.start hst)
  refine ⟨acts args ([.queryPosition, .querySize] ++ drawOps e0 d) ++ as, ?_, fun more => ?_⟩
  · have he : (acts args ([.queryPosition, .querySize] ++ drawOps e0 d)).map (·.op) =
        [.queryPosition, .querySize] ++ drawOps e0 d := by
      unfold acts
      rw [List.map_map]
      exact List.map_id _
    rw [List.map_append, run_append, he]
    exact hc
  · unfold interactiveTrace
    rw [h1]
    simp only
    rw [hst]
    simp only
    rw [ht more]
    simp only [List.append_assoc]

/-- The set-up of the terminal leaves what is on the screen. -/
theorem run_setUp (s0 : Screen) (b : Bool) (ops : List TermOp) :
    s0.run (([TermOp.enableRaw] ++ if b = true then [TermOp.enterAlternate] else []) ++ ops) = s0.run ops := by
  cases b <;> rfl

/-- The program, while it awaits the next event. -/
theorem program_waits {m : Machine} {ce : CommandExecutor} {errorText : RuntimeErr → Str} {args : Args}
    {opened : Outcome DbError (Option SavedData)} {s0 : Screen} {events : List (Event × TermInfo)} {e : Editor}
    {log : List (Str × Str)} (h : ProgramWatched m ce errorText args opened s0 events e log) :
    (mainInteractive m ce errorText args opened false false none s0.reports events).2 = .waiting ∧
    Course m ce errorText args s0 e
      (s0.run (mainInteractive m ce errorText args opened false false none s0.reports events).1) log := by
  obtain ⟨as, hc, ht⟩ := program_trace h
  have ht := ht []
  rw [List.append_nil] at ht
  unfold mainInteractive
  rw [ht]
  simp only [withFault, eventsTrace, Bool.false_eq_true, if_false, Bool.and_false, List.append_nil]
  refine ⟨trivial, ?_⟩
  rw [run_setUp]
  exact hc

/-- The program on the normal screen, from its start on, whatever has been typed and entered: the screen (with what has
scrolled out of view) has, from the row on which it was started, all the inputs and their outputs, in full and in
order; then the row in which the current line is edited, with the cursor; then nothing.  What was there before is
untouched. -/
theorem C83_program (m : Machine) (ce : CommandExecutor) (hce : CommandExecutor.new = .ok ce)
    (errorText : RuntimeErr → Str) (args : Args) (opened : Outcome DbError (Option SavedData)) (s0 : Screen)
    (events : List (Event × TermInfo)) (e : Editor) (log : List (Str × Str)) (line : Str)
    (h : ProgramWatched m ce errorText args opened s0 events e log) (hs : Shows e line)
    (ha : args.alternateScreen = false) (hok : s0.Ok)
    (h6 : 6 ≤ s0.width) (h16 : s0.width < 65536) (hb : s0.BlankFrom (s0.row + 1)) :
    let run := mainInteractive m ce errorText args opened false false none s0.reports events
    let s := s0.run run.1
    run.2 = .waiting ∧ s0.SameAbove s s0.row ∧ s.RowsAre s0.row (transcript s0.width log) ∧
    s.row = s0.row + (transcript s0.width log).length ∧
    (∃ row offset, EditRow s0.width line offset e.cursorPos row s.col ∧ s.RowIs s.row row) ∧
    s.BlankFrom (s.row + 1) := by
  obtain ⟨h1, h2⟩ := program_waits h
  exact ⟨h1, C83_transcript m ce hce errorText args s0 _ e log line h2 ha hok h6 h16 hb hs⟩

/-- And when the user then quits: the program ends well, all of it is still there, with the line that was being edited,
and the cursor is on a blank row of its own below. -/
theorem C83_program_quit (m : Machine) (ce : CommandExecutor) (hce : CommandExecutor.new = .ok ce)
    (errorText : RuntimeErr → Str) (args : Args) (opened : Outcome DbError (Option SavedData)) (s0 : Screen)
    (events : List (Event × TermInfo)) (e : Editor) (log : List (Str × Str)) (line : Str) (ev : Event) (t : TermInfo)
    (h : ProgramWatched m ce errorText args opened s0 events e log) (hs : Shows e line)
    (hev : ev = .key (.char 'c') .control ∨ ev = .key (.char 'd') .control ∨ ev = .key (.char 'z') .control)
    (ha : args.alternateScreen = false) (hok : s0.Ok)
    (h6 : 6 ≤ s0.width) (h16 : s0.width < 65536) (hb : s0.BlankFrom (s0.row + 1)) :
    let run := mainInteractive m ce errorText args opened false false none s0.reports (events ++ [(ev, t)])
    let s := s0.run run.1
    run.2 = .done ∧ s0.SameAbove s s0.row ∧ s.RowsAre s0.row (transcript s0.width log) ∧
    s.row = s0.row + (transcript s0.width log).length + 1 ∧
    (∃ row offset col, EditRow s0.width line offset e.cursorPos row col ∧
      s.RowIs (s0.row + (transcript s0.width log).length) row) ∧
    s.BlankFrom s.row := by
  have hq : handleEvent e ev = .ok (.quit, e) := by rcases hev with rfl | rfl | rfl <;> rfl
  obtain ⟨as, hc, ht⟩ := program_trace h
  have hI := hc
  rw [new_eq_table hce] at hI
  have hI := inline_course hI ha hok h6 h16 hb
  obtain ⟨b1, b2, b3, b4, b5⟩ := C83_transcript m ce hce errorText args s0 _ e log line hc ha hok h6 h16 hb hs
  have hst : stepTrace m ce errorText e ev t = (acts e.args [.readEvent, .print ['\n']], e.args, .ok (true, e)) := by
    unfold stepTrace
    rw [hq]
    simp only
    rw [if_neg (by rw [hI.args]; decide)]
    rfl
  obtain ⟨c1, c2, c3, c4⟩ := C83_quit m ce hce errorText args e.args s0 _ e e log ev t _ hc ha hok h6 h16 hb hst
  have ht := ht [(ev, t)]
  have he : eventsTrace m ce errorText e [(ev, t)] = (acts e.args [.readEvent, .print ['\n']], e.args, .done) := by
    unfold eventsTrace
    rw [hst]
    rfl
  rw [he] at ht
  generalize hS : s0.run (as.map (·.op)) = S at *
  intro run s
  have hrun : run = ([TermOp.enableRaw] ++ (if args.alternateScreen = true then [TermOp.enterAlternate] else []) ++
      (as ++ acts e.args [.readEvent, .print ['\n']]).map (·.op) ++
      (if e.args.alternateScreen = true then [.leaveAlternate] else []) ++ [.disableRaw], .done) := by
    show mainInteractive m ce errorText args opened false false none s0.reports (events ++ [(ev, t)]) = _
    unfold mainInteractive
    rw [ht]
    simp only [withFault, Bool.false_eq_true, if_false, Bool.and_false]
    rfl
  have hs' : s = S.run ((acts e.args [.readEvent, .print ['\n']]).map (·.op)) := by
    show s0.run run.1 = _
    rw [hrun]
    simp only
    rw [run_append, run_append, run_setUp, List.map_append, run_append, hS]
    cases e.args.alternateScreen <;> rfl
  rw [hs']
  have hr : run.2 = .done := by rw [hrun]
  have hw : (S.run ((acts e.args [.readEvent, .print ['\n']]).map (·.op))).width = S.width := by
    show S.lineFeed.width = _
    unfold Screen.lineFeed
    split <;> rfl
  have hlen : ∀ i text, (transcript s0.width log)[i]? = some text → i < (transcript s0.width log).length :=
    fun i text h => (List.getElem?_eq_some_iff.1 h).1
  refine ⟨hr, fun r c hlt => ?_, fun i text hi => ?_, by rw [c3, b3], ?_, ?_⟩
  · rw [c1 r c (by omega), b1 r c hlt]
  · obtain ⟨d1, d2⟩ := b2 i text hi
    have := hlen i text hi
    refine ⟨by rw [hw]; exact d1, fun c hc => ?_⟩
    rw [c1 _ c (by omega)]
    exact d2 c (by rw [← hw]; exact hc)
  · obtain ⟨row, offset, d1, d2, d3⟩ := b4
    refine ⟨row, offset, _, d1, ?_⟩
    rw [← b3]
    refine ⟨by rw [hw]; exact d2, fun c hc => ?_⟩
    rw [c1 _ c (by omega)]
    exact d3 c (by rw [← hw]; exact hc)
  · rw [c3]; exact c2

/-- The program on the alternate screen, from its start on, whatever has been typed and entered, as long as there is a row
left for the prompt: the screen has, from the first row on, all the inputs and their outputs, in full and in order, and has
not scrolled; if the current line fits below, it is shown there in full, and then nothing. -/
theorem C84_program (m : Machine) (ce : CommandExecutor) (hce : CommandExecutor.new = .ok ce)
    (errorText : RuntimeErr → Str) (args : Args) (opened : Outcome DbError (Option SavedData)) (s0 : Screen)
    (events : List (Event × TermInfo)) (e : Editor) (log : List (Str × Str)) (line : Str)
    (h : ProgramWatched m ce errorText args opened s0 events e log) (hs : Shows e line)
    (ha : args.alternateScreen = true) (hok : s0.Ok) (hcol : s0.col = 0)
    (hroom : s0.row + (transcript s0.width log).length < s0.top + s0.height) :
    let run := mainInteractive m ce errorText args opened false false none s0.reports events
    let s := s0.run run.1
    run.2 = .waiting ∧ s0.SameAbove s s0.row ∧ s.top = s0.top ∧ s.RowsAre s0.row (transcript s0.width log) ∧
    (s0.row + (transcript s0.width log ++ inputRows s0.width line).length ≤ s0.top + s0.height →
      s.RowsAre s0.row (transcript s0.width log ++ inputRows s0.width line) ∧
      s.BlankFrom (s0.row + (transcript s0.width log ++ inputRows s0.width line).length)) := by
  obtain ⟨h1, h2⟩ := program_waits h
  exact ⟨h1, C84_transcript m ce hce errorText args s0 _ e log line h2 ha hok hcol hroom hs⟩

/-- The cursor of the program is where it belongs, if that is on the screen. -/
theorem C84_program_cursor (m : Machine) (ce : CommandExecutor) (hce : CommandExecutor.new = .ok ce)
    (errorText : RuntimeErr → Str) (args : Args) (opened : Outcome DbError (Option SavedData)) (s0 : Screen)
    (events : List (Event × TermInfo)) (e : Editor) (log : List (Str × Str)) (line : Str)
    (h : ProgramWatched m ce errorText args opened s0 events e log) (hs : Shows e line)
    (ha : args.alternateScreen = true) (hok : s0.Ok) (hcol : s0.col = 0)
    (h16 : s0.width < 65536) (hh : s0.height < 65536)
    (hroom : s0.row + (transcript s0.width log).length + e.cursorPos / (s0.width - 2) < s0.top + s0.height) :
    let s := s0.run (mainInteractive m ce errorText args opened false false none s0.reports events).1
    s.row = s0.row + (transcript s0.width log).length + e.cursorPos / (s0.width - 2) ∧
      s.col = 2 + e.cursorPos % (s0.width - 2) := by
  obtain ⟨_, h2⟩ := program_waits h
  exact C84_cursor m ce hce errorText args s0 _ e log line h2 ha hok hcol h16 hh hs hroom

/-! ## The terminal can answer truthfully -/

/-- The operations do not ask for the cursor. -/
def NoQuestion (ops : List TermOp) : Prop := TermOp.queryPosition ∉ ops

theorem noQuestion_newLine (b : Bool) : NoQuestion (newLineOps b) := by cases b <;> simp [NoQuestion, newLineOps]

theorem NoQuestion.append {a b : List TermOp} (h : NoQuestion a) (h' : NoQuestion b) : NoQuestion (a ++ b) := by
  unfold NoQuestion at *
  rw [List.mem_append, not_or]
  exact ⟨h, h'⟩

theorem noQuestion_rows (b : Bool) : ∀ rows, NoQuestion (rowOps b rows)
  | [] => by simp [NoQuestion, rowOps]
  | [(opener, text)] => by simp [NoQuestion, rowOps]
  | (opener, text) :: r :: rest => by
    unfold rowOps
    exact .append (.append (by simp [NoQuestion]) (noQuestion_newLine b)) (noQuestion_rows b (r :: rest))

theorem noQuestion_draw (e : Editor) (d : Drawing) : NoQuestion (drawOps e d) := by
  unfold drawOps
  split
  · unfold wrappedOps
    refine .append (.append (.append ?_ (noQuestion_rows _ _)) ?_) (by simp [NoQuestion])
    · split <;> simp [NoQuestion]
    · split
      · simp [NoQuestion]
      · exact noQuestion_newLine _
  · unfold scrolledOps
    refine .append (.append (.append (by simp [NoQuestion]) ?_) (by simp [NoQuestion])) ?_
    · unfold NoQuestion
      simp
    · split <;> simp [NoQuestion]

theorem noQuestion_output (b : Bool) (text : Str) : NoQuestion (outputOps b text) := by
  unfold outputOps
  refine .append ?_ (by simp [NoQuestion])
  unfold NoQuestion
  simp only [List.mem_flatten, List.mem_map, not_exists, not_and]
  rintro l ⟨line, _, rfl⟩ h
  rcases List.mem_append.1 h with h | h
  · simp at h
  · exact noQuestion_newLine b h

theorem noQuestion_truthful {s : Screen} {ops : List TermOp} {t : TermInfo} (h : NoQuestion ops) : Truthful s ops t := by
  intro before after he
  exact absurd (by rw [he]; simp) h

theorem oneQuestion {a b a' b' : List TermOp} (h : NoQuestion a) (h' : NoQuestion b)
    (he : a ++ .queryPosition :: b = a' ++ .queryPosition :: b') : a = a' := by
  rcases List.append_eq_append_iff.1 he with ⟨x, h1, h2⟩ | ⟨x, h1, h2⟩
  · cases x with
    | nil => simpa using h1.symm
    | cons y ys =>
      simp only [List.cons_append, List.cons.injEq] at h2
      exact absurd (by rw [h2.2]; simp) h'
  · cases x with
    | nil => simpa using h1
    | cons y ys =>
      simp only [List.cons_append, List.cons.injEq] at h2
      exact absurd (by rw [h1, h2.1]; simp) h

theorem acts_ops (args : Args) (ops : List TermOp) : (acts args ops).map (·.op) = ops := by
  unfold acts
  rw [List.map_map]
  exact List.map_id _

/-- That the terminal answers truthfully excludes nothing: in every state, on every screen and for every event there is a
truthful answer. -/
theorem C83_truthful (m : Machine) (ce : CommandExecutor) (errorText : RuntimeErr → Str) (e : Editor) (ev : Event)
    (s : Screen) : ∃ t, Truthful s ((stepTrace m ce errorText e ev t).1.map (·.op)) t := by
  have hr : NoQuestion [TermOp.readEvent] := by simp [NoQuestion]
  have plain : ∀ {ops : List TermOp}, NoQuestion ops →
      (∀ t, (stepTrace m ce errorText e ev t).1.map (·.op) = ops) →
      ∃ t, Truthful s ((stepTrace m ce errorText e ev t).1.map (·.op)) t := by
    intro ops h h'
    refine ⟨⟨0, 0, 0⟩, ?_⟩
    rw [h']
    exact noQuestion_truthful h
  cases h1 : handleEvent e ev with
  | err x => exact plain hr fun t => by unfold stepTrace; rw [h1]; rfl
  | panic x => exact plain hr fun t => by unfold stepTrace; rw [h1]; rfl
  | diverge => exact plain hr fun t => by unfold stepTrace; rw [h1]; rfl
  | ok r =>
    obtain ⟨a, e1⟩ := r
    cases a with
    | ignore => exact plain hr fun t => by unfold stepTrace; rw [h1]; rfl
    | quit =>
      refine plain (ops := [.readEvent] ++ if e.args.alternateScreen then [] else [.print ['\n']]) ?_
        fun t => by unfold stepTrace; rw [h1]; exact acts_ops _ _
      cases e.args.alternateScreen <;> simp [NoQuestion]
    | redraw =>
      cases h2 : draw m e1 with
      | err x => exact plain hr fun t => by unfold stepTrace; rw [h1]; simp only; rw [h2]; rfl
      | panic x => exact plain hr fun t => by unfold stepTrace; rw [h1]; simp only; rw [h2]; rfl
      | diverge => exact plain hr fun t => by unfold stepTrace; rw [h1]; simp only; rw [h2]; rfl
      | ok r =>
        obtain ⟨d, e2⟩ := r
        have hb : NoQuestion ([.readEvent] ++ drawOps e2 d) := hr.append (noQuestion_draw _ _)
        cases h3 : e2.inputComplete with
        | false =>
          refine plain hb fun t => ?_
          unfold stepTrace; rw [h1]; simp only; rw [h2]; simp only
          rw [h3, if_neg (by decide)]
          exact acts_ops _ _
        | true =>
          cases h4 : finishLine m ce e2 with
          | err x =>
            refine plain hb fun t => ?_
            unfold stepTrace; rw [h1]; simp only; rw [h2]; simp only
            rw [h3, if_pos rfl, h4]; exact acts_ops _ _
          | panic x =>
            refine plain hb fun t => ?_
            unfold stepTrace; rw [h1]; simp only; rw [h2]; simp only
            rw [h3, if_pos rfl, h4]; exact acts_ops _ _
          | diverge =>
            refine plain hb fun t => ?_
            unfold stepTrace; rw [h1]; simp only; rw [h2]; simp only
            rw [h3, if_pos rfl, h4]; exact acts_ops _ _
          | ok r =>
            obtain ⟨out, e3⟩ := r
            have hA : NoQuestion ([.readEvent] ++ drawOps e2 d ++ outputOps e3.args.alternateScreen (out.text errorText)) :=
              hb.append (noQuestion_output _ _)
            refine ⟨(s.run ([.readEvent] ++ drawOps e2 d ++
              outputOps e3.args.alternateScreen (out.text errorText))).reports, ?_⟩
            generalize ht : (s.run ([.readEvent] ++ drawOps e2 d ++
              outputOps e3.args.alternateScreen (out.text errorText))).reports = t
            have hn : ∃ more, NoQuestion more ∧ (newLineTrace m e3 t).1.map (·.op) = .queryPosition :: more := by
              unfold newLineTrace
              split
              · rename_i d' e' _
                refine ⟨.querySize :: drawOps e' d', ?_, acts_ops _ _⟩
                have := noQuestion_draw e' d'
                unfold NoQuestion at *
                simpa using this
              all_goals exact ⟨[.querySize], by simp [NoQuestion], acts_ops _ _⟩
            obtain ⟨more, hm, hn⟩ := hn
            have hops : (stepTrace m ce errorText e ev t).1.map (·.op) =
                ([.readEvent] ++ drawOps e2 d ++ outputOps e3.args.alternateScreen (out.text errorText)) ++
                  .queryPosition :: more := by
              unfold stepTrace; rw [h1]; simp only; rw [h2]; simp only
              rw [h3, if_pos rfl, h4]
              simp only [List.map_append, acts_ops, hn]
            rw [hops]
            intro before after he
            rw [← oneQuestion hA hm he, ht]

/-- Any keys can be pressed in a run as C83_program and C84_program take it: up to an event on which the program quits, fails or
crashes, or brings up a line with a line feed in it. -/
theorem C83_watchable (m : Machine) (ce : CommandExecutor)
    (errorText : RuntimeErr → Str) : ∀ (evs : List Event) (_ : ∀ ev ∈ evs, ∀ w, ev ≠ .resize w)
    (e : Editor) (s : Screen) (_ : Awaits m ce e),
    ∃ events rest e' log, evs = events.map (·.1) ++ rest ∧ Watched m ce errorText e s events e' log ∧
      (rest = [] ∨ ∃ ev more t, rest = ev :: more ∧
        ∀ as a e'', stepTrace m ce errorText e' ev t = (as, a, .ok (false, e'')) → ∃ line, Shows e'' line ∧ '\n' ∈ line)
  | [], _, e, s, _ => ⟨[], [], e, [], rfl, .over, .inl rfl⟩
  | ev :: evs, hr, e, s, ha => by
    obtain ⟨t, ht⟩ := C83_truthful m ce errorText e ev s
    by_cases hgo : ∃ as a e'' line, stepTrace m ce errorText e ev t = (as, a, .ok (false, e'')) ∧ Shows e'' line ∧
        '\n' ∉ line
    · obtain ⟨as, a, e'', line, h1, h2, h3⟩ := hgo
      have hst := stepTrace_result m ce errorText e ev t
      rw [h1] at hst ht
      have haw : Awaits m ce e'' := by
        cases hs : step m ce e ev t with
        | err x => rw [hs] at hst; cases hst
        | panic x => rw [hs] at hst; cases hst
        | diverge => rw [hs] at hst; cases hst
        | ok r =>
          obtain ⟨out, e1⟩ := r
          rw [hs] at hst
          simp only [stepResult, Outcome.ok.injEq, Prod.mk.injEq] at hst
          obtain ⟨hq, rfl⟩ := hst
          exact .event ha hs hq.symm
      obtain ⟨⟨line0, ho⟩, _⟩ := ha.ok
      obtain ⟨events, rest, e', log, h4, h5, h6⟩ := C83_watchable m ce errorText evs
        (fun x hx => hr x (List.mem_cons_of_mem _ hx)) e'' (s.run (as.map (·.op))) haw
      exact ⟨(ev, t) :: events, rest, e', _, by rw [h4]; rfl,
        .event ho.shows (hr ev (List.mem_cons_self ..)) h1 ht h2 h3 h5, h6⟩
    · refine ⟨[], ev :: evs, e, [], rfl, .over, .inr ⟨ev, evs, t, rfl, fun as a e'' h1 => ?_⟩⟩
      have hst := stepTrace_result m ce errorText e ev t
      rw [h1] at hst
      cases hs : step m ce e ev t with
      | err x => rw [hs] at hst; cases hst
      | panic x => rw [hs] at hst; cases hst
      | diverge => rw [hs] at hst; cases hst
      | ok r =>
        obtain ⟨out, e1⟩ := r
        rw [hs] at hst
        simp only [stepResult, Outcome.ok.injEq, Prod.mk.injEq] at hst
        obtain ⟨hq, rfl⟩ := hst
        obtain ⟨⟨line, ho⟩, _⟩ := (Awaits.event ha hs hq.symm).ok
        refine ⟨line, ho.shows, ?_⟩
        by_contra hn
        exact hgo ⟨as, a, _, line, h1, ho.shows, hn⟩

/-! ## Examples -/

/-- A run of the program on a screen, where it stands after the events, if the terminal is as `Watched` says. -/
def exWatch (m : Machine) (e : Editor) (s : Screen) : List (Event × TermInfo) → Option (Editor × List (Str × Str))
  | [] => some (e, [])
  | (ev, t) :: rest =>
    match (e.inputs.currentLine : Outcome RuntimeErr Str), stepTrace m table (fun _ => []) e ev t with
    | .ok line, (as, _, .ok (false, e')) =>
      match (e'.inputs.currentLine : Outcome RuntimeErr Str) with
      | .ok line' =>
        if exTruthful s (as.map (·.op)) t = true ∧ '\n' ∉ line' ∧
            (match ev with | .resize _ => false | _ => true) = true then
          (exWatch m e' (s.run (as.map (·.op))) rest).map fun (e'', log) =>
            (e'', exchange (fun _ => []) line (step m table e ev t) ++ log)
        else none
      | _ => none
    | _, _ => none

theorem exWatch_is {m : Machine} : ∀ (events : List (Event × TermInfo)) (e : Editor) (s : Screen) (e' : Editor)
    (log : List (Str × Str)), exWatch m e s events = some (e', log) →
    Watched m table (fun _ => []) e s events e' log
  | [], e, s, e', log, h => by
    simp only [exWatch, Option.some.injEq, Prod.mk.injEq] at h
    obtain ⟨rfl, rfl⟩ := h
    exact .over
  | (ev, t) :: rest, e, s, e'', log, h => by
    unfold exWatch at h
    split at h
    · rename_i line as a e' hl hs
      split at h
      · rename_i line' hl'
        obtain ⟨⟨h3, h5, h6⟩, h2⟩ := Option.ite_none_right_eq_some.1 h
        obtain ⟨⟨e1, log1⟩, h7, h8⟩ := Option.map_eq_some_iff.1 h2
        simp only [Prod.mk.injEq] at h8
        obtain ⟨rfl, rfl⟩ := h8
        exact .event hl (by intro w hw; rw [hw] at h6; simp at h6) hs (exTruthful_is h3) hl' h5
          (exWatch_is rest e' _ e1 log1 h7)
      · cases h
    · cases h

/-- The program without a database. -/
def exProgram (m : Machine) (alternate : Bool) (s0 : Screen) (events : List (Event × TermInfo)) : Option (Editor × List (Str × Str)) :=
  match Editor.start m { Args.default with noDb := true, alternateScreen := alternate } none s0.reports with
  | .ok (d, e) => exWatch m e (s0.run ([.queryPosition, .querySize] ++ drawOps e d)) events
  | _ => none

theorem exProgram_meets {m : Machine} {alternate : Bool} {s0 : Screen} {events : List (Event × TermInfo)} {log : List (Str × Str)}
    {line : Str}
    (h : (exProgram m alternate s0 events).map (fun x => (x.2, (x.1.inputs.currentLine : Outcome RuntimeErr Str))) =
      some (log, .ok line)) :
    ∃ e, ProgramWatched m table (fun _ => [])
      { Args.default with noDb := true, alternateScreen := alternate } (.err .environment) s0 events e log ∧ Shows e line := by
  obtain ⟨⟨e, log⟩, h1, h2⟩ := Option.map_eq_some_iff.1 h
  simp only [Prod.mk.injEq] at h2
  obtain ⟨rfl, h2⟩ := h2
  refine ⟨e, ?_, h2⟩
  unfold exProgram at h1
  split at h1
  · rename_i d e0 hst
    exact ⟨none, d, e0, by simp, by simp, hst, exWatch_is _ _ _ _ _ h1⟩
  · cases h1

/-- The hypotheses of C83_program are met: 1+2 is entered, its answer shown, and the next line begun. -/
example : ∃ e, ProgramWatched (exMachine true) table (fun _ => []) { Args.default with noDb := true, alternateScreen := false }
      (.err .environment) (exBlank 12 5 2)
      (exUnasked "1+2" ++ [(.key .enter .none, ⟨0, 4, 12⟩)] ++ exUnasked "4") e [("1+2".toList, "3".toList)] ∧
    Shows e "4".toList :=
  exProgram_meets (by decide +kernel)

/-- The hypotheses of C84_program are met: the same on an alternate screen of 4 rows, where there is room for the prompt. -/
example : ∃ e, ProgramWatched (exMachine true) table (fun _ => []) { Args.default with noDb := true, alternateScreen := true }
      (.err .environment) (exBlank 9 4 0)
      (exUnasked "1+2" ++ [(.key .enter .none, ⟨0, 2, 9⟩)] ++ exUnasked "4") e [("1+2".toList, "3".toList)] ∧
    Shows e "4".toList :=
  exProgram_meets (by decide +kernel)

end Bcalc
