import Verif.Props.Resize

/-!
# What has been answered stays: C114
-/

namespace Bcalc
open Spec

/-- `s'` is `s`, but for what is from the row `b` on, and may have scrolled. -/
structure KeptAbove (s s' : Screen) (b : Nat) : Prop where
  ok : s'.Ok
  width : s'.width = s.width
  height : s'.height = s.height
  top : s.top ≤ s'.top
  above : s.SameAbove s' b

theorem KeptAbove.refl {s : Screen} (h : s.Ok) (b : Nat) : KeptAbove s s b := ⟨h, rfl, rfl, Nat.le_refl _, fun _ _ _ => rfl⟩

theorem KeptAbove.trans {s s' s'' : Screen} {b b' : Nat} (h : KeptAbove s s' b) (h' : KeptAbove s' s'' b') (hb : b ≤ b') :
    KeptAbove s s'' b :=
  ⟨h'.ok, h'.width.trans h.width, h'.height.trans h.height, h.top.trans h'.top,
    fun r c hlt => (h'.above r c (Nat.lt_of_lt_of_le hlt hb)).trans (h.above r c hlt)⟩

theorem lineFeed_kept {s : Screen} (h : s.Ok) {b : Nat} (hb : b ≤ s.row) :
    KeptAbove s s.lineFeed b ∧ b ≤ s.lineFeed.row ∧ s.lineFeed.col = s.col := by
  have hk := lineFeed_ok h
  unfold Screen.lineFeed at hk ⊢
  split
  · rename_i hlt
    rw [if_pos hlt] at hk
    exact ⟨⟨hk, rfl, rfl, Nat.le_refl _, fun _ _ _ => rfl⟩, by simp only; omega, rfl⟩
  · rename_i hlt
    rw [if_neg hlt] at hk
    exact ⟨⟨hk, rfl, rfl, Nat.le_succ _, fun r c hr => if_neg (by omega)⟩, by simp only; omega, rfl⟩

theorem put_kept {s : Screen} (h : s.Ok) {b : Nat} (hb : b ≤ s.row) (c : Char) :
    KeptAbove s (s.put c) b ∧ b ≤ (s.put c).row := by
  unfold Screen.put
  split
  · obtain ⟨h1, h2, _⟩ := lineFeed_kept h hb
    exact ⟨h1, h2⟩
  · have key : ∀ s1 : Screen, KeptAbove s s1 b → b ≤ s1.row → s1.col < s1.width →
        KeptAbove s { s1 with cell := fun r k => if r = s1.row ∧ k = s1.col then c else s1.cell r k, col := s1.col + 1 } b ∧
          b ≤ s1.row := by
      intro s1 h1 h2 h3
      refine ⟨⟨⟨h1.ok.wide, h1.ok.above, h1.ok.below, h3⟩, h1.width, h1.height, h1.top, fun r k hr => ?_⟩, h2⟩
      simp only
      rw [if_neg (by omega)]
      exact h1.above r k hr
    simp only
    split
    · rename_i hlt
      exact key s (.refl h b) hb hlt
    · obtain ⟨h1, h2, _⟩ := lineFeed_kept h hb
      refine key { s.lineFeed with col := 0 } ⟨⟨h1.ok.wide, h1.ok.above, h1.ok.below, Nat.zero_le _⟩, h1.width, h1.height,
        h1.top, h1.above⟩ h2 ?_
      exact h1.ok.wide

theorem puts_kept : ∀ (text : Str) {s : Screen} (_ : s.Ok) {b : Nat} (_ : b ≤ s.row),
    KeptAbove s (text.foldl Screen.put s) b ∧ b ≤ (text.foldl Screen.put s).row
  | [], s, h, b, hb => ⟨.refl h b, hb⟩
  | c :: text, s, h, b, hb => by
    obtain ⟨h1, h2⟩ := put_kept h hb c
    obtain ⟨h3, h4⟩ := puts_kept text h1.ok h2
    exact ⟨h1.trans h3 (Nat.le_refl _), h4⟩

/-- Operations that do not move the cursor to another place of the window. -/
def Downward (ops : List TermOp) : Prop := ∀ op ∈ ops, ∀ col row, op ≠ .moveTo col row

theorem op_kept {s : Screen} (h : s.Ok) {b : Nat} (hb : b ≤ s.row) (op : TermOp) (ho : ∀ col row, op ≠ .moveTo col row) :
    KeptAbove s (s.after op) b ∧ b ≤ (s.after op).row := by
  have h1 := h.wide
  have h2 := h.above
  have h3 := h.below
  have h4 := h.inside
  cases op with
  | moveTo col row => exact absurd rfl (ho col row)
  | moveToColumn col =>
    exact ⟨⟨⟨h1, h2, h3, by show min col (s.width - 1) ≤ s.width; omega⟩, rfl, rfl, Nat.le_refl _, fun _ _ _ => rfl⟩, hb⟩
  | moveToNextLine n =>
    refine ⟨⟨⟨h1, ?_, ?_, Nat.zero_le _⟩, rfl, rfl, Nat.le_refl _, fun _ _ _ => rfl⟩, ?_⟩
    · show s.top ≤ min (s.row + n) (s.top + s.height - 1); omega
    · show min (s.row + n) (s.top + s.height - 1) < s.top + s.height; omega
    · show b ≤ min (s.row + n) (s.top + s.height - 1); omega
  | clearCurrentLine => exact ⟨⟨⟨h1, h2, h3, h4⟩, rfl, rfl, Nat.le_refl _, fun r c hr => if_neg (by omega)⟩, hb⟩
  | clearFromCursorDown => exact ⟨⟨⟨h1, h2, h3, h4⟩, rfl, rfl, Nat.le_refl _, fun r c hr => if_neg (by omega)⟩, hb⟩
  | print text => exact puts_kept text h hb
  | _ => exact ⟨.refl h b, hb⟩

theorem ops_kept : ∀ {ops : List TermOp} (_ : Downward ops) {s : Screen} (_ : s.Ok) {b : Nat} (_ : b ≤ s.row),
    KeptAbove s (s.run ops) b ∧ b ≤ (s.run ops).row
  | [], _, s, h, b, hb => ⟨.refl h b, hb⟩
  | op :: ops, hd, s, h, b, hb => by
    obtain ⟨h1, h2⟩ := op_kept h hb op (hd op (List.mem_cons_self ..))
    obtain ⟨h3, h4⟩ := ops_kept (fun o ho => hd o (List.mem_cons_of_mem _ ho)) h1.ok h2
    exact ⟨h1.trans h3 (Nat.le_refl _), h4⟩

theorem Downward.append {a b : List TermOp} (h : Downward a) (h' : Downward b) : Downward (a ++ b) := by
  intro op ho
  rcases List.mem_append.1 ho with h1 | h1
  · exact h op h1
  · exact h' op h1

theorem downward_newLine (b : Bool) : Downward (newLineOps b) := by cases b <;> simp [Downward, newLineOps]

theorem downward_rows (b : Bool) : ∀ rows, Downward (rowOps b rows)
  | [] => by simp [Downward, rowOps]
  | [(opener, text)] => by simp [Downward, rowOps]
  | (opener, text) :: r :: rest => by
    unfold rowOps
    exact .append (.append (by simp [Downward]) (downward_newLine b)) (downward_rows b (r :: rest))

theorem downward_output (b : Bool) (text : Str) : Downward (outputOps b text) := by
  unfold outputOps
  refine .append ?_ (by simp [Downward])
  intro op ho
  simp only [List.mem_flatten, List.mem_map] at ho
  obtain ⟨l, ⟨line, _, rfl⟩, ho⟩ := ho
  rcases List.mem_append.1 ho with h | h
  · simp only [List.mem_singleton] at h
    subst h
    simp
  · exact downward_newLine b op h

/-- A redraw on the alternate screen. -/
theorem draw_kept {e : Editor} (ha : e.args.alternateScreen = true) (d : Drawing) {s : Screen} (h : s.Ok)
    (hr : e.startRow < s.height) : KeptAbove s (s.run (drawOps e d)) (s.top + e.startRow) ∧
      (d.cursor = none → s.top + e.startRow ≤ (s.run (drawOps e d)).row) := by
  have h1 := h.wide
  have hops : drawOps e d = .moveTo e.startCol e.startRow :: (.clearFromCursorDown :: rowOps true d.rows ++
      ((match d.cursor with
        | some (col, some row) => [.moveTo col row]
        | _ => newLineOps true) ++ [.flush])) := by
    unfold drawOps wrappedOps
    rw [ha]
    simp [List.append_assoc]
    rfl
  have hm : KeptAbove s (s.after (.moveTo e.startCol e.startRow)) (s.top + e.startRow) ∧
      s.top + e.startRow ≤ (s.after (.moveTo e.startCol e.startRow)).row := by
    refine ⟨⟨⟨h1, ?_, ?_, ?_⟩, rfl, rfl, Nat.le_refl _, fun _ _ _ => rfl⟩, ?_⟩
    · show s.top ≤ s.top + min e.startRow (s.height - 1); omega
    · show s.top + min e.startRow (s.height - 1) < s.top + s.height; omega
    · show min e.startCol (s.width - 1) ≤ s.width; omega
    · show s.top + e.startRow ≤ s.top + min e.startRow (s.height - 1); omega
  obtain ⟨k1, k2⟩ := hm
  have hd : Downward (.clearFromCursorDown :: rowOps true d.rows) := by
    intro op ho
    rcases List.mem_cons.1 ho with rfl | ho
    · simp
    · exact downward_rows true d.rows op ho
  obtain ⟨k3, k4⟩ := ops_kept hd k1.ok k2
  have hk := k1.trans k3 (Nat.le_refl _)
  rw [hops, run_cons, run_append]
  generalize (s.after (.moveTo e.startCol e.startRow)).run (.clearFromCursorDown :: rowOps true d.rows) = s1 at hk k4
  cases hc : d.cursor with
  | none =>
    obtain ⟨k5, k6⟩ := ops_kept (ops := newLineOps true ++ [.flush]) ((downward_newLine true).append (by simp [Downward])) hk.ok k4
    exact ⟨hk.trans k5 (Nat.le_refl _), fun _ => k6⟩
  | some p =>
    obtain ⟨col, row⟩ := p
    cases row with
    | none =>
      obtain ⟨k5, _⟩ := ops_kept (ops := newLineOps true ++ [.flush]) ((downward_newLine true).append (by simp [Downward])) hk.ok k4
      exact ⟨hk.trans k5 (Nat.le_refl _), by simp⟩
    | some row =>
      have h5 := (moveTo_keeps hk.ok col row (s.top + e.startRow)).1
      refine ⟨hk.trans (b' := s.top + e.startRow) ⟨h5.ok, h5.width, h5.height, Nat.le_of_eq h5.top.symm, h5.above⟩ (Nat.le_refl _), by simp⟩

/-- How the alternate screen has been left since it was `s` and the prompt on the row `b`. -/
def LeftAbove (m : Machine) (s : Screen) (b : Nat) (e' : Editor) (s' : Screen) : Prop :=
  Awaits m table e' ∧ e'.args.alternateScreen = true ∧ KeptAbove s s' b ∧ e'.startRow < s'.height ∧ b ≤ s'.top + e'.startRow

theorem leftAbove_event {m : Machine} {errorText : RuntimeErr → Str} {s0 s : Screen} {b : Nat} {e e' : Editor}
    {line : Str} {ev : Event} {t : TermInfo} {as : List Act} {a : Args} (ih : LeftAbove m s0 b e s) (hsh : Shows e line)
    (hre : ∀ w, ev ≠ .resize w)
    (htr : stepTrace m table errorText e ev t = (as, a, .ok (false, e'))) (htruth : Truthful s (as.map (·.op)) t) :
    LeftAbove m s0 b e' (s.run (as.map (·.op))) := by
  obtain ⟨haw, ha, hk, hrow, hb⟩ := ih
  obtain ⟨out, ds, hstep, hst⟩ := stepTrace_cases htr
  have ho := haw.line hsh
  have hc0 : e.inputComplete = false := haw.ok.2
  have haw' := Awaits.event haw hst rfl
  generalize as.map (·.op) = ops at hstep htruth
  cases hstep with
  | ignored h1 =>
    have hv := ignored_same ho (by simp) h1
    exact ⟨haw', by rw [hv.args]; exact ha, hk, by rw [hv.row]; exact hrow, by rw [hv.row]; exact hb⟩
  | @redrawn e1 _ d h1 h2 h3 =>
    obtain ⟨hargs, hsc⟩ := handleEvent_kept h1
    have hd := draw_ok h3
    have hnx : Next e ev e1 := by
      rcases handleEvent_inv ho ev with ⟨err, he⟩ | ⟨a', e1', he, hnx⟩
      · rw [h1] at he; cases he
      · rw [h1] at he; cases he; exact hnx
    have hr' : e'.startRow = e.startRow := by rw [hd]; exact hnx.row
    have ha' : e'.args.alternateScreen = true := by rw [hd]; simp only; rw [hargs]; exact ha
    have hrun : s.run ([.readEvent] ++ drawOps e' d) = s.run (drawOps e' d) := rfl
    rw [hrun]
    obtain ⟨g1, _⟩ := draw_kept ha' d hk.ok (by rw [hr']; exact hrow)
    rw [hr'] at g1
    have gt := g1.top
    exact ⟨haw', ha', hk.trans g1 hb, by rw [hr', g1.height]; exact hrow, by rw [hr']; omega⟩
  | @entered e1 e2 e3 _ d d' out h1 h2 h3 h4 h5 =>
    obtain ⟨hargs, hsc⟩ := handleEvent_kept h1
    have hen : isEnter ev = true := by
      rcases handleEvent_inv ho ev with ⟨err, he⟩ | ⟨a', e1', he, hnx⟩
      · rw [h1] at he; cases he
      · rw [h1] at he; cases he
        have := hnx.complete
        rw [h2, hc0] at this
        simpa using this.symm
    obtain ⟨mods, rfl⟩ := isEnter_iff hen
    have he1 : e1 = { e with inputComplete := true } := by cases h1; rfl
    have hs1 : Shows e1 line := by rw [he1]; exact ho.shows
    obtain ⟨hdw, he2⟩ := drawn_complete hs1 h2 h3
    subst he2
    have halt2 : e2.args.alternateScreen = true := by rw [he1]; exact ha
    have halt3 : e3.args.alternateScreen = true := by rw [finishLine_alternate h4]; exact halt2
    have hd := draw_ok h5
    have hr2 : e2.startRow = e.startRow := by rw [he1]
    obtain ⟨g1, g2⟩ := draw_kept halt2 d hk.ok (by rw [hr2]; exact hrow)
    have g2 := g2 (complete_cursor hdw h2)
    rw [hr2] at g1 g2
    obtain ⟨g3, g4⟩ := ops_kept (downward_output e3.args.alternateScreen (out.text errorText)) g1.ok g2
    have ht := htruth _ _ rfl
    have hrun1 : s.run ([.readEvent] ++ drawOps e2 d ++ outputOps e3.args.alternateScreen (out.text errorText)) =
        (s.run (drawOps e2 d)).run (outputOps e3.args.alternateScreen (out.text errorText)) := by
      rw [run_append]; rfl
    rw [hrun1] at ht
    have hrun2 : s.run (([.readEvent] ++ drawOps e2 d ++ outputOps e3.args.alternateScreen (out.text errorText)) ++
        (.queryPosition :: .querySize :: drawOps e' d')) =
        ((s.run (drawOps e2 d)).run (outputOps e3.args.alternateScreen (out.text errorText))).run (drawOps e' d') := by
      rw [run_append, hrun1]; rfl
    rw [hrun2]
    have hkk := hk.trans (g1.trans g3 (Nat.le_refl _)) hb
    generalize (s.run (drawOps e2 d)).run (outputOps e3.args.alternateScreen (out.text errorText)) = S at *
    have q1 := hkk.ok.above
    have q2 := hkk.ok.below
    have hsr : e'.startRow = S.row - S.top := by rw [hd]; show t.startRow = _; rw [ht]; rfl
    have ha' : e'.args.alternateScreen = true := by rw [hd]; exact halt3
    obtain ⟨g5, _⟩ := draw_kept ha' d' hkk.ok (by rw [hsr]; omega)
    have g6 := g5.top
    refine ⟨haw', ha', hkk.trans g5 (by rw [hsr]; omega), by rw [hsr, g5.height]; omega, by rw [hsr]; omega⟩

/-- On the alternate screen nothing that is above the row of the prompt is ever written on again: whatever is typed and
entered from then on, and whether there is room for it or not, it stays as it is (or scrolls out of view). -/
theorem C114_kept (m : Machine) (ce : CommandExecutor) (hce : CommandExecutor.new = .ok ce)
    (errorText : RuntimeErr → Str) (e e' : Editor) (s : Screen) (events : List (Event × TermInfo)) (log : List (Str × Str))
    (haw : Awaits m ce e) (ha : e.args.alternateScreen = true) (hok : s.Ok) (hr : e.startRow < s.height)
    (h : Watched m ce errorText e s events e' log) :
    let s' := s.run ((eventsTrace m ce errorText e events).1.map (·.op))
    s.SameAbove s' (s.top + e.startRow) ∧ s.top ≤ s'.top ∧ s.top + e.startRow ≤ s'.top + e'.startRow ∧
      e'.startRow < s'.height := by
  rw [new_eq_table hce] at *
  obtain ⟨⟨_, _, k3, k4, k5⟩, _⟩ := watched_keeps (P := fun e' s' _ => LeftAbove m s (s.top + e.startRow) e' s')
    (fun h1 h2 h3 h4 h5 _ _ => leftAbove_event h1 h2 h3 h4 h5) h (log0 := [])
    ⟨haw, ha, .refl hok _, hr, Nat.le_refl _⟩
  exact ⟨k3.above, k3.top, k5, k4⟩

/-- So all that has been answered while there was room stays, in full and in order, to the end of the session. -/
theorem C114_answers (m : Machine) (ce : CommandExecutor) (hce : CommandExecutor.new = .ok ce)
    (errorText : RuntimeErr → Str) (args : Args) (opened : Outcome DbError (Option SavedData)) (s0 : Screen)
    (events more : List (Event × TermInfo)) (e e' : Editor) (log log' : List (Str × Str))
    (h : ProgramWatched m ce errorText args opened s0 events e log)
    (ha : args.alternateScreen = true) (hok : s0.Ok) (hcol : s0.col = 0)
    (hroom : s0.row + (transcript s0.width log).length < s0.top + s0.height)
    (h' : Watched m ce errorText e
      (s0.run (mainInteractive m ce errorText args opened false false none s0.reports events).1) more e' log') :
    let run := mainInteractive m ce errorText args opened false false none s0.reports (events ++ more)
    let s := s0.run run.1
    run.2 = .waiting ∧ s0.SameAbove s s0.row ∧ s.RowsAre s0.row (transcript s0.width log) := by
  obtain rfl := new_eq_table hce
  obtain ⟨as, hcourse, ht⟩ := program_trace h
  have hm := (program_waits h).2
  have hA := alternate_course hm ha hok hcol
  obtain ⟨haw, halt, _, hA⟩ := hA
  have hA := hA hroom
  generalize hS : s0.run (mainInteractive m table errorText args opened false false none s0.reports events).1 = S at *
  have hrow : e.startRow < S.height := by
    have h1 := hA.start
    rw [hA.height]
    omega
  have hSe : S = s0.run (as.map (·.op)) := by
    rw [← hS]
    have ht := ht []
    rw [List.append_nil] at ht
    unfold mainInteractive
    rw [ht]
    simp only [withFault, eventsTrace, Bool.false_eq_true, if_false, Bool.and_false, List.append_nil]
    rw [run_setUp]
  have hw : (eventsTrace m table errorText e more).2.2 = .waiting :=
    (watched_keeps (P := fun _ _ _ => True) (fun _ _ _ _ _ _ _ => trivial) h' (log0 := []) trivial).2
  have hk : KeptAbove S (S.run ((eventsTrace m table errorText e more).1.map (·.op))) (S.top + e.startRow) :=
    (watched_keeps (P := fun e' s' _ => LeftAbove m S (S.top + e.startRow) e' s')
      (fun h1 h2 h3 h4 h5 _ _ => leftAbove_event h1 h2 h3 h4 h5) h' (log0 := [])
      ⟨haw, halt, .refl hA.ok _, hrow, Nat.le_refl _⟩).1.2.2.1
  have hrun : mainInteractive m table errorText args opened false false none s0.reports (events ++ more) =
      (([TermOp.enableRaw] ++ if args.alternateScreen = true then [TermOp.enterAlternate] else []) ++
        (as ++ (eventsTrace m table errorText e more).1).map (·.op), .waiting) := by
    unfold mainInteractive
    rw [ht more]
    simp only [withFault, Bool.false_eq_true, if_false, Bool.and_false, hw]
  intro run s
  have hs : s = S.run ((eventsTrace m table errorText e more).1.map (·.op)) := by
    show s0.run run.1 = _
    rw [show run = _ from hrun]
    simp only
    rw [run_setUp, List.map_append, run_append, hSe]
  have hst : S.top + e.startRow = s0.row + (transcript s0.width log).length := by rw [hA.top]; exact hA.start
  refine ⟨by rw [show run = _ from hrun], fun r c hlt => ?_, ?_⟩
  · rw [hs, hk.above r c (by omega)]
    exact hA.above r c hlt
  · rw [hs]
    exact RowsAre.keep hA.rows hk.width hk.above (by omega)

/-! ## Examples -/

/-- Two parts of a run of the program on the alternate screen, without a database. -/
def exGoesOn (s0 : Screen) (events more : List (Event × TermInfo)) : Option (List (Str × Str) × List (Str × Str)) :=
  match exProgram (exMachine true) true s0 events with
  | some (e, log) =>
    (exWatch (exMachine true) e (s0.run (mainInteractive (exMachine true) table (fun _ => [])
      { Args.default with noDb := true, alternateScreen := true } (.err .environment) false false none s0.reports events).1)
      more).map fun x => (log, x.2)
  | none => none

theorem exGoesOn_meets {s0 : Screen} {events more : List (Event × TermInfo)} {log log' : List (Str × Str)}
    (h : exGoesOn s0 events more = some (log, log')) :
    ∃ e e', ProgramWatched (exMachine true) table (fun _ => [])
      { Args.default with noDb := true, alternateScreen := true } (.err .environment) s0 events e log ∧
      Watched (exMachine true) table (fun _ => []) e (s0.run (mainInteractive (exMachine true) table (fun _ => [])
        { Args.default with noDb := true, alternateScreen := true } (.err .environment) false false none s0.reports events).1)
        more e' log' := by
  unfold exGoesOn at h
  cases h1 : exProgram (exMachine true) true s0 events with
  | none => rw [h1] at h; cases h
  | some r =>
    obtain ⟨e, log1⟩ := r
    rw [h1] at h
    simp only at h
    obtain ⟨⟨e', log2⟩, h2, h3⟩ := Option.map_eq_some_iff.1 h
    simp only [Prod.mk.injEq] at h3
    obtain ⟨rfl, rfl⟩ := h3
    refine ⟨e, e', ?_, exWatch_is _ _ _ _ _ h2⟩
    unfold exProgram at h1
    split at h1
    · rename_i d e0 hst
      exact ⟨none, d, e0, by simp, by simp, hst, exWatch_is _ _ _ _ _ h1⟩
    · cases h1

/-- The hypotheses of C114_answers are met: in a window of 4 rows 1+2 is entered and answered; then 5*5 and 6, for whose
answers there is no room. -/
example : (∃ e e', ProgramWatched (exMachine true) table (fun _ => [])
      { Args.default with noDb := true, alternateScreen := true } (.err .environment) (exBlank 9 4 0)
      (exUnasked "1+2" ++ [(.key .enter .none, ⟨0, 2, 9⟩)]) e [("1+2".toList, "3".toList)] ∧
      Watched (exMachine true) table (fun _ => []) e ((exBlank 9 4 0).run (mainInteractive (exMachine true) table (fun _ => [])
        { Args.default with noDb := true, alternateScreen := true } (.err .environment) false false none
        (exBlank 9 4 0).reports (exUnasked "1+2" ++ [(.key .enter .none, ⟨0, 2, 9⟩)])).1)
        (exUnasked "5*5" ++ [(.key .enter .none, ⟨0, 3, 9⟩)] ++ exUnasked "6" ++ [(.key .enter .none, ⟨0, 3, 9⟩)]) e'
        [("5*5".toList, "25".toList), ("6".toList, "6".toList)]) ∧
    (exBlank 9 4 0).row + (transcript 9 [("1+2".toList, "3".toList)]).length < (exBlank 9 4 0).top + (exBlank 9 4 0).height :=
  ⟨exGoesOn_meets (by decide +kernel), by decide +kernel⟩

end Bcalc
