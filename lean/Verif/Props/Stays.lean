import Verif.Props.Kept

/-!
# Nothing disappears from the normal screen: C115
-/

namespace Bcalc
open Spec

/-- Operations that leave the row of the cursor only by line feeds. -/
def InPlace (ops : List TermOp) : Prop := ∀ op ∈ ops, (∀ col row, op ≠ .moveTo col row) ∧ ∀ n, op ≠ .moveToNextLine n

theorem InPlace.append {a b : List TermOp} (h : InPlace a) (h' : InPlace b) : InPlace (a ++ b) := by
  intro op ho
  rcases List.mem_append.1 ho with h1 | h1
  · exact h op h1
  · exact h' op h1

theorem InPlace.downward {ops : List TermOp} (h : InPlace ops) : Downward ops := fun op ho => (h op ho).1

theorem inPlace_newLine : InPlace (newLineOps false) := by simp [InPlace, newLineOps]

theorem inPlace_rows : ∀ rows, InPlace (rowOps false rows)
  | [] => by simp [InPlace, rowOps]
  | [(opener, text)] => by simp [InPlace, rowOps]
  | (opener, text) :: r :: rest => by
    unfold rowOps
    exact .append (.append (by simp [InPlace]) inPlace_newLine) (inPlace_rows (r :: rest))

theorem inPlace_output (text : Str) : InPlace (outputOps false text) := by
  unfold outputOps
  refine .append ?_ (by simp [InPlace])
  intro op ho
  simp only [List.mem_flatten, List.mem_map] at ho
  obtain ⟨l, ⟨line, _, rfl⟩, ho⟩ := ho
  rcases List.mem_append.1 ho with h | h
  · simp only [List.mem_singleton] at h
    subst h
    simp
  · exact inPlace_newLine op h

theorem inPlace_draw {m : Machine} {e1 e2 : Editor} {d : Drawing} (hd : draw m e1 = .ok (d, e2))
    (ha : e1.args.alternateScreen = false) : InPlace (drawOps e2 d) := by
  unfold draw at hd
  obtain ⟨line, _, hd⟩ := outcome_bind_ok hd
  cases hc : e1.inputComplete with
  | true =>
    rw [hc, Bool.or_true, if_pos rfl] at hd
    obtain ⟨d', h1, hd⟩ := outcome_bind_ok hd
    cases hd
    unfold drawOps wrappedOps
    rw [hc, Bool.or_true, if_pos rfl, ha, complete_cursor h1 hc]
    exact .append (.append (.append (by simp [InPlace]) (inPlace_rows _)) (inPlace_newLine)) (by simp [InPlace])
  | false =>
    rw [hc, ha, Bool.or_false, if_neg (by decide)] at hd
    obtain ⟨⟨d', off⟩, _, hd⟩ := outcome_bind_ok hd
    cases hd
    unfold drawOps scrolledOps
    simp only [ha, Bool.or_false, Bool.false_eq_true, if_false]
    refine .append (.append (.append (by simp [InPlace]) ?_) (by simp [InPlace])) ?_
    · intro op ho
      simp only [List.mem_flatten, List.mem_map] at ho
      obtain ⟨l, ⟨r, _, rfl⟩, ho⟩ := ho
      simp only [List.mem_cons, List.not_mem_nil, or_false] at ho
      rcases ho with rfl | rfl <;> simp
    · cases d.cursor with
      | none => simp [InPlace]
      | some p => simp [InPlace]

theorem inPlace_newLineTrace {m : Machine} {e : Editor} (t : TermInfo) (ha : e.args.alternateScreen = false) :
    InPlace ((newLineTrace m e t).1.map (·.op)) := by
  unfold newLineTrace
  cases hd : draw m (e.newLine t) with
  | ok r =>
    obtain ⟨d, e1⟩ := r
    simp only [acts_ops]
    exact .append (by simp [InPlace]) (inPlace_draw hd ha)
  | err x => simp [acts, InPlace]
  | panic x => simp [acts, InPlace]
  | diverge => simp [acts, InPlace]

theorem inPlace_step (m : Machine) (errorText : RuntimeErr → Str) {e : Editor} (ev : Event) (t : TermInfo)
    (ha : e.args.alternateScreen = false) : InPlace ((stepTrace m table errorText e ev t).1.map (·.op)) := by
  have hr : InPlace [TermOp.readEvent] := by simp [InPlace]
  unfold stepTrace
  cases hh : handleEvent e ev with
  | err x => exact hr
  | panic x => exact hr
  | diverge => exact hr
  | ok r =>
    obtain ⟨a, e1⟩ := r
    have hargs := handleEvent_args hh
    cases a with
    | ignore => exact hr
    | quit =>
      simp only [acts_ops]
      rw [if_neg (by rw [ha]; decide)]
      simp [InPlace]
    | redraw =>
      simp only
      cases hd : draw m e1 with
      | err x => exact hr
      | panic x => exact hr
      | diverge => exact hr
      | ok r =>
        obtain ⟨d, e2⟩ := r
        have h2 : e2.args = e.args := by rw [draw_ok hd, ← hargs]
        have hb := hr.append (inPlace_draw hd (by rw [hargs]; exact ha))
        simp only
        split
        · cases hf : finishLine m table e2 with
          | err x => simp only [acts_ops]; exact hb
          | panic x => simp only [acts_ops]; exact hb
          | diverge => simp only [acts_ops]; exact hb
          | ok r =>
            obtain ⟨out, e3⟩ := r
            have h3 : e3.args.alternateScreen = false := by rw [finishLine_alternate hf, h2, ha]
            simp only [List.map_append, acts_ops]
            exact .append (.append hb (by rw [h3]; exact inPlace_output _)) (inPlace_newLineTrace t h3)
        · simp only [acts_ops]; exact hb

theorem inPlace_events (m : Machine) (errorText : RuntimeErr → Str) : ∀ (evs : List (Event × TermInfo)) (e : Editor)
    (_ : e.args.alternateScreen = false), InPlace ((eventsTrace m table errorText e evs).1.map (·.op))
  | [], e, _ => by simp [eventsTrace, InPlace]
  | (ev, t) :: rest, e, ha => by
    have h1 := inPlace_step m errorText ev t ha
    have h2 := (stepTrace_plain m errorText e ev t).2
    unfold eventsTrace
    generalize stepTrace m table errorText e ev t = x at h1 h2 ⊢
    obtain ⟨as, args, r⟩ := x
    simp only at h1 h2
    cases r with
    | ok p =>
      obtain ⟨b, e'⟩ := p
      cases b with
      | true => exact h1
      | false =>
        have ih := inPlace_events m errorText rest e' (by rw [h2 _ _ rfl, ha])
        simp only [List.map_append]
        exact h1.append ih
    | err x => exact h1
    | panic x => exact h1
    | diverge => exact h1

theorem inPlace_interactive (m : Machine) (errorText : RuntimeErr → Str) {args : Args}
    (opened : Outcome DbError (Option SavedData)) (t : TermInfo) (evs : List (Event × TermInfo))
    (ha : args.alternateScreen = false) :
    InPlace ((interactiveTrace m table errorText args opened t evs).1.map (·.op)) := by
  unfold interactiveTrace
  rcases (if args.noDb then .ok none else opened : Outcome DbError (Option SavedData)) with db | x | x | _
  · simp only
    cases hs : Editor.start m args db t with
    | err x => simp [acts, InPlace]
    | panic x => simp [acts, InPlace]
    | diverge => simp [acts, InPlace]
    | ok r =>
      obtain ⟨d, e⟩ := r
      have h : e.args = args := by
        unfold Editor.start at hs
        rw [draw_ok hs]
      have hd : InPlace (drawOps e d) := by
        unfold Editor.start at hs
        exact inPlace_draw hs ha
      simp only [List.map_append, acts_ops]
      exact .append (.append (by simp [InPlace]) hd) (inPlace_events m errorText evs e (by rw [h]; exact ha))
  all_goals simp [InPlace]

theorem inPlace_main (m : Machine) (errorText : RuntimeErr → Str) {args : Args}
    (opened : Outcome DbError (Option SavedData)) (rawFails enterFails : Bool) (fault : Option Nat) (t : TermInfo)
    (evs : List (Event × TermInfo)) (ha : args.alternateScreen = false) :
    InPlace (mainInteractive m table errorText args opened rawFails enterFails fault t evs).1 := by
  have h1 := inPlace_interactive m errorText opened t evs ha
  have h2 := (interactiveTrace_plain m errorText args opened t evs)
  have h3 := (withFault_plain (fault := fault) h2).args
  have h4 : InPlace ((withFault fault (interactiveTrace m table errorText args opened t evs)).1.map (·.op)) := by
    generalize interactiveTrace m table errorText args opened t evs = x at h1 ⊢
    obtain ⟨as, args', r⟩ := x
    unfold withFault
    cases fault with
    | none => exact h1
    | some n =>
      simp only
      cases as[n]? with
      | none => exact h1
      | some a =>
        intro op ho
        simp only [List.mem_map] at ho
        obtain ⟨b, hb, rfl⟩ := ho
        exact h1 _ (List.mem_map.2 ⟨b, List.mem_of_mem_take hb, rfl⟩)
  unfold mainInteractive
  cases rawFails with
  | true => simp [InPlace]
  | false =>
    simp only [ha, Bool.false_and, Bool.false_eq_true, if_false, List.append_nil]
    generalize withFault fault (interactiveTrace m table errorText args opened t evs) = x at h3 h4 ⊢
    obtain ⟨as, args', r⟩ := x
    simp only at h3 h4
    have hset : InPlace ([TermOp.enableRaw] ++ as.map (·.op)) := .append (by simp [InPlace]) h4
    rw [ha] at h3
    cases r <;> simp only [h3, Bool.false_eq_true, if_false, List.append_nil] <;>
      first
      | exact hset
      | exact hset.append (by simp [InPlace])

/-- On the normal screen: wherever the program is in its work, nothing that is above the row of the cursor is ever written on
again by it, whatever it does from then on, and however it ends. -/
theorem C115_above (m : Machine) (ce : CommandExecutor) (hce : CommandExecutor.new = .ok ce)
    (errorText : RuntimeErr → Str) (args : Args) (opened : Outcome DbError (Option SavedData))
    (rawFails enterFails : Bool) (fault : Option Nat) (t : TermInfo) (events : List (Event × TermInfo)) (s : Screen)
    (ha : args.alternateScreen = false) (hok : s.Ok) (before after : List TermOp)
    (h : (mainInteractive m ce errorText args opened rawFails enterFails fault t events).1 = before ++ after) :
    (s.run before).SameAbove (s.run (before ++ after)) (s.run before).row ∧
      (s.run before).top ≤ (s.run (before ++ after)).top ∧ (s.run before).row ≤ (s.run (before ++ after)).row := by
  rw [new_eq_table hce] at h
  have hd := (inPlace_main m errorText opened rawFails enterFails fault t events ha).downward
  rw [h] at hd
  have h1 : Downward before := fun op ho => hd op (List.mem_append_left _ ho)
  have h2 : Downward after := fun op ho => hd op (List.mem_append_right _ ho)
  obtain ⟨k1, _⟩ := ops_kept h1 hok (Nat.zero_le s.row)
  obtain ⟨k2, k3⟩ := ops_kept h2 k1.ok (Nat.le_refl _)
  rw [run_append]
  exact ⟨k2.above, k2.top, k3⟩

/-- No more has scrolled than necessary. -/
def Filled (t0 : Nat) (s : Screen) : Prop := s.Ok ∧ s.top = max t0 (s.row + 1 - s.height)

theorem lineFeed_filled {t0 : Nat} {s : Screen} (h : Filled t0 s) : Filled t0 s.lineFeed := by
  obtain ⟨h1, h2⟩ := h
  refine ⟨lineFeed_ok h1, ?_⟩
  have := h1.above
  have := h1.below
  unfold Screen.lineFeed
  split
  · simp only; omega
  · simp only; omega

theorem put_filled {t0 : Nat} {s : Screen} (h : Filled t0 s) (c : Char) : Filled t0 (s.put c) := by
  have hk := (put_kept h.1 (Nat.zero_le s.row) c).1.ok
  have hl := lineFeed_filled h
  refine ⟨hk, ?_⟩
  unfold Screen.put
  split
  · exact hl.2
  · split
    · exact h.2
    · exact hl.2

theorem puts_filled {t0 : Nat} : ∀ (text : Str) {s : Screen} (_ : Filled t0 s), Filled t0 (text.foldl Screen.put s)
  | [], _, h => h
  | c :: text, _, h => puts_filled text (put_filled h c)

theorem ops_filled {t0 : Nat} : ∀ {ops : List TermOp} (_ : InPlace ops) {s : Screen} (_ : Filled t0 s), Filled t0 (s.run ops)
  | [], _, _, h => h
  | op :: ops, hd, s, h => by
    have ho := hd op (List.mem_cons_self ..)
    have hk := (op_kept h.1 (Nat.zero_le s.row) op ho.1).1.ok
    refine ops_filled (fun o h' => hd o (List.mem_cons_of_mem _ h')) (s := s.after op) ?_
    cases op with
    | moveTo col row => exact absurd rfl (ho.1 col row)
    | moveToNextLine n => exact absurd rfl (ho.2 n)
    | print text => exact puts_filled text h
    | _ => exact ⟨hk, h.2⟩

/-- The normal screen scrolls only as far as is needed to have the row of the cursor in view, whatever the program does. -/
theorem C115_scroll (m : Machine) (ce : CommandExecutor) (hce : CommandExecutor.new = .ok ce)
    (errorText : RuntimeErr → Str) (args : Args) (opened : Outcome DbError (Option SavedData))
    (rawFails enterFails : Bool) (fault : Option Nat) (t : TermInfo) (events : List (Event × TermInfo)) (s0 : Screen)
    (ha : args.alternateScreen = false) (hok : s0.Ok) :
    let s := s0.run (mainInteractive m ce errorText args opened rawFails enterFails fault t events).1
    s.top = max s0.top (s.row + 1 - s0.height) ∧ s.height = s0.height := by
  rw [new_eq_table hce]
  have hd := inPlace_main m errorText opened rawFails enterFails fault t events ha
  have h1 := ops_filled hd (t0 := s0.top) (s := s0) ⟨hok, by have := hok.above; have := hok.below; omega⟩
  have h2 := (ops_kept hd.downward hok (Nat.zero_le s0.row)).1.height
  intro s
  exact ⟨by rw [← h2]; exact h1.2, h2⟩

/-- What the program has done when it has handled the events is the beginning of all it does when more come, unless an operation
on the terminal has failed before. -/
theorem main_prefix {m : Machine} {ce : CommandExecutor} {errorText : RuntimeErr → Str} {args : Args}
    {opened : Outcome DbError (Option SavedData)} {s0 : Screen} {events : List (Event × TermInfo)} {e : Editor}
    {log : List (Str × Str)} (h : ProgramWatched m ce errorText args opened s0 events e log)
    (ha : args.alternateScreen = false) (more : List (Event × TermInfo)) (fault : Option Nat)
    (hf : ∀ n, fault = some n →
      (mainInteractive m ce errorText args opened false false none s0.reports events).1.length ≤ n + 1) :
    ∃ after, (mainInteractive m ce errorText args opened false false fault s0.reports (events ++ more)).1 =
      (mainInteractive m ce errorText args opened false false none s0.reports events).1 ++ after := by
  obtain ⟨as, _, ht⟩ := program_trace h
  have h0 : (mainInteractive m ce errorText args opened false false none s0.reports events).1 =
      [TermOp.enableRaw] ++ as.map (·.op) := by
    have ht := ht []
    rw [List.append_nil] at ht
    unfold mainInteractive
    rw [ht]
    simp only [withFault, eventsTrace, Bool.false_eq_true, if_false, Bool.and_false, List.append_nil, ha]
  rw [h0] at hf ⊢
  have hx : ∃ rest args' r, withFault fault (interactiveTrace m ce errorText args opened s0.reports (events ++ more)) =
      (as ++ rest, args', r) := by
    rw [ht more]
    unfold withFault
    cases fault with
    | none => exact ⟨_, _, _, rfl⟩
    | some n =>
      have := hf n rfl
      simp only [List.length_append, List.length_map, List.length_cons, List.length_nil] at this
      simp only
      split
      · rw [List.take_append, List.take_of_length_le (by omega)]
        exact ⟨_, _, _, rfl⟩
      · exact ⟨_, _, _, rfl⟩
  obtain ⟨rest, args', r, hx⟩ := hx
  unfold mainInteractive
  simp only [hx, ha, Bool.false_and, Bool.false_eq_true, if_false, List.append_nil, List.map_append, List.append_assoc,
    List.cons_append, List.nil_append]
  cases r <;> exact ⟨_, rfl⟩

/-- So all the inputs and outputs stay on the normal screen, in full and in order, whatever happens after: more is typed and
entered, an operation on the terminal fails, a calculation panics, or the program is killed at any moment. -/
theorem C115_answers (m : Machine) (ce : CommandExecutor) (hce : CommandExecutor.new = .ok ce)
    (errorText : RuntimeErr → Str) (args : Args) (opened : Outcome DbError (Option SavedData)) (s0 : Screen)
    (events more : List (Event × TermInfo)) (e : Editor) (log : List (Str × Str)) (line : Str)
    (h : ProgramWatched m ce errorText args opened s0 events e log) (hs : Shows e line)
    (ha : args.alternateScreen = false) (hok : s0.Ok)
    (h6 : 6 ≤ s0.width) (h16 : s0.width < 65536) (hb : s0.BlankFrom (s0.row + 1)) (fault : Option Nat) :
    let done := (mainInteractive m ce errorText args opened false false none s0.reports events).1
    let ops := (mainInteractive m ce errorText args opened false false fault s0.reports (events ++ more)).1
    (∀ n, fault = some n → done.length ≤ n + 1) →
    ∀ killed, done.length ≤ killed →
      let s := s0.run (ops.take killed)
      s0.SameAbove s s0.row ∧ s.RowsAre s0.row (transcript s0.width log) := by
  intro done ops hf killed hk s
  obtain ⟨_, b1, b2, b3, _⟩ := C83_program m ce hce errorText args opened s0 events e log line h hs ha hok h6 h16 hb
  obtain ⟨after, hops⟩ := main_prefix h ha more fault hf
  have hops : ops = done ++ after := hops
  have hd := (inPlace_main m errorText opened false false fault s0.reports (events ++ more) ha).downward
  rw [← new_eq_table hce] at hd
  have hd : Downward ops := hd
  have hcut : ops.take killed = done ++ after.take (killed - done.length) := by
    rw [hops, List.take_append, List.take_of_length_le hk]
  rw [hops] at hd
  have h1 : Downward done := fun op ho => hd op (List.mem_append_left _ ho)
  have h2 : Downward (after.take (killed - done.length)) :=
    fun op ho => hd op (List.mem_append_right _ (List.mem_of_mem_take ho))
  have k1 := (ops_kept h1 hok (Nat.zero_le s0.row)).1
  obtain ⟨k2, _⟩ := ops_kept h2 k1.ok (Nat.le_refl _)
  have hS : s = (s0.run done).run (after.take (killed - done.length)) := by
    show s0.run (ops.take killed) = _
    rw [hcut, run_append]
  rw [← hS] at k2
  refine ⟨fun r c hr => ?_, RowsAre.keep b2 k2.width k2.above (by rw [b3])⟩
  rw [k2.above r c (by rw [b3]; omega)]
  exact b1 r c hr

/-! ## Examples -/

/-- The hypotheses of C115_answers are met: 1+2 is entered and answered, then the sixth operation after that fails. -/
example : (∃ e, ProgramWatched (exMachine true) table (fun _ => []) { Args.default with noDb := true, alternateScreen := false }
      (.err .environment) (exBlank 9 4 0) (exUnasked "1+2" ++ [(.key .enter .none, ⟨0, 2, 9⟩)]) e
      [("1+2".toList, "3".toList)] ∧ Shows e []) ∧
    (let done := (mainInteractive (exMachine true) table (fun _ => [])
      { Args.default with noDb := true, alternateScreen := false } (.err .environment) false false none (exBlank 9 4 0).reports
      (exUnasked "1+2" ++ [(.key .enter .none, ⟨0, 2, 9⟩)])).1
    let run := mainInteractive (exMachine true) table (fun _ => [])
      { Args.default with noDb := true, alternateScreen := false } (.err .environment) false false (some (done.length + 4))
      (exBlank 9 4 0).reports (exUnasked "1+2" ++ [(.key .enter .none, ⟨0, 2, 9⟩)] ++ exUnasked "5")
    run.2 = .failed ∧ run.1.length = done.length + 6) :=
  ⟨exProgram_meets (by decide +kernel), by decide +kernel⟩

end Bcalc
