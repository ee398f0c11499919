import Verif.Spec.Terminal
import Verif.Props.Settings

/-! # The modes of the terminal -/

namespace Bcalc
open Spec

/-- The parts of a session performed under settings that agree on the screen to use, and without setting modes. -/
def Plain (alt : Bool) (a : Act) : Prop := ¬ SetsMode a.op ∧ a.args.alternateScreen = alt

theorem plain_acts {args : Args} {ops : List TermOp} (h : ∀ op ∈ ops, ¬ SetsMode op) :
    ∀ a ∈ acts args ops, Plain args.alternateScreen a := by
  intro a ha
  simp only [acts, List.mem_map] at ha
  obtain ⟨op, h1, rfl⟩ := ha
  exact ⟨h op h1, rfl⟩

theorem newLineOps_plain (b : Bool) : ∀ op ∈ newLineOps b, ¬ SetsMode op := by
  cases b <;> simp [newLineOps, SetsMode]

theorem rowOps_plain (b : Bool) : ∀ rows, ∀ op ∈ rowOps b rows, ¬ SetsMode op
  | [] => by simp [rowOps]
  | [(o, t)] => by simp [rowOps, SetsMode]
  | (o, t) :: r :: rest => by
    intro op h
    simp only [rowOps, List.mem_append, List.mem_cons, List.not_mem_nil, or_false] at h
    rcases h with ((rfl | rfl) | h) | h
    · simp [SetsMode]
    · simp [SetsMode]
    · exact newLineOps_plain b op h
    · exact rowOps_plain b _ op h

theorem drawOps_plain (e : Editor) (d : Drawing) : ∀ op ∈ drawOps e d, ¬ SetsMode op := by
  intro op h
  unfold drawOps at h
  split at h
  · unfold wrappedOps at h
    simp only [List.mem_append, List.mem_cons, List.not_mem_nil, or_false] at h
    rcases h with ((h | h) | h) | rfl
    · split at h
      · simp only [List.mem_cons, List.not_mem_nil, or_false] at h
        rcases h with rfl | rfl <;> simp [SetsMode]
      · simp only [List.mem_cons, List.not_mem_nil, or_false] at h
        rcases h with rfl | rfl <;> simp [SetsMode]
    · exact rowOps_plain _ _ op h
    · split at h
      · simp only [List.mem_cons, List.not_mem_nil, or_false] at h
        rw [h]; simp [SetsMode]
      · exact newLineOps_plain _ op h
    · simp [SetsMode]
  · unfold scrolledOps at h
    simp only [List.mem_append, List.mem_cons, List.not_mem_nil, or_false, List.mem_flatten, List.mem_map] at h
    rcases h with (((rfl | rfl) | ⟨l, ⟨r, _, rfl⟩, h⟩) | rfl) | h
    · simp [SetsMode]
    · simp [SetsMode]
    · simp only [List.mem_cons, List.not_mem_nil, or_false] at h
      rcases h with rfl | rfl <;> simp [SetsMode]
    · simp [SetsMode]
    · split at h
      · simp only [List.mem_cons, List.not_mem_nil, or_false] at h
        rw [h]; simp [SetsMode]
      · simp at h

theorem outputOps_plain (b : Bool) (t : Str) : ∀ op ∈ outputOps b t, ¬ SetsMode op := by
  intro op h
  simp only [outputOps, List.mem_append, List.mem_cons, List.not_mem_nil, or_false, List.mem_flatten, List.mem_map] at h
  rcases h with ⟨l, ⟨r, _, rfl⟩, h⟩ | rfl
  · simp only [List.mem_append, List.mem_cons, List.not_mem_nil, or_false] at h
    rcases h with rfl | h
    · simp [SetsMode]
    · exact newLineOps_plain _ op h
  · simp [SetsMode]

theorem calculate_alternate (m : Machine) (line : Str) (s : Session) :
    (calculate m table line s).2.args.alternateScreen = s.args.alternateScreen := by
  rcases calculate_args m line s with h | ⟨cmd, arguments, a', _, _, h3, _, h5⟩
  · rw [h]
  · rw [h5]
    cases h3 <;> rfl

theorem finishLine_alternate {m : Machine} {e e' : Editor} {out : Shown} (h : finishLine m table e = .ok (out, e')) :
    e'.args.alternateScreen = e.args.alternateScreen := by
  unfold finishLine at h
  obtain ⟨line, _, h⟩ := outcome_bind_ok h
  have hc := calculate_alternate m line e.session
  rcases calculate m table line e.session with ⟨r, s⟩
  simp only at h hc
  obtain ⟨o, _, h⟩ := outcome_bind_ok h
  simp only [Outcome.ok.injEq, Prod.mk.injEq] at h
  rw [← h.2]
  exact hc

theorem handleEvent_kept {e e1 : Editor} {ev : Event} {a : Action} (h : handleEvent e ev = .ok (a, e1)) :
    e1.args = e.args ∧ e1.startCol = e.startCol := by
  have hins : ∀ c, insertAtCursor e c = .ok (a, e1) → e1.args = e.args ∧ e1.startCol = e.startCol := by
    intro c hc
    unfold insertAtCursor at hc
    obtain ⟨l, _, hc⟩ := outcome_bind_ok hc
    cases hc
    exact ⟨rfl, rfl⟩
  cases ev with
  | key code mods =>
    cases code with
    | char c =>
      change handleChar e c mods = _ at h
      unfold handleChar at h
      split at h
      · cases h; exact ⟨rfl, rfl⟩
      · cases mods with
        | none => exact hins _ h
        | shift => exact hins _ h
        | other => cases h; exact ⟨rfl, rfl⟩
        | control =>
          simp only at h
          split at h
          · cases h; exact ⟨rfl, rfl⟩
          · split at h
            · obtain ⟨l, _, h⟩ := outcome_bind_ok h
              obtain ⟨r, _, h⟩ := outcome_bind_ok h
              cases r <;> cases h <;> exact ⟨rfl, rfl⟩
            · cases h; exact ⟨rfl, rfl⟩
    | backspace =>
      unfold handleEvent at h
      simp only at h
      split at h
      · cases h; exact ⟨rfl, rfl⟩
      · obtain ⟨l, _, h⟩ := outcome_bind_ok h
        cases h; exact ⟨rfl, rfl⟩
    | delete =>
      unfold handleEvent at h
      obtain ⟨l, _, h⟩ := outcome_bind_ok h
      split at h
      · cases h; exact ⟨rfl, rfl⟩
      · obtain ⟨l, _, h⟩ := outcome_bind_ok h
        cases h; exact ⟨rfl, rfl⟩
    | up =>
      unfold handleEvent at h
      simp only at h
      split at h
      · obtain ⟨l, _, h⟩ := outcome_bind_ok h
        cases h; exact ⟨rfl, rfl⟩
      all_goals cases h
      exact ⟨rfl, rfl⟩
    | down =>
      unfold handleEvent at h
      simp only at h
      split at h
      · obtain ⟨l, _, h⟩ := outcome_bind_ok h
        cases h; exact ⟨rfl, rfl⟩
      · cases h; exact ⟨rfl, rfl⟩
    | left =>
      unfold handleEvent at h
      simp only at h
      split at h <;> cases h <;> exact ⟨rfl, rfl⟩
    | right =>
      unfold handleEvent at h
      simp only at h
      split at h
      · cases h; exact ⟨rfl, rfl⟩
      · obtain ⟨l, _, h⟩ := outcome_bind_ok h
        cases h; exact ⟨rfl, rfl⟩
    | home => cases h; exact ⟨rfl, rfl⟩
    | «end» =>
      unfold handleEvent at h
      obtain ⟨l, _, h⟩ := outcome_bind_ok h
      cases h; exact ⟨rfl, rfl⟩
    | enter => cases h; exact ⟨rfl, rfl⟩
    | other => cases h; exact ⟨rfl, rfl⟩
  | paste => cases h
  | resize w => cases h; exact ⟨rfl, rfl⟩
  | other => cases h; exact ⟨rfl, rfl⟩

theorem handleEvent_args {e e1 : Editor} {ev : Event} {a : Action} (h : handleEvent e ev = .ok (a, e1)) :
    e1.args = e.args := (handleEvent_kept h).1

/-- A trace without modes set, under the same choice of the screen. -/
structure PlainTrace (alt : Bool) (as : List Act) (args : Args) : Prop where
  acts : ∀ a ∈ as, Plain alt a
  args : args.alternateScreen = alt

theorem newLineTrace_plain (m : Machine) (e : Editor) (t : TermInfo) :
    PlainTrace e.args.alternateScreen (newLineTrace m e t).1 (newLineTrace m e t).2.1 ∧
    ∀ b e', (newLineTrace m e t).2.2 = .ok (b, e') → e'.args.alternateScreen = e.args.alternateScreen := by
  have hq : ∀ op ∈ [TermOp.queryPosition, .querySize], ¬ SetsMode op := by simp [SetsMode]
  unfold newLineTrace
  cases hd : draw m (e.newLine t) with
  | ok r =>
    obtain ⟨d, e1⟩ := r
    refine ⟨⟨plain_acts ?_, rfl⟩, ?_⟩
    · intro op h
      rcases List.mem_append.1 h with h | h
      · exact hq op h
      · exact drawOps_plain _ _ op h
    · intro b e' h
      simp only [Outcome.ok.injEq, Prod.mk.injEq] at h
      rw [← h.2, draw_ok hd]
      rfl
  | err x => exact ⟨⟨plain_acts hq, rfl⟩, fun _ _ h => by cases h⟩
  | panic x => exact ⟨⟨plain_acts hq, rfl⟩, fun _ _ h => by cases h⟩
  | diverge => exact ⟨⟨plain_acts hq, rfl⟩, fun _ _ h => by cases h⟩

theorem stepTrace_plain (m : Machine) (errorText : RuntimeErr → Str) (e : Editor) (ev : Event) (t : TermInfo) :
    PlainTrace e.args.alternateScreen (stepTrace m table errorText e ev t).1 (stepTrace m table errorText e ev t).2.1 ∧
    ∀ b e', (stepTrace m table errorText e ev t).2.2 = .ok (b, e') →
      e'.args.alternateScreen = e.args.alternateScreen := by
  have hq : ∀ op ∈ [TermOp.readEvent], ¬ SetsMode op := by simp [SetsMode]
  unfold stepTrace
  cases hh : handleEvent e ev with
  | err x => exact ⟨⟨plain_acts hq, rfl⟩, fun _ _ h => by cases h⟩
  | panic x => exact ⟨⟨plain_acts hq, rfl⟩, fun _ _ h => by cases h⟩
  | diverge => exact ⟨⟨plain_acts hq, rfl⟩, fun _ _ h => by cases h⟩
  | ok r =>
    obtain ⟨a, e1⟩ := r
    have hargs := handleEvent_args hh
    cases a with
    | ignore =>
      refine ⟨⟨plain_acts hq, rfl⟩, fun b e' h => ?_⟩
      simp only [Outcome.ok.injEq, Prod.mk.injEq] at h
      rw [← h.2, hargs]
    | quit =>
      refine ⟨⟨plain_acts ?_, rfl⟩, fun b e' h => ?_⟩
      · intro op h
        rcases List.mem_append.1 h with h | h
        · exact hq op h
        · split at h
          · simp at h
          · simp only [List.mem_cons, List.not_mem_nil, or_false] at h
            rw [h]; simp [SetsMode]
      · simp only [Outcome.ok.injEq, Prod.mk.injEq] at h
        rw [← h.2, hargs]
    | redraw =>
      simp only
      cases hd : draw m e1 with
      | err x => exact ⟨⟨plain_acts hq, rfl⟩, fun _ _ h => by cases h⟩
      | panic x => exact ⟨⟨plain_acts hq, rfl⟩, fun _ _ h => by cases h⟩
      | diverge => exact ⟨⟨plain_acts hq, rfl⟩, fun _ _ h => by cases h⟩
      | ok r =>
        obtain ⟨d, e2⟩ := r
        have h2 : e2.args = e.args := by rw [draw_ok hd, ← hargs]
        have hb : ∀ a ∈ acts e.args ([.readEvent] ++ drawOps e2 d), Plain e.args.alternateScreen a := by
          refine plain_acts fun op h => ?_
          rcases List.mem_append.1 h with h | h
          · exact hq op h
          · exact drawOps_plain _ _ op h
        simp only
        split
        · cases hf : finishLine m table e2 with
          | err x => exact ⟨⟨hb, by rw [h2]⟩, fun _ _ h => by cases h⟩
          | panic x => exact ⟨⟨hb, by rw [h2]⟩, fun _ _ h => by cases h⟩
          | diverge => exact ⟨⟨hb, by rw [h2]⟩, fun _ _ h => by cases h⟩
          | ok r =>
            obtain ⟨out, e3⟩ := r
            have h3 : e3.args.alternateScreen = e.args.alternateScreen := by
              rw [finishLine_alternate hf, h2]
            obtain ⟨⟨h4, h5⟩, h6⟩ := newLineTrace_plain m e3 t
            simp only
            refine ⟨⟨?_, by rw [h5, h3]⟩, fun b e' h => by rw [h6 b e' h, h3]⟩
            intro a ha
            simp only [List.mem_append] at ha
            rcases ha with (ha | ha) | ha
            · exact hb a ha
            · have := plain_acts (outputOps_plain e3.args.alternateScreen (out.text errorText)) a ha
              rw [h3] at this
              exact this
            · have := h4 a ha
              rw [h3] at this
              exact this
        · refine ⟨⟨hb, by rw [h2]⟩, fun b e' h => ?_⟩
          simp only [Outcome.ok.injEq, Prod.mk.injEq] at h
          rw [← h.2, h2]

theorem eventsTrace_plain (m : Machine) (errorText : RuntimeErr → Str) : ∀ (evs : List (Event × TermInfo)) (e : Editor),
    PlainTrace e.args.alternateScreen (eventsTrace m table errorText e evs).1 (eventsTrace m table errorText e evs).2.1
  | [], e => ⟨by simp [eventsTrace], rfl⟩
  | (ev, t) :: rest, e => by
    obtain ⟨⟨h1, h2⟩, h3⟩ := stepTrace_plain m errorText e ev t
    unfold eventsTrace
    generalize stepTrace m table errorText e ev t = x at h1 h2 h3 ⊢
    obtain ⟨as, args, r⟩ := x
    simp only at h1 h2 h3
    cases r with
    | ok p =>
      obtain ⟨b, e'⟩ := p
      cases b with
      | true => exact ⟨h1, h2⟩
      | false =>
        have ih := eventsTrace_plain m errorText rest e'
        simp only
        generalize eventsTrace m table errorText e' rest = x at ih ⊢
        obtain ⟨as', args', r'⟩ := x
        obtain ⟨h4, h5⟩ := ih
        rw [h3 _ _ rfl] at h4 h5
        refine ⟨fun a ha => ?_, h5⟩
        rcases List.mem_append.1 ha with ha | ha
        · exact h1 a ha
        · exact h4 a ha
    | err x => exact ⟨h1, h2⟩
    | panic x => exact ⟨h1, h2⟩
    | diverge => exact ⟨h1, h2⟩

theorem interactiveTrace_plain (m : Machine) (errorText : RuntimeErr → Str) (args : Args)
    (opened : Outcome DbError (Option SavedData)) (t : TermInfo) (evs : List (Event × TermInfo)) :
    PlainTrace args.alternateScreen (interactiveTrace m table errorText args opened t evs).1
      (interactiveTrace m table errorText args opened t evs).2.1 := by
  have hq : ∀ op ∈ [TermOp.queryPosition, .querySize], ¬ SetsMode op := by simp [SetsMode]
  unfold interactiveTrace
  rcases (if args.noDb then .ok none else opened : Outcome DbError (Option SavedData)) with db | x | x | _
  · simp only
    cases hs : Editor.start m args db t with
    | err x => exact ⟨plain_acts hq, rfl⟩
    | panic x => exact ⟨plain_acts hq, rfl⟩
    | diverge => exact ⟨plain_acts hq, rfl⟩
    | ok r =>
      obtain ⟨d, e⟩ := r
      have ha : e.args = args := by
        unfold Editor.start at hs
        rw [draw_ok hs]
      have h := eventsTrace_plain m errorText evs e
      simp only
      generalize eventsTrace m table errorText e evs = x at h ⊢
      obtain ⟨as, args', r⟩ := x
      obtain ⟨h4, h5⟩ := h
      rw [ha] at h4 h5
      refine ⟨fun a ha => ?_, h5⟩
      rcases List.mem_append.1 ha with ha | ha
      · refine plain_acts (fun op h => ?_) a ha
        rcases List.mem_append.1 h with h | h
        · exact hq op h
        · exact drawOps_plain _ _ op h
      · exact h4 a ha
  all_goals exact ⟨by simp, rfl⟩

theorem withFault_plain {alt : Bool} {fault : Option Nat} {x : List Act × Args × Ending} (h : PlainTrace alt x.1 x.2.1) :
    PlainTrace alt (withFault fault x).1 (withFault fault x).2.1 := by
  obtain ⟨as, args, r⟩ := x
  unfold withFault
  cases fault with
  | none => exact h
  | some n =>
    simp only
    cases hn : as[n]? with
    | none => exact h
    | some a => exact ⟨fun b hb => h.acts b (List.mem_of_mem_take hb), (h.acts a (List.mem_of_getElem? hn)).2⟩

theorem foldl_plain {ops : List TermOp} (h : ∀ op ∈ ops, ¬ SetsMode op) (s : Modes) : ops.foldl Modes.after s = s := by
  induction ops generalizing s with
  | nil => rfl
  | cons op ops ih =>
    rw [List.foldl_cons]
    have h1 : Modes.after s op = s := by
      have := h op (by simp)
      cases op <;> simp [SetsMode] at this <;> rfl
    rw [h1]
    exact ih (fun o ho => h o (List.mem_cons_of_mem _ ho)) s

/-! ## The trace and the session -/

/-- What a trace tells of the outcome of a step. -/
def stepResult : Outcome RuntimeErr (StepOut × Editor) → Outcome RuntimeErr (Bool × Editor)
  | .ok (out, e) => .ok (out.quit, e)
  | .err x => .err x
  | .panic k => .panic k
  | .diverge => .diverge

theorem stepTrace_result (m : Machine) (ce : CommandExecutor) (errorText : RuntimeErr → Str) (e : Editor) (ev : Event)
    (t : TermInfo) : (stepTrace m ce errorText e ev t).2.2 = stepResult (step m ce e ev t) := by
  unfold stepTrace step
  cases handleEvent e ev with
  | err x => rfl
  | panic x => rfl
  | diverge => rfl
  | ok r =>
    obtain ⟨a, e1⟩ := r
    cases a with
    | ignore => rfl
    | quit => rfl
    | redraw =>
      simp only [bind, Outcome.bind]
      cases draw m e1 with
      | err x => rfl
      | panic x => rfl
      | diverge => rfl
      | ok r =>
        obtain ⟨d, e2⟩ := r
        simp only
        split
        · cases finishLine m ce e2 with
          | err x => rfl
          | panic x => rfl
          | diverge => rfl
          | ok r =>
            obtain ⟨out, e3⟩ := r
            simp only [newLineTrace]
            cases draw m (e3.newLine t) with
            | err x => rfl
            | panic x => rfl
            | diverge => rfl
            | ok r => rfl
        · rfl

theorem eventsTrace_ending (m : Machine) (ce : CommandExecutor) (errorText : RuntimeErr → Str) :
    ∀ (evs : List (Event × TermInfo)) (e : Editor),
      (eventsTrace m ce errorText e evs).2.2 = endingOf (runEvents m ce e evs)
  | [], e => by simp [eventsTrace, runEvents, endingOf]
  | (ev, t) :: rest, e => by
    have h := stepTrace_result m ce errorText e ev t
    unfold eventsTrace runEvents
    generalize stepTrace m ce errorText e ev t = x at h ⊢
    obtain ⟨as, args, r⟩ := x
    simp only at h
    subst h
    cases hs : step m ce e ev t with
    | err x => rfl
    | panic x => rfl
    | diverge => rfl
    | ok r =>
      obtain ⟨out, e'⟩ := r
      simp only [bind, Outcome.bind]
      cases hq : out.quit with
      | true => simp [stepResult, Ending.of, endingOf, hq]
      | false =>
        simp only [stepResult, hq, Bool.false_eq_true, if_false]
        have ih := eventsTrace_ending m ce errorText rest e'
        generalize eventsTrace m ce errorText e' rest = x at ih ⊢
        obtain ⟨as', args', r'⟩ := x
        simp only at ih ⊢
        rw [ih]
        cases runEvents m ce e' rest with
        | err x => rfl
        | panic x => rfl
        | diverge => rfl
        | ok r => simp [endingOf, hq]

end Bcalc
