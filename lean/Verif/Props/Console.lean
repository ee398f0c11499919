import Verif.Props.Program
import Verif.Spec.Console

/-!
# The two screens of the terminal: C112
-/

namespace Bcalc
open Spec

theorem console_append (c : Console) (a b : List TermOp) : c.run (a ++ b) = (c.run a).run b := List.foldl_append

theorem console_alternate {ops : List TermOp} (h : ∀ op ∈ ops, ¬ SetsMode op) (s a : Screen) :
    (⟨s, some a⟩ : Console).run ops = ⟨s, some (a.run ops)⟩ := by
  induction ops generalizing a with
  | nil => rfl
  | cons op ops ih =>
    have h1 : (⟨s, some a⟩ : Console).after op = ⟨s, some (a.after op)⟩ := by
      cases op <;> first | rfl | exact absurd trivial (h _ (List.mem_cons_self ..))
    show Console.run (Console.after _ _) _ = _
    rw [h1, ih (fun o ho => h o (List.mem_cons_of_mem _ ho))]
    rfl

theorem console_normal {ops : List TermOp} (h : ∀ op ∈ ops, op ≠ .enterAlternate) (s : Screen) :
    (⟨s, none⟩ : Console).run ops = ⟨s.run ops, none⟩ := by
  induction ops generalizing s with
  | nil => rfl
  | cons op ops ih =>
    have h1 : (⟨s, none⟩ : Console).after op = ⟨s.after op, none⟩ := by
      cases op <;> first | rfl | exact absurd rfl (h _ (List.mem_cons_self ..))
    show Console.run (Console.after _ _) _ = _
    rw [h1, ih (fun o ho => h o (List.mem_cons_of_mem _ ho))]
    rfl

theorem screen_sets {ops : List TermOp} (h : ∀ op ∈ ops, SetsMode op) (s : Screen) : s.run ops = s := by
  induction ops generalizing s with
  | nil => rfl
  | cons op ops ih =>
    have h1 : s.after op = s := by
      cases op <;> first | rfl | exact absurd (h _ (List.mem_cons_self ..)) id
    show Screen.run (Screen.after _ _) _ = _
    rw [h1, ih (fun o ho => h o (List.mem_cons_of_mem _ ho))]

/-- With the option for the alternate screen the program, whatever is typed, whatever the terminal answers and wherever
something fails, never writes on the normal screen and does not scroll it or move its cursor.  When the program ends, because
the user quit or because something failed, the normal screen is shown again, exactly as it was. -/
theorem C112_untouched (m : Machine) (ce : CommandExecutor) (hce : CommandExecutor.new = .ok ce)
    (errorText : RuntimeErr → Str) (args : Args) (ha : args.alternateScreen = true)
    (opened : Outcome DbError (Option SavedData)) (rawFails enterFails : Bool) (fault : Option Nat) (t : TermInfo)
    (events : List (Event × TermInfo)) (s : Screen) (ops : List TermOp) (ending : Ending)
    (h : mainInteractive m ce errorText args opened rawFails enterFails fault t events = (ops, ending)) :
    (∀ before after, ops = before ++ after → ((⟨s, none⟩ : Console).run before).normal = s) ∧
    (ending = .done ∨ ending = .failed → (⟨s, none⟩ : Console).run ops = ⟨s, none⟩) := by
  obtain ⟨mid, hm, hf⟩ := main_form m ce hce errorText args opened rawFails enterFails fault t events
  rw [h] at hf
  simp only [Prod.mk.injEq, ha, if_true] at hf
  have hup : (⟨s, none⟩ : Console).run ([TermOp.enableRaw] ++ [TermOp.enterAlternate]) = ⟨s, some s.fresh⟩ := rfl
  have hdown : ∀ a, (⟨s, some a⟩ : Console).run ([TermOp.leaveAlternate] ++ [TermOp.disableRaw]) = ⟨s, none⟩ :=
    fun a => rfl
  have hall : (⟨s, none⟩ : Console).run ops = ⟨s, none⟩ ∨
      ((∃ a, (⟨s, none⟩ : Console).run ops = ⟨s, some a⟩) ∧ ending ≠ .done ∧ ending ≠ .failed) := by
    rcases hf with ⟨rfl, _⟩ | ⟨rfl, _⟩ | ⟨rfl, _⟩ | ⟨rfl, h1⟩
    · exact .inl rfl
    · exact .inl rfl
    · left
      rw [List.append_assoc, console_append, hup, console_append, console_alternate hm, hdown]
    · right
      refine ⟨⟨s.fresh.run mid, ?_⟩, h1⟩
      rw [console_append, hup, console_alternate hm]
  -- an operation on the terminal writes on the normal screen only if no alternate screen is shown
  have hstep : ∀ (c : Console) (op : TermOp), c.normal = s → (c.alternate = none → SetsMode op) → (c.after op).normal = s := by
    intro c op h1 h2
    obtain ⟨n, a⟩ := c
    subst h1
    cases a with
    | some a => cases op <;> rfl
    | none =>
      have h2 := h2 rfl
      cases op <;> first | rfl | exact absurd h2 id
  refine ⟨?_, fun he => ?_⟩
  · intro before
    induction before using List.reverseRecOn with
    | nil => intro _ _; rfl
    | append_singleton before op ih =>
      intro after hop
      rw [List.append_assoc] at hop
      rw [console_append]
      refine hstep _ op (ih _ hop) fun hn => ?_
      by_contra hs
      have hmode := C81_throughout m ce hce errorText args opened rawFails enterFails fault t events ops ending h before
        after op hop hs
      have key : ∀ (ops : List TermOp) (c : Console) (md : Modes), (c.alternate.isSome ↔ md.alternate = true) →
          ((c.run ops).alternate.isSome ↔ (ops.foldl Modes.after md).alternate = true) := by
        intro ops
        induction ops with
        | nil => intro c md h; exact h
        | cons o ops ih =>
          intro c md h
          refine ih (c.after o) (md.after o) ?_
          obtain ⟨n, a⟩ := c
          cases o <;> cases a <;> first | (simp [Console.after, Modes.after]; done) | simpa [Console.after, Modes.after] using h
      have := (key before ⟨s, none⟩ Modes.normal (by simp [Modes.normal])).2 (by
        show (modesAfter before).alternate = true
        rw [hmode]; exact ha)
      rw [hn] at this
      cases this
  · rcases hall with h1 | ⟨_, h1, h2⟩
    · exact h1
    · rcases he with rfl | rfl
      · exact absurd rfl h1
      · exact absurd rfl h2

/-- Without the option no alternate screen is ever shown: all is written on the normal screen, and remains there. -/
theorem C112_normal (m : Machine) (ce : CommandExecutor) (hce : CommandExecutor.new = .ok ce)
    (errorText : RuntimeErr → Str) (args : Args) (ha : args.alternateScreen = false)
    (opened : Outcome DbError (Option SavedData)) (rawFails enterFails : Bool) (fault : Option Nat) (t : TermInfo)
    (events : List (Event × TermInfo)) (s : Screen) (ops : List TermOp) (ending : Ending)
    (h : mainInteractive m ce errorText args opened rawFails enterFails fault t events = (ops, ending)) :
    (⟨s, none⟩ : Console).run ops = ⟨s.run ops, none⟩ := by
  refine console_normal ?_ s
  obtain ⟨mid, hm, hf⟩ := main_form m ce hce errorText args opened rawFails enterFails fault t events
  rw [h] at hf
  simp only [Prod.mk.injEq, ha, Bool.false_eq_true, if_false, List.append_nil, List.nil_append] at hf
  have hmid : ∀ o ∈ mid, o ≠ .enterAlternate := fun o ho hc => hm o ho (hc ▸ trivial)
  rcases hf with ⟨rfl, _⟩ | ⟨rfl, _⟩ | ⟨rfl, _⟩ | ⟨rfl, _⟩
  · simp
  · simp
  · intro o ho
    simp only [List.mem_append, List.mem_singleton] at ho
    rcases ho with (rfl | ho) | rfl
    · simp
    · exact hmid o ho
    · simp
  · intro o ho
    simp only [List.mem_append, List.mem_singleton] at ho
    rcases ho with rfl | ho
    · simp
    · exact hmid o ho

theorem fresh_ok {s : Screen} (h : s.Ok) : s.fresh.Ok := by
  obtain ⟨h1, h2, h3, h4⟩ := h
  exact ⟨h1, Nat.zero_le _, by show s.row - s.top < 0 + s.height; omega, h4⟩

/-- What is seen meanwhile: the program, started with the cursor at the beginning of a row of a terminal, has on the
alternate screen, from that row of the window on, all the inputs with their outputs, as long as there is a row left for the
prompt, and the line that is being edited below if it fits; everything else is blank.  The normal screen is as it was.  When
the user quits, the terminal is exactly as it was before the program started. -/
theorem C112_session (m : Machine) (ce : CommandExecutor) (hce : CommandExecutor.new = .ok ce)
    (errorText : RuntimeErr → Str) (args : Args) (opened : Outcome DbError (Option SavedData)) (s : Screen)
    (events : List (Event × TermInfo)) (e : Editor) (log : List (Str × Str)) (line : Str)
    (h : ProgramWatched m ce errorText args opened s.fresh events e log) (hs : Shows e line)
    (ha : args.alternateScreen = true) (hok : s.Ok) (hcol : s.col = 0)
    (hroom : s.row - s.top + (transcript s.width log).length < s.height) :
    (let run := mainInteractive m ce errorText args opened false false none s.reports events
     let c := (⟨s, none⟩ : Console).run run.1
     run.2 = .waiting ∧ c.normal = s ∧ c.alternate = some c.shown ∧
     (∀ r col, r < s.row - s.top → c.shown.cell r col = ' ') ∧ c.shown.top = 0 ∧
     c.shown.RowsAre (s.row - s.top) (transcript s.width log) ∧
     (s.row - s.top + (transcript s.width log ++ inputRows s.width line).length ≤ s.height →
       c.shown.RowsAre (s.row - s.top) (transcript s.width log ++ inputRows s.width line) ∧
       c.shown.BlankFrom (s.row - s.top + (transcript s.width log ++ inputRows s.width line).length))) ∧
    ∀ ev t, (ev = .key (.char 'c') .control ∨ ev = .key (.char 'd') .control ∨ ev = .key (.char 'z') .control) →
      let run := mainInteractive m ce errorText args opened false false none s.reports (events ++ [(ev, t)])
      run.2 = .done ∧ (⟨s, none⟩ : Console).run run.1 = ⟨s, none⟩ := by
  have hrep : s.fresh.reports = s.reports := rfl
  have hroom' : s.fresh.row + (transcript s.fresh.width log).length < s.fresh.top + s.fresh.height := by
    show s.row - s.top + (transcript s.width log).length < 0 + s.height
    omega
  have h1 := C84_program m ce hce errorText args opened s.fresh events e log line h hs ha (fresh_ok hok) hcol hroom'
  rw [hrep] at h1
  obtain ⟨g1, g2, g3, g4, g5⟩ := h1
  refine ⟨?_, fun ev t hev => ?_⟩
  · intro run c
    obtain ⟨mid, hm, hf⟩ := main_form m ce hce errorText args opened false false none s.reports events
    have hc : c = ⟨s, some (s.fresh.run run.1)⟩ := by
      simp only [ha, if_true] at hf
      rcases hf with hf | hf | ⟨_, hf | hf⟩ | ⟨hf, _⟩
      · rw [hf] at g1; cases g1
      · rw [hf] at g1; cases g1
      · rw [hf] at g1; cases g1
      · rw [hf] at g1; cases g1
      · show (⟨s, none⟩ : Console).run run.1 = _
        have hrun : run.1 = [TermOp.enableRaw] ++ [TermOp.enterAlternate] ++ mid := hf
        rw [hrun, console_append, run_append]
        show Console.run ⟨s, some s.fresh⟩ mid = _
        rw [console_alternate hm]
        rfl
    rw [hc]
    refine ⟨g1, rfl, rfl, fun r col hr => g2 r col hr, g3, g4, fun hfit => ?_⟩
    refine g5 ?_
    show s.row - s.top + _ ≤ 0 + s.height
    rw [Nat.zero_add]
    exact hfit
  · intro run
    have hq : handleEvent e ev = .ok (.quit, e) := by rcases hev with rfl | rfl | rfl <;> rfl
    have hd : run.2 = .done := by
      obtain ⟨as, _, ht⟩ := program_trace h
      have ht := ht [(ev, t)]
      rw [hrep] at ht
      have he : (eventsTrace m ce errorText e [(ev, t)]).2.2 = .done := by
        unfold eventsTrace stepTrace
        rw [hq]
        rfl
      show (mainInteractive m ce errorText args opened false false none s.reports (events ++ [(ev, t)])).2 = _
      unfold mainInteractive
      rw [ht]
      simp only [withFault, Bool.false_eq_true, if_false, Bool.and_false, he]
    exact ⟨hd, (C112_untouched m ce hce errorText args ha opened false false none s.reports _ s run.1 run.2 rfl).2 (.inl hd)⟩

/-- The hypotheses of C112_session are met: on a terminal of 5 rows whose normal screen is full of text and has scrolled by
30 rows, 1+2 is entered on the alternate screen, its answer shown, and the next line begun. -/
example : ∃ e, ProgramWatched (exMachine true) table (fun _ => []) { Args.default with noDb := true, alternateScreen := true }
      (.err .environment) (⟨9, 5, fun _ _ => 'x', 30, 31, 0⟩ : Screen).fresh
      (exUnasked "1+2" ++ [(.key .enter .none, ⟨0, 3, 9⟩)] ++ exUnasked "4") e [("1+2".toList, "3".toList)] ∧
    Shows e "4".toList ∧ 31 - 30 + (transcript 9 [("1+2".toList, "3".toList)]).length < 5 := by
  obtain ⟨e, h1, h2⟩ := exProgram_meets (m := exMachine true) (alternate := true)
    (s0 := (⟨9, 5, fun _ _ => 'x', 30, 31, 0⟩ : Screen).fresh)
    (events := exUnasked "1+2" ++ [(.key .enter .none, ⟨0, 3, 9⟩)] ++ exUnasked "4")
    (log := [("1+2".toList, "3".toList)]) (line := "4".toList) (by decide +kernel)
  exact ⟨e, h1, h2, by decide +kernel⟩

/-- Those of C112_untouched and C112_normal are met: a program that fails at its fifth operation, and one that is quit. -/
example : (mainInteractive (exMachine true) table (fun _ => []) { Args.default with noDb := true, alternateScreen := true }
    (.err .environment) false false (some 4) ⟨0, 0, 9⟩ (exUnasked "1+2")).2 = .failed := by decide +kernel

example : (mainInteractive (exMachine true) table (fun _ => []) { Args.default with noDb := true, alternateScreen := false }
    (.err .environment) false false none ⟨0, 0, 9⟩ (exUnasked "1+2" ++ [(.key (.char 'd') .control, ⟨0, 0, 9⟩)])).2 = .done := by
  decide +kernel

end Bcalc
