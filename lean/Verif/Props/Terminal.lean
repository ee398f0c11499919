import Verif.Proof.Terminal
import Verif.Props.Editor

/-!
# The terminal: C81 to C84
-/

namespace Bcalc
open Spec

/-! ## C81 The terminal is left as it was found -/

/-- The form of every run: the modes are set, then the session runs without setting any, and unless the program
crashes or hangs the modes are set back. -/
theorem main_form (m : Machine) (ce : CommandExecutor) (hce : CommandExecutor.new = .ok ce) (errorText : RuntimeErr → Str)
    (args : Args) (opened : Outcome DbError (Option SavedData)) (rawFails enterFails : Bool) (fault : Option Nat)
    (t : TermInfo) (events : List (Event × TermInfo)) :
    ∃ ops, (∀ op ∈ ops, ¬ SetsMode op) ∧
      let run := mainInteractive m ce errorText args opened rawFails enterFails fault t events
      let setUp := [TermOp.enableRaw] ++ if args.alternateScreen then [TermOp.enterAlternate] else []
      let restore := (if args.alternateScreen then [TermOp.leaveAlternate] else []) ++ [TermOp.disableRaw]
      (run = ([], .failed)) ∨ (run = ([.enableRaw, .disableRaw], .failed)) ∨
      (run.1 = setUp ++ ops ++ restore ∧ (run.2 = .done ∨ run.2 = .failed)) ∨
      (run.1 = setUp ++ ops ∧ run.2 ≠ .done ∧ run.2 ≠ .failed) := by
  rw [new_eq_table hce]
  have hp := withFault_plain (fault := fault) (interactiveTrace_plain m errorText args opened t events)
  refine ⟨(withFault fault (interactiveTrace m table errorText args opened t events)).1.map (·.op), ?_, ?_⟩
  · intro op h
    obtain ⟨a, ha, rfl⟩ := List.mem_map.1 h
    exact (hp.acts a ha).1
  · unfold mainInteractive
    generalize withFault fault (interactiveTrace m table errorText args opened t events) = x at hp ⊢
    obtain ⟨as, args', r⟩ := x
    obtain ⟨_, h2⟩ := hp
    simp only at h2
    cases rawFails with
    | true => exact .inl rfl
    | false =>
      simp only [Bool.false_eq_true, if_false]
      split
      · exact .inr (.inl rfl)
      · rw [h2]
        cases r <;> simp

/-- Whenever the program ends, because the user quit or because something failed, the terminal is in the modes it was
in before. -/
theorem C81_restored (m : Machine) (ce : CommandExecutor) (hce : CommandExecutor.new = .ok ce)
    (errorText : RuntimeErr → Str) (args : Args) (opened : Outcome DbError (Option SavedData))
    (rawFails enterFails : Bool) (fault : Option Nat) (t : TermInfo) (events : List (Event × TermInfo))
    (ops : List TermOp) (ending : Ending)
    (h : mainInteractive m ce errorText args opened rawFails enterFails fault t events = (ops, ending))
    (hend : ending = .done ∨ ending = .failed) : modesAfter ops = Modes.normal := by
  obtain ⟨mid, hm, hf⟩ := main_form m ce hce errorText args opened rawFails enterFails fault t events
  rw [h] at hf
  simp only [Prod.mk.injEq] at hf
  rcases hf with ⟨rfl, _⟩ | ⟨rfl, _⟩ | ⟨rfl, _⟩ | ⟨_, h1, h2⟩
  · rfl
  · rfl
  · unfold modesAfter
    simp only [List.foldl_append, foldl_plain hm]
    cases args.alternateScreen <;> rfl
  · rcases hend with rfl | rfl
    · exact absurd rfl h1
    · exact absurd rfl h2

/-- Everything the program writes, asks and reads, it does in raw mode, on the alternate screen if the option says so and on
the normal screen otherwise. -/
theorem C81_throughout (m : Machine) (ce : CommandExecutor) (hce : CommandExecutor.new = .ok ce)
    (errorText : RuntimeErr → Str) (args : Args) (opened : Outcome DbError (Option SavedData))
    (rawFails enterFails : Bool) (fault : Option Nat) (t : TermInfo) (events : List (Event × TermInfo))
    (ops : List TermOp) (ending : Ending)
    (h : mainInteractive m ce errorText args opened rawFails enterFails fault t events = (ops, ending))
    (pre post : List TermOp) (op : TermOp) (hop : ops = pre ++ op :: post) (hs : ¬ SetsMode op) :
    modesAfter pre = ⟨true, args.alternateScreen⟩ := by
  obtain ⟨mid, hm, hf⟩ := main_form m ce hce errorText args opened rawFails enterFails fault t events
  rw [h] at hf
  simp only [Prod.mk.injEq] at hf
  have key : ∀ restore : List TermOp, (∀ o ∈ restore, SetsMode o) →
      ([TermOp.enableRaw] ++ if args.alternateScreen then [TermOp.enterAlternate] else []) ++ mid ++ restore =
        pre ++ op :: post → modesAfter pre = ⟨true, args.alternateScreen⟩ := by
    intro restore hr heq
    have hset : ∀ o ∈ ([TermOp.enableRaw] ++ if args.alternateScreen then [TermOp.enterAlternate] else []), SetsMode o := by
      cases args.alternateScreen <;> simp [SetsMode]
    have hmode : modesAfter ([TermOp.enableRaw] ++ if args.alternateScreen then [TermOp.enterAlternate] else []) =
        ⟨true, args.alternateScreen⟩ := by
      cases args.alternateScreen <;> rfl
    generalize ([TermOp.enableRaw] ++ if args.alternateScreen then [TermOp.enterAlternate] else []) = su at heq hset hmode
    rw [List.append_assoc] at heq
    rcases List.append_eq_append_iff.1 heq with ⟨as, h1, h2⟩ | ⟨bs, h1, h2⟩
    · -- the session reaches into what is before
      rcases List.append_eq_append_iff.1 h2 with ⟨cs, h3, h4⟩ | ⟨cs, h3, h4⟩
      · cases cs with
        | nil =>
          simp only [List.append_nil] at h3
          rw [h1, modesAfter, List.foldl_append]
          rw [h3]
          rw [foldl_plain hm]
          exact hmode
        | cons c cs =>
          rw [h4] at hr
          exact absurd (hr op (by simp)) hs
      · rw [h1, modesAfter, List.foldl_append, foldl_plain (fun o ho => hm o (by rw [h3]; simp [ho]))]
        exact hmode
    · cases bs with
      | nil =>
        rw [List.append_nil] at h1
        rw [← h1]; exact hmode
      | cons b bs =>
        simp only [List.cons_append, List.cons.injEq] at h2
        exact absurd (hset op (by rw [h1, h2.1]; simp)) hs
  rcases hf with ⟨rfl, _⟩ | ⟨rfl, _⟩ | ⟨h1, _⟩ | ⟨h1, _⟩
  · simp at hop
  · have : ∀ o ∈ [TermOp.enableRaw, TermOp.disableRaw], SetsMode o := by simp [SetsMode]
    rw [hop] at this
    exact absurd (this op (by simp)) hs
  · refine key _ ?_ (h1 ▸ hop)
    cases args.alternateScreen <;> simp [SetsMode]
  · refine key [] (by simp) ?_
    rw [List.append_nil]
    exact h1 ▸ hop

/-- How the program ends, if nothing fails at the terminal: as the session does. -/
theorem C81_course (m : Machine) (ce : CommandExecutor) (errorText : RuntimeErr → Str) (args : Args)
    (opened : Outcome DbError (Option SavedData)) (t : TermInfo) (events : List (Event × TermInfo)) (db : Option SavedData)
    (d : Drawing) (e : Editor) (ho : args.noDb = false → opened = .ok db) (hn : args.noDb = true → db = none)
    (hst : Editor.start m args db t = .ok (d, e)) :
    (mainInteractive m ce errorText args opened false false none t events).2 = endingOf (runEvents m ce e events) := by
  have h1 : (if args.noDb then .ok none else opened : Outcome DbError (Option SavedData)) = .ok db := by
    cases h : args.noDb with
    | true => rw [hn h]; rfl
    | false => rw [ho h]; rfl
  have h2 : interactiveTrace m ce errorText args opened t events =
      (acts args ([.queryPosition, .querySize] ++ drawOps e d) ++ (eventsTrace m ce errorText e events).1,
        (eventsTrace m ce errorText e events).2.1, (eventsTrace m ce errorText e events).2.2) := by
    unfold interactiveTrace
    rw [h1]
    simp only
    rw [hst]
  have h3 := eventsTrace_ending m ce errorText events e
  unfold mainInteractive
  rw [h2]
  simp only [withFault, Bool.false_eq_true, if_false, Bool.and_false]
  rw [h3]
  cases endingOf (runEvents m ce e events) <;> rfl

/-- The program ends with a failure, and the terminal is as before, if the terminal cannot be set up, the database cannot
be opened (and is asked for), or the first prompt cannot be drawn, whatever else fails or happens. -/
theorem C81_failure (m : Machine) (ce : CommandExecutor) (hce : CommandExecutor.new = .ok ce)
    (errorText : RuntimeErr → Str) (args : Args) (opened : Outcome DbError (Option SavedData))
    (rawFails enterFails : Bool) (fault : Option Nat) (t : TermInfo) (events : List (Event × TermInfo))
    (h : rawFails = true ∨ (args.alternateScreen = true ∧ enterFails = true) ∨
      (args.noDb = false ∧ ∃ e, opened = .err e) ∨
      (∃ db e, (args.noDb = false → opened = .ok db) ∧ (args.noDb = true → db = none) ∧ Editor.start m args db t = .err e)) :
    (mainInteractive m ce errorText args opened rawFails enterFails fault t events).2 = .failed ∧
    modesAfter (mainInteractive m ce errorText args opened rawFails enterFails fault t events).1 = Modes.normal := by
  have key : (mainInteractive m ce errorText args opened rawFails enterFails fault t events).2 = .failed := by
    unfold mainInteractive
    cases hr : rawFails with
    | true => rfl
    | false =>
      simp only [Bool.false_eq_true, if_false]
      split
      · rfl
      · rename_i hne
        have hf : (withFault fault (interactiveTrace m ce errorText args opened t events)).2.2 = .failed := by
          have h0 : (interactiveTrace m ce errorText args opened t events).2.2 = .failed := by
            rcases h with h | ⟨h1, h2⟩ | ⟨h1, e, h2⟩ | ⟨db, e, h1, h2, h3⟩
            · rw [hr] at h; cases h
            · rw [h1, h2] at hne; exact absurd rfl hne
            · unfold interactiveTrace
              rw [h1, h2]
              rfl
            · have h4 : (if args.noDb then .ok none else opened : Outcome DbError (Option SavedData)) = .ok db := by
                cases hn : args.noDb with
                | true => rw [h2 hn]; rfl
                | false => rw [h1 hn]; rfl
              unfold interactiveTrace
              rw [h4]
              simp only
              rw [h3]
          generalize interactiveTrace m ce errorText args opened t events = x at h0
          obtain ⟨as, args', r⟩ := x
          unfold withFault
          simp only at h0 ⊢
          split
          · exact h0
          · split
            · rfl
            · exact h0
        generalize withFault fault (interactiveTrace m ce errorText args opened t events) = x at hf
        obtain ⟨as, args', r⟩ := x
        simp only at hf
        subst hf
        rfl
  exact ⟨key, C81_restored m ce hce errorText args opened rawFails enterFails fault t events _ _ rfl (.inr key)⟩

/-- The database cannot be opened: nothing is written. -/
example : (mainInteractive (exMachine true) table (fun _ => []) Args.default (.err .environment) false false none ⟨0, 0, 20⟩ []) =
    ([.enableRaw, .disableRaw], .failed) := rfl

/-- The window is too narrow for the prompt. -/
example : (mainInteractive (exMachine true) table (fun _ => []) { Args.default with alternateScreen := true } (.ok none) false
    false none ⟨0, 0, 1⟩ []).2 = .failed ∧
    Editor.start (exMachine true) { Args.default with alternateScreen := true } none ⟨0, 0, 1⟩ = .err windowTooNarrow := by
  constructor <;> rfl

/-- The case the claim leaves out: when the program crashes, the terminal stays in raw mode, and on the alternate screen. -/
theorem C81_crash_violation (m : Machine) (ce : CommandExecutor) (hce : CommandExecutor.new = .ok ce)
    (errorText : RuntimeErr → Str) (args : Args) (opened : Outcome DbError (Option SavedData))
    (rawFails enterFails : Bool) (fault : Option Nat) (t : TermInfo) (events : List (Event × TermInfo))
    (ops : List TermOp)
    (h : mainInteractive m ce errorText args opened rawFails enterFails fault t events = (ops, .crashed)) :
    modesAfter ops = ⟨true, args.alternateScreen⟩ := by
  obtain ⟨mid, hm, hf⟩ := main_form m ce hce errorText args opened rawFails enterFails fault t events
  rw [h] at hf
  simp only [Prod.mk.injEq] at hf
  rcases hf with ⟨_, h⟩ | ⟨_, h⟩ | ⟨_, h⟩ | ⟨rfl, _⟩
  · cases h
  · cases h
  · rcases h with h | h <;> cases h
  · unfold modesAfter
    rw [List.foldl_append, foldl_plain hm]
    cases args.alternateScreen <;> rfl

/-- Runs of the program in a terminal of 20 columns, without a database. -/
def exMain (alternate : Bool) (fault : Option Nat) (events : List Event) : List TermOp × Ending :=
  mainInteractive (exMachine true) table (fun _ => []) { Args.default with alternateScreen := alternate } (.ok none)
    false false fault ⟨0, 0, 20⟩ (events.map (·, ⟨0, 0, 20⟩))

/-- Quitting with Ctrl+C, on either screen; a failing terminal; a paste, which is not supported. -/
example : (exMain true none (typed "1+2" ++ [.key .enter .none, .key (.char 'c') .control])).2 = .done ∧
    (exMain false none (typed "1+2" ++ [.key .enter .none, .key (.char 'c') .control])).2 = .done ∧
    (exMain true (some 9) (typed "1+2")).2 = .failed ∧ (exMain true none [.paste]).2 = .failed ∧
    (exMain true none (typed "1+2")).2 = .waiting := by decide +kernel

/-- A remainder by zero crashes the program: raw mode and the alternate screen stay. -/
example : (exMain true none (typed "5 % 0" ++ [.key .enter .none])).2 = .crashed ∧
    modesAfter (exMain true none (typed "5 % 0" ++ [.key .enter .none])).1 = ⟨true, true⟩ := by decide +kernel

end Bcalc
