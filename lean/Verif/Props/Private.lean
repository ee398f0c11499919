import Verif.Proof.Private
import Verif.Props.Editor

/-! # Sessions without a database (C77) -/

namespace Bcalc

open Spec

/-! ## C77 `--no-db` -/

/-- With `--no-db` it makes no difference to anything the program does which database there is, if any:
everything drawn, everything answered, and the final state are the same. -/
theorem C77_database_ignored (m : Machine) (ce : CommandExecutor) (args : Args) (hp : args.noDb = true)
    (db db' : Option SavedData) (t : TermInfo) (events : List (Event × TermInfo)) :
    interactive m ce args db t events = interactive m ce args db' t events := by
  unfold interactive Editor.start
  rw [hp]
  rfl

theorem lines_secluded {m : Machine} {ce : CommandExecutor} {args : Args} {db : Option SavedData}
    (hp : args.noDb = true ∨ db = none) {t : TermInfo} {lines : List Str} {e : Editor}
    (h : Lines m ce args db t lines e) : Secluded e lines := by
  induction h with
  | start h => exact start_secluded hp h
  | enter _ hs h ih =>
    obtain ⟨l, hl, _, h2, _⟩ := step_secluded ih h
    rw [h2 _ _ rfl hs] at hl
    exact hl
  | other _ hs h _ ih =>
    obtain ⟨l, hl, h1, _⟩ := step_secluded ih h
    rw [h1 hs] at hl
    exact hl

/-- And the program never has a database in its hands, so that it cannot change one. -/
theorem C77_no_database (m : Machine) (ce : CommandExecutor) (args : Args) (db : Option SavedData)
    (hp : args.noDb = true ∨ db = none) (t : TermInfo) (lines : List Str) (e : Editor)
    (h : Lines m ce args db t lines e) : e.db = none := (lines_secluded hp h).db

/-- Without a database no run ends with an error of a database, and no line is answered with one, nor with
any other error that is not about the line. -/
theorem C77_no_database_error (m : Machine) (ce : CommandExecutor) (args : Args) (db : Option SavedData)
    (hp : args.noDb = true ∨ db = none) (t : TermInfo) (events : List (Event × TermInfo)) :
    (∀ err, interactive m ce args db t events ≠ .err (.db err)) ∧
    ∀ d outs e, interactive m ce args db t events = .ok (d, outs, e) →
      ∀ out ∈ outs, ∀ err, out.output ≠ some (.runtimeError err) := by
  constructor
  · intro err h
    unfold interactive at h
    rcases outcome_bind_err h with h | ⟨⟨d, e⟩, h1, h⟩
    · unfold Editor.start at h
      exact draw_quiet (line := []) (by unfold Shows; rfl) h
    · simp only at h
      rcases outcome_bind_err h with h | ⟨_, _, h⟩
      · exact (runEvents_secluded events (start_secluded hp h1)).1 err h
      · cases h
  · intro d outs e h
    unfold interactive at h
    obtain ⟨⟨d1, e1⟩, h1, h⟩ := outcome_bind_ok h
    obtain ⟨⟨outs1, e2⟩, h2, h⟩ := outcome_bind_ok h
    cases h
    exact ((runEvents_secluded events (start_secluded hp h1)).2 _ _ h2).2

/-- Without a database the inputs that can be recalled are exactly the lines of this session. -/
theorem C77_own_history (m : Machine) (ce : CommandExecutor) (args : Args) (db : Option SavedData)
    (hp : args.noDb = true ∨ db = none) (t : TermInfo) (lines : List Str) (e : Editor)
    (h : Lines m ce args db t lines e) : pastInputs e.inputs = lines := (lines_secluded hp h).past

theorem step_up_quit {m : Machine} {ce : CommandExecutor} {e e' : Editor} {mods : Mods} {t : TermInfo}
    {out : StepOut} (h : step m ce e (.key .up mods) t = .ok (out, e')) : out.quit = false := by
  cases step_cases h with
  | ignored h1 => rfl
  | quit h1 =>
    unfold handleEvent at h1
    simp only at h1
    split at h1
    · obtain ⟨_, _, h1⟩ := outcome_bind_ok h1
      cases h1
    · cases h1
    · cases h1
    · cases h1
    · cases h1
  | redrawn _ _ _ => rfl
  | entered _ _ _ _ _ => rfl

/-- Pressing Up goes up by one as long as there are lines. -/
theorem ups_secluded {m : Machine} {ce : CommandExecutor} {mods : Mods} {t : TermInfo} :
    ∀ (n : Nat) {e e' : Editor} {lines : List Str} {outs : List StepOut}, Awaits m ce e → Secluded e lines →
    e.inputs.index ≤ lines.length →
    (∀ i, lineAt e.inputs i = if i = 0 then some [] else lines[i - 1]?) →
    runEvents m ce e (List.replicate n (.key .up mods, t)) = .ok (outs, e') →
    Shows e' (if e.inputs.index + n = 0 then [] else
      (lines[min (e.inputs.index + n) lines.length - 1]?).getD [])
  | 0, e, e', lines, outs, ha, hs, hi, hl, h => by
    cases h
    obtain ⟨line, ho⟩ := hs.ok
    have := ho.at
    rw [hl] at this
    have hsh := ho.shows
    by_cases h0 : e.inputs.index = 0
    · rw [if_pos h0] at this
      rw [if_pos (by omega)]
      cases this
      exact hsh
    · rw [if_neg h0] at this
      rw [if_neg (by omega), Nat.add_zero, Nat.min_eq_left hi, this]
      exact hsh
  | n + 1, e, e', lines, outs, ha, hs, hi, hl, h => by
    rw [List.replicate_succ] at h
    unfold runEvents at h
    obtain ⟨⟨out, e1⟩, h1, h⟩ := outcome_bind_ok h
    simp only at h
    have hq := step_up_quit h1
    rw [hq, if_neg (by simp)] at h
    obtain ⟨⟨outs1, e2⟩, h2, h⟩ := outcome_bind_ok h
    cases h
    obtain ⟨l', hs1, he1, _⟩ := step_secluded hs h1
    rw [he1 (fun _ h => by cases h)] at hs1
    have ha1 : Awaits m ce e1 := .event ha h1 hq
    by_cases hlt : e.inputs.index < lines.length
    · have hk := C55_up_known m ce e e1 ha mods t out h1 (by rw [hs.past]; exact hlt)
      have := ups_secluded n ha1 hs1 (by omega) (fun i => by rw [hk.2.2, hl]) h2
      rw [hk.1] at this
      rw [if_neg (by omega)] at this ⊢
      rw [show e.inputs.index + (n + 1) = e.inputs.index + 1 + n by omega]
      exact this
    · have hie : e.inputs.index = lines.length := by omega
      rcases C55_up m ce e e1 ha mods t out h1 with ⟨hi1, hk, line', hat, _⟩ | ⟨_, _, he, _⟩
      · exfalso
        obtain ⟨_, ho1⟩ := hs1.ok
        have := lineAt_beyond ho1.hist (i := e.inputs.index + 1) (by rw [← past_length, hs1.past]; omega)
        rw [this] at hat
        cases hat
      · have hidx : e1.inputs.index = e.inputs.index := by rw [he]
        have hla : ∀ i, lineAt e1.inputs i = lineAt e.inputs i := fun i => by rw [he]; rfl
        have := ups_secluded n ha1 hs1 (by omega) (fun i => by rw [hla, hl]) h2
        rw [hidx] at this
        by_cases h0 : lines = []
        · subst h0
          simp only [List.length_nil] at hie
          rw [hie] at this ⊢
          simp only [List.getElem?_nil, Option.getD_none, ite_self] at this ⊢
          exact this
        · have hpos : 0 < lines.length := List.length_pos_of_ne_nil h0
          rw [if_neg (by omega)] at this ⊢
          rw [Nat.min_eq_right (by omega)] at this ⊢
          exact this

theorem lines_awaits {m : Machine} {ce : CommandExecutor} {args : Args} {db : Option SavedData}
    {t : TermInfo} {lines : List Str} {e : Editor}
    (h : Lines m ce args db t lines e) : Awaits m ce e := by
  induction h with
  | start h => exact .start h
  | enter _ hs h ih =>
    obtain ⟨_, _, _, _, hout, _⟩ := (step_enter_ok (ih.line hs) h).out
    exact .event ih h (by rw [hout])
  | other _ _ h hq ih => exact .event ih h hq

/-- After Enter, pressing Up `n` times recalls the `n`-th newest line of this session; once the oldest has
been reached, it stays. -/
theorem C77_recall (m : Machine) (ce : CommandExecutor) (args : Args) (db : Option SavedData)
    (hp : args.noDb = true ∨ db = none) (t : TermInfo) (lines : List Str) (e : Editor)
    (h : Lines m ce args db t lines e) (line : Str) (hs : Shows e line) (mods : Mods) (t1 : TermInfo)
    (out : StepOut) (e1 : Editor) (h1 : step m ce e (.key .enter mods) t1 = .ok (out, e1))
    (n : Nat) (hn : 0 < n) (upMods : Mods) (t2 : TermInfo) (outs : List StepOut) (e2 : Editor)
    (h2 : runEvents m ce e1 (List.replicate n (.key .up upMods, t2)) = .ok (outs, e2)) :
    ∃ l, (line :: lines)[min n (lines.length + 1) - 1]? = some l ∧ Shows e2 l := by
  have hL := Lines.enter h hs h1
  have hsec := lines_secluded hp hL
  have hin := (step_enter_ok ((lines_awaits h).line hs) h1).inputs
  have hidx : e1.inputs.index = 0 := by rw [hin]; rfl
  have := ups_secluded n (lines_awaits hL) hsec (by rw [hidx]; exact Nat.zero_le _)
    (fun i => by rw [hin, finished_lineAt, ← hin, hsec.past]) h2
  rw [hidx, if_neg (by omega), Nat.zero_add] at this
  have hlt : min n (line :: lines).length - 1 < (line :: lines).length := by
    simp only [List.length_cons]
    omega
  refine ⟨(line :: lines)[min n (line :: lines).length - 1], ?_, ?_⟩
  · rw [← List.length_cons (a := line), List.getElem?_eq_getElem hlt]
  · rw [List.getElem?_eq_getElem hlt] at this
    exact this

/-- A private session next to a database with a variable and two inputs: it cannot be seen. -/
def exPrivate (events : List Event) : Outcome RuntimeErr (Drawing × List StepOut × Editor) :=
  interactive (exMachine true) table { Args.default with noDb := true } (some ⟨exDb3, some 3, [], []⟩) ⟨0, 0, 80⟩
    (events.map (·, ⟨0, 0, 80⟩))

example : (match exPrivate (typed "$y" ++ [.key .enter .none] ++ typed "$y=2" ++ [.key .enter .none] ++ typed "$y" ++
        [.key .enter .none, .key .up .none, .key .up .none, .key .up .none, .key .up .none]) with
      | .ok (_, outs, e) => some (outs.filterMap (·.output), e.inputs.currentLine (ε := RuntimeErr))
      | _ => none) =
    some ([.inputError "Unknown variable: $y".toList, .result "2".toList, .result "2".toList],
      .ok "$y".toList) := by decide +kernel

/-- Every run of the program that is not over has its lines, so that the theorems above apply to it. -/
theorem lines_run {m : Machine} {ce : CommandExecutor} {args : Args} {db : Option SavedData} {t : TermInfo} :
    ∀ (evs : List (Event × TermInfo)) {e e' : Editor} {lines : List Str} {outs : List StepOut},
    Lines m ce args db t lines e → runEvents m ce e evs = .ok (outs, e') →
    outs.all (fun o => !o.quit) = true → ∃ lines', Lines m ce args db t lines' e'
  | [], _, _, _, _, h, hr, _ => by cases hr; exact ⟨_, h⟩
  | (ev, t1) :: rest, e, e', lines, outs, h, hr, hq => by
    unfold runEvents at hr
    obtain ⟨⟨out, e1⟩, h1, hr⟩ := outcome_bind_ok hr
    simp only at hr
    split at hr
    · rename_i hqt
      cases hr
      simp [hqt] at hq
    · rename_i hqt
      obtain ⟨⟨outs', e2⟩, h2, hr⟩ := outcome_bind_ok hr
      simp only [Outcome.ok.injEq, Prod.mk.injEq] at hr
      obtain ⟨rfl, rfl⟩ := hr
      simp only [List.all_cons, Bool.and_eq_true] at hq
      by_cases hen : ∃ mods, ev = .key .enter mods
      · obtain ⟨mods, rfl⟩ := hen
        obtain ⟨⟨line, ho⟩, _⟩ := (lines_awaits h).ok
        exact lines_run rest (.enter h ho.shows h1) h2 hq.2
      · exact lines_run rest (.other h (fun mods hm => hen ⟨mods, hm⟩) h1 (by simpa using hqt)) h2 hq.2

theorem C77_every_run (m : Machine) (ce : CommandExecutor) (args : Args) (db : Option SavedData)
    (t : TermInfo) (events : List (Event × TermInfo)) (d : Drawing) (outs : List StepOut) (e : Editor)
    (h : interactive m ce args db t events = .ok (d, outs, e)) (hq : ∀ out ∈ outs, out.quit = false) :
    ∃ lines, Lines m ce args db t lines e := by
  unfold interactive at h
  obtain ⟨⟨d1, e1⟩, h1, h⟩ := outcome_bind_ok h
  obtain ⟨⟨outs1, e2⟩, h2, h⟩ := outcome_bind_ok h
  cases h
  exact lines_run events (.start h1) h2 (List.all_eq_true.2 fun o ho => by rw [hq o ho]; rfl)

/-- The same keys with the database. -/
example : (match interactive (exMachine true) table Args.default (some ⟨exDb3, some 3, [], []⟩) ⟨0, 0, 80⟩
        ((typed "$y" ++ ([.key .enter .none, .key .up .none, .key .up .none] : List Event)).map (·, ⟨0, 0, 80⟩)) with
      | .ok (_, outs, e) => some (outs.filterMap (·.output), e.inputs.currentLine (ε := RuntimeErr))
      | _ => none) =
    some ([.result "5".toList], .ok "$y".toList) := by decide +kernel

end Bcalc
