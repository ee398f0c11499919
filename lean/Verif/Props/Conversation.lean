import Verif.Proof.Oblivious
import Verif.Proof.Sessions
import Verif.Props.Typing
import Verif.Props.Editor

/-! # C103: only the lines that are entered matter -/

namespace Bcalc
open Spec

/-- What a line is answered, and what it does to settings, variables and database, depends on nothing but these
(and the operations of other processes): not on the lines entered before, the lines recalled, or how the line
was produced. -/
theorem C103_line (m : Machine) (ce : CommandExecutor) (line : Str) (s s' : Session) (h : Interchangeable s s')
    (ho : Offers s line) (ho' : Offers s' line) :
    (calculate m ce line s).1 = (calculate m ce line s').1 ∧
      Interchangeable (calculate m ce line s).2 (calculate m ce line s').2 := by
  obtain ⟨h1, h2⟩ := calculate_akin m ce line (akin_iff.2 h) ho ho'
  exact ⟨h1, akin_iff.1 h2⟩

theorem given_offers {s : Session} (h : s.inputs.isSome = true) (line : Str) : Offers (given s line) line := by
  obtain ⟨i, hi⟩ := Option.isSome_iff_exists.1 h
  refine ⟨{ i with current := [some line], index := 0 }, ?_, rfl⟩
  unfold given
  rw [hi]
  rfl

theorem given_akin {s s' : Session} (h : Akin s s') (line : Str) : Akin s (given s' line) := ⟨h.args, h.vars, h.db⟩

/-- Calculating does not make other processes appear. -/
theorem calculate_own (m : Machine) (ce : CommandExecutor) (line : Str) {s : Session}
    (h : ∀ sd, s.db = some sd → sd.env = []) : ∀ sd, (calculate m ce line s).2.db = some sd → sd.env = [] := by
  intro sd hsd
  have hr := calculate_db m ce line s
  unfold SessRel at hr
  cases hd : s.db with
  | none => rw [hd, hsd] at hr; exact hr.elim
  | some sd0 =>
    rw [hd, hsd] at hr
    obtain ⟨k, hk⟩ := SdRel.env hr
    rw [hk, h sd0 hd]
    simp

theorem other_akin {m : Machine} {ce : CommandExecutor} {e e' : Editor} (ha : Awaits m ce e) (hq : OnItsOwn e)
    {ev : Event} (hen : isEnter ev = false) {t : TermInfo} {out : StepOut} (h : step m ce e ev t = .ok (out, e')) :
    out.output = none ∧ OnItsOwn e' ∧ ∀ s, Akin e.session s → Akin e'.session s := by
  obtain ⟨⟨line, ho⟩, hc⟩ := ha.ok
  obtain ⟨h0, a, e1, h1, hn, ⟨off, rfl⟩, _⟩ := step_other ho hc hen h
  refine ⟨h0, ?_, ?_⟩
  · intro sd hsd
    rcases handleEvent_db h1 with he | ⟨sd', hd', he⟩
    · exact hq sd (he ▸ hsd)
    · simp only at hsd
      rw [he] at hsd
      cases hsd
      exact (getPrev_alone sd' (hq sd' hd')).2
  · rintro s ⟨g1, g2, g3⟩
    refine ⟨hn.args.trans g1, ?_, ?_⟩
    · have : some e1.vars = s.vars := by rw [hn.vars]; exact g2
      exact this
    · rcases handleEvent_db h1 with he | ⟨sd', hd', he⟩
      · have : DbAkin e1.db s.db := by rw [he]; exact g3
        exact this
      · have hg : DbAkin (some sd') s.db := by rw [← hd']; exact g3
        have : DbAkin e1.db s.db := by
          rw [he]
          cases hs : s.db with
          | none => rw [hs] at hg; exact hg.elim
          | some sd =>
            rw [hs] at hg
            obtain ⟨k1, k2⟩ := getPrev_alone sd' (hq sd' hd')
            obtain ⟨j1, j2⟩ := seen_eq hg
            show (_, _) = (_, _)
            rw [k1, k2, j1, ← j2, hq sd' hd']
        exact this

theorem enteredLines_other {m : Machine} {ce : CommandExecutor} {e e1 : Editor} {ev : Event} (hen : isEnter ev = false)
    {t : TermInfo} {out : StepOut} (h : step m ce e ev t = .ok (out, e1)) (rest : List (Event × TermInfo)) :
    enteredLines m ce e ((ev, t) :: rest) = if out.quit then [] else enteredLines m ce e1 rest := by
  have : ∀ mods, ev ≠ .key .enter mods := by rintro mods rfl; cases hen
  conv => lhs; unfold enteredLines
  rw [h]
  simp only
  split
  · rename_i mods line _; exact absurd rfl (this mods)
  · rfl

theorem enteredLines_enter {m : Machine} {ce : CommandExecutor} {e e1 : Editor} {mods : Mods}
    {t : TermInfo} {out : StepOut} {line : Str} (hs : Shows e line)
    (h : step m ce e (.key .enter mods) t = .ok (out, e1)) (rest : List (Event × TermInfo)) :
    enteredLines m ce e ((.key .enter mods, t) :: rest) = line :: if out.quit then [] else enteredLines m ce e1 rest := by
  unfold Shows at hs
  conv => lhs; unfold enteredLines
  rw [h]
  simp only
  rw [hs]
  rfl

theorem session_akin {m : Machine} {ce : CommandExecutor} : ∀ (evs : List (Event × TermInfo)) {e e' : Editor}
    {outs : List StepOut} (s : Session), Awaits m ce e → OnItsOwn e → Akin e.session s → s.inputs.isSome = true →
    runEvents m ce e evs = .ok (outs, e') →
    ∃ s', converse m ce s (enteredLines m ce e evs) = .ok (outs.filterMap (·.output), s') ∧ Akin e'.session s' ∧
      OnItsOwn e'
  | [], e, e', outs, s, ha, hq, hk, hi, hr => by
    cases hr
    exact ⟨s, rfl, hk, hq⟩
  | (ev, t) :: rest, e, e', outs, s, ha, hq, hk, hi, hr => by
    obtain ⟨out, e1, h1, h2⟩ := runEvents_cons hr
    cases hen : isEnter ev with
    | false =>
      obtain ⟨g1, g2, g3⟩ := other_akin ha hq hen h1
      rw [enteredLines_other hen h1]
      rcases h2 with ⟨hqt, rfl, rfl⟩ | ⟨hqt, outs', h3, rfl⟩
      · rw [hqt]
        refine ⟨s, ?_, g3 s hk, g2⟩
        simp only [if_true, List.filterMap_cons, g1, List.filterMap_nil]
        rfl
      · rw [hqt]
        obtain ⟨s', k1, k2⟩ := session_akin rest s (.event ha h1 hqt) g2 (g3 s hk) hi h3
        refine ⟨s', ?_, k2⟩
        simp only [Bool.false_eq_true, if_false, List.filterMap_cons, g1]
        exact k1
    | true =>
      obtain ⟨mods, rfl⟩ := isEnter_iff hen
      obtain ⟨⟨line, ho⟩, hc⟩ := ha.ok
      have hE := step_enter_ok ho h1
      obtain ⟨d, d', sh, r, rfl, _, hcalc, hsh⟩ := hE.out
      rw [enteredLines_enter ho.shows h1]
      have hof : Offers e.session line := ⟨e.inputs, rfl, ho.shows⟩
      obtain ⟨k1, k2⟩ := calculate_akin m ce line (given_akin hk line) hof (given_offers hi line)
      rw [hcalc] at k1 k2
      simp only at k1 k2
      have hq1 : OnItsOwn e1 := by
        have := calculate_own m ce line (s := e.session) hq
        rw [hcalc] at this
        exact this
      have hi1 : (calculate m ce line (given s line)).2.inputs.isSome = true := by
        obtain ⟨i, g1, g2⟩ := given_offers hi line
        rw [calculate_inputs m ce line g1 g2]
        rfl
      rcases h2 with ⟨h2, _⟩ | ⟨_, outs', h3, rfl⟩
      · cases h2
      obtain ⟨s', j1, j2⟩ := session_akin rest _ (.event ha h1 rfl) hq1 k2 hi1 h3
      refine ⟨s', ?_, j2⟩
      simp only [Bool.false_eq_true, if_false]
      unfold converse
      rw [← k1, hsh]
      simp only [Outcome.bind_ok]
      rw [j1]
      rfl

/-- Whatever is done at the keyboard (typing, editing, recalling lines of this and of earlier sessions and editing
those, resizing the window, and quitting in the end): what is printed are the answers of the calculator to the lines
that were entered, given to it one after the other without a keyboard; and settings, variables and database are in
the end as after that. -/
theorem C103_session (m : Machine) (ce : CommandExecutor) (e e' : Editor) (h : Awaits m ce e) (hq : OnItsOwn e)
    (evs : List (Event × TermInfo)) (outs : List StepOut) (hr : runEvents m ce e evs = .ok (outs, e')) :
    ∃ s', converse m ce e.session (enteredLines m ce e evs) = .ok (outs.filterMap (·.output), s') ∧
      Interchangeable e'.session s' := by
  obtain ⟨s', h1, h2, _⟩ := session_akin evs e.session h hq (akin_iff.2 ⟨rfl, rfl, rfl, rfl⟩) rfl hr
  exact ⟨s', h1, akin_iff.1 h2⟩

theorem converse_akin {m : Machine} {ce : CommandExecutor} : ∀ (lines : List Str) {s s' : Session}, Akin s s' →
    s.inputs.isSome = true → s'.inputs.isSome = true → ∀ {answers : List Shown} {t : Session},
    converse m ce s lines = .ok (answers, t) → ∃ t', converse m ce s' lines = .ok (answers, t') ∧ Akin t t'
  | [], s, s', hk, _, _, answers, t, h => by
    cases h
    exact ⟨s', rfl, hk⟩
  | line :: lines, s, s', hk, hi, hi', answers, t, h => by
    have hk' : Akin (given s line) (given s' line) := ⟨hk.args, hk.vars, hk.db⟩
    obtain ⟨h1, h2⟩ := calculate_akin m ce line hk' (given_offers hi line) (given_offers hi' line)
    have hin : ∀ {s : Session}, s.inputs.isSome = true → (calculate m ce line (given s line)).2.inputs.isSome = true := by
      intro s hi
      obtain ⟨i, g1, g2⟩ := given_offers hi line
      rw [calculate_inputs m ce line g1 g2]
      rfl
    unfold converse at h
    obtain ⟨answer, g1, g2⟩ := outcome_bind_ok h
    obtain ⟨⟨rest, t1⟩, g3, g4⟩ := outcome_bind_ok g2
    cases g4
    obtain ⟨t', k1, k2⟩ := converse_akin lines h2 (hin hi) (hin hi') g3
    refine ⟨t', ?_, k2⟩
    unfold converse
    rw [← h1, g1]
    simp only [Outcome.bind_ok]
    rw [k1]
    rfl

/-- Two users at two terminals, with the same settings, variables and contents of the database, who enter the same
lines, in whatever way they produce them, get the same answers. -/
theorem C103_same (m : Machine) (ce : CommandExecutor) (e1 e2 e1' e2' : Editor) (h1 : Awaits m ce e1)
    (h2 : Awaits m ce e2) (hq1 : OnItsOwn e1) (hq2 : OnItsOwn e2) (hs : Interchangeable e1.session e2.session)
    (evs1 evs2 : List (Event × TermInfo)) (outs1 outs2 : List StepOut)
    (hr1 : runEvents m ce e1 evs1 = .ok (outs1, e1')) (hr2 : runEvents m ce e2 evs2 = .ok (outs2, e2'))
    (hl : enteredLines m ce e1 evs1 = enteredLines m ce e2 evs2) :
    outs1.filterMap (·.output) = outs2.filterMap (·.output) ∧ Interchangeable e1'.session e2'.session := by
  obtain ⟨s1, a1, b1, _⟩ := session_akin evs1 e1.session h1 hq1 (akin_iff.2 ⟨rfl, rfl, rfl, rfl⟩) rfl hr1
  obtain ⟨s2, a2, b2, _⟩ := session_akin evs2 e2.session h2 hq2 (akin_iff.2 ⟨rfl, rfl, rfl, rfl⟩) rfl hr2
  obtain ⟨s2', a3, b3⟩ := converse_akin _ (akin_iff.2 hs) rfl rfl a1
  rw [hl, a2] at a3
  simp only [Outcome.ok.injEq, Prod.mk.injEq] at a3
  obtain ⟨a3, rfl⟩ := a3
  refine ⟨a3.symm, ?_⟩
  have g1 := akin_iff.1 b1
  have g2 := akin_iff.1 b2
  have g3 := akin_iff.1 b3
  exact ⟨(g1.args.trans g3.args).trans g2.args.symm, (g1.vars.trans g3.vars).trans g2.vars.symm,
    (g1.saved.trans g3.saved).trans g2.saved.symm, (g1.future.trans g3.future).trans g2.future.symm⟩

/-- Enter, and then `n` times Up and Enter, enters the line that is shown `n + 1` times. -/
theorem C103_recall (m : Machine) (ce : CommandExecutor) (mods mods' : Mods) (t t' : TermInfo) (line : Str) :
    ∀ (n : Nat) (e e' : Editor) (outs : List StepOut), Awaits m ce e → Shows e line →
    runEvents m ce e ((Event.key .enter mods, t) ::
      (List.replicate n [(Event.key .up mods', t'), (Event.key .enter mods, t)]).flatten) = .ok (outs, e') →
    enteredLines m ce e ((Event.key .enter mods, t) ::
      (List.replicate n [(Event.key .up mods', t'), (Event.key .enter mods, t)]).flatten) = List.replicate (n + 1) line := by
  intro n
  induction n with
  | zero =>
    intro e e' outs ha hs hr
    obtain ⟨out, e1, h1, h2⟩ := runEvents_cons hr
    rw [enteredLines_enter hs h1]
    simp only [List.replicate_zero, List.flatten_nil]
    cases out.quit <;> rfl
  | succ n ih =>
    intro e e' outs ha hs hr
    obtain ⟨out, e1, h1, h2⟩ := runEvents_cons hr
    rw [enteredLines_enter hs h1]
    have hq : out.quit = false := by
      obtain ⟨d, d', sh, r, rfl, _⟩ := (step_enter_ok (ha.line hs) h1).out
      rfl
    rw [hq] at h2 ⊢
    rcases h2 with ⟨h2, _⟩ | ⟨_, outs1, h3, rfl⟩
    · cases h2
    have ha1 : Awaits m ce e1 := .event ha h1 hq
    rw [List.replicate_succ, List.flatten_cons, List.cons_append, List.cons_append, List.nil_append] at h3 ⊢
    obtain ⟨out2, e2, h4, h5⟩ := runEvents_cons h3
    have hup : runEvents m ce e1 (List.replicate (0 + 1) (Event.key .up mods', t')) = .ok ([out2], e2) := by
      simp only [List.replicate]
      unfold runEvents
      rw [h4]
      simp only [Outcome.bind_ok]
      split
      · rfl
      · rfl
    have hs2 : Shows e2 line := C54_unedited m ce e e1 e2 ha mods mods' t t' out [out2] line hs h1 0 hup line rfl
    rw [enteredLines_other rfl h4]
    rcases h5 with ⟨h5, _⟩ | ⟨hq2, outs2, h6, rfl⟩
    · obtain ⟨⟨l1, ho1⟩, hc1⟩ := ha1.ok
      obtain ⟨_, a, e3, g1, _, _, g2, _⟩ := step_other ho1 hc1 rfl h4
      exfalso
      have := g2.1 h5
      subst this
      unfold handleEvent at g1
      simp only at g1
      split at g1
      · obtain ⟨_, _, g4⟩ := outcome_bind_ok g1
        cases g4
      all_goals cases g1
    · rw [hq2]
      simp only [Bool.false_eq_true, if_false]
      rw [ih e2 e' outs2 (.event ha1 h4 hq2) hs2 h6]
      rfl

/-- A database in which an earlier session recorded two lines, opened. -/
def exSaved : SavedData := match SavedData.openDb (after [.add "2+3".toList, .add "$x=7".toList] newDb) [] with
  | .ok sd => sd
  | _ => ⟨newDb, none, [], []⟩

/-- Recalling, editing, changing one's mind, resizing. -/
def exRecalls : List Event := [.key .up .none, .key .enter .none, .key .up .none, .key .up .none, .key .up .none] ++
  typed "*$x" ++ [.key .enter .none, .key .up .none, .key .down .none, .resize 9, .key .up .none, .key .enter .none,
    .key .up .none, .key .up .none, .key .backspace .none, .key .down .none, .key .enter .none]

/-- The same lines, typed. -/
def exTypes : List Event := typed "$x=7" ++ [.key .enter .none] ++ typed "2+3*$x" ++ [.key .enter .none] ++
  typed "2+3*$x" ++ [.key .enter .none] ++ typed "2+3*$x" ++ [.key .enter .none]

example : Awaits (exMachine true) table (exAfter 80 false [] (some exSaved)) ∧
    OnItsOwn (exAfter 80 false [] (some exSaved)) ∧
    (enteredLines (exMachine true) table (exAfter 80 false [] (some exSaved)) (exRecalls.map (·, ⟨0, 0, 80⟩))) =
      ["$x=7".toList, "2+3*$x".toList, "2+3*$x".toList, "2+3*$x".toList] ∧
    (enteredLines (exMachine true) table (exAfter 80 false [] (some exSaved)) (exTypes.map (·, ⟨0, 0, 20⟩))) =
      ["$x=7".toList, "2+3*$x".toList, "2+3*$x".toList, "2+3*$x".toList] ∧
    (match runEvents (exMachine true) table (exAfter 80 false [] (some exSaved)) (exRecalls.map (·, ⟨0, 0, 80⟩)) with
      | .ok (outs, _) => outs.filterMap (·.output)
      | _ => []) = [.result "7".toList, .result "23".toList, .result "23".toList, .result "23".toList] := by
  refine ⟨exAfter_awaits (by decide +kernel), ?_, by decide +kernel, by decide +kernel, by decide +kernel⟩
  intro sd h
  have hs : (exAfter 80 false [] (some exSaved)).db = some exSaved := by decide +kernel
  rw [hs] at h
  cases h
  decide +kernel

end Bcalc
