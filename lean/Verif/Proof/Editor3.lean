import Verif.Proof.Editor2
import Verif.Proof.Paren
import Verif.Proof.Drawing

/-! # The invariant of the editor -/

namespace Bcalc
open Spec

/-- What holds of the editor, whatever happened. -/
structure EditorOk (e : Editor) (line : Str) : Prop where
  hist : HistOk e.inputs
  shows : Shows e line
  cursor : e.cursorPos ≤ line.length
  db : e.inputs.dbExhausted = false → e.db.isSome

theorem EditorOk.at {e : Editor} {line : Str} (h : EditorOk e line) :
    lineAt e.inputs e.inputs.index = some line := (lineAt_shown h.hist).1 h.shows

theorem Spec.Shows.unique {e : Editor} {l l' : Str} (h : Shows e l) (h' : Shows e l') : l = l' := by
  unfold Shows at h h'
  rw [h] at h'
  exact (Outcome.ok.inj h')

theorem shows_of {h : InputHistory} (ho : HistOk h) : ∃ line, (h.currentLine : Outcome RuntimeErr Str) = .ok line := by
  obtain ⟨l, _, hl⟩ := currentLine_eq (ε := RuntimeErr) ho
  exact ⟨l, hl⟩

/-- Up keeps the history in order. -/
theorem tryEarlier_inv {h : InputHistory} {db : Option SavedData} (ho : HistOk h)
    (hdb : h.dbExhausted = false → db.isSome) :
    (∃ err h' db', h.tryEarlier db = (.err (.db err), h', db')) ∨
    ∃ b h' db', h.tryEarlier db = (.ok b, h', db') ∧ HistOk h' ∧ (h'.dbExhausted = false → db'.isSome) := by
  have := tryEarlier_cases h db
  generalize h.tryEarlier db = r at this
  cases this with
  | within hlt => exact .inr ⟨_, _, _, rfl, stepEarlier_ok ho hlt, hdb⟩
  | done _ _ => exact .inr ⟨_, _, _, rfl, ho, hdb⟩
  | missing h1 h2 => have := hdb h1; rw [h2] at this; cases this
  | loaded hge hx hs hg =>
    refine .inr ⟨_, _, _, rfl, stepEarlier_ok (histOk_older ho _) ?_, fun _ => rfl⟩
    have h1 := ho.index
    have h2 := ho.length
    simp
    omega
  | none _ _ _ _ => exact .inr ⟨_, _, _, rfl, ⟨ho.index, ho.length, ho.first⟩, fun _ => rfl⟩
  | failed _ _ _ _ => exact .inl ⟨_, _, _, rfl⟩

theorem tryLater_ok {h : InputHistory} (ho : HistOk h) : HistOk h.tryLater.2 := by
  unfold InputHistory.tryLater
  split
  · exact ho
  · exact ⟨by have := ho.index; simp; omega, ho.length, ho.first⟩

theorem tryLater_exhausted (h : InputHistory) : h.tryLater.2.dbExhausted = h.dbExhausted := by
  unfold InputHistory.tryLater
  split <;> rfl

def isEnter : Event → Bool
  | .key .enter _ => true
  | _ => false

theorem tryLater_past {h h' : InputHistory} {b : Bool} (ht : h.tryLater = (b, h')) :
    pastInputs h' = pastInputs h := by
  unfold InputHistory.tryLater at ht
  split at ht <;> cases ht <;> rfl

/-- What an event leads to. -/
structure Next (e : Editor) (ev : Event) (e' : Editor) : Prop where
  ok : ∃ line', EditorOk e' line'
  complete : e'.inputComplete = (isEnter ev || e.inputComplete)
  args : e'.args = e.args
  vars : e'.vars = e.vars
  cols : e'.cols = e.cols ∨ ev = .resize e'.cols
  row : e'.startRow = e.startRow
  past : (∀ mods, ev ≠ .key .up mods) → pastInputs e'.inputs = pastInputs e.inputs

/-- Events. -/
theorem handleEvent_inv {e : Editor} {line : Str} (ho : EditorOk e line) (ev : Event) :
    (∃ err, handleEvent e ev = .err err) ∨ ∃ a e', handleEvent e ev = .ok (a, e') ∧ Next e ev e' := by
  have hs : (e.inputs.currentLine : Outcome RuntimeErr Str) = .ok line := ho.shows
  have hins : ∀ c, ∃ a e', insertAtCursor e c = .ok (a, e') ∧ Next e .other e' := by
    intro c
    unfold insertAtCursor
    rw [insertChar_ok ho.hist hs ho.cursor c]
    refine ⟨_, _, rfl, ⟨line.take e.cursorPos ++ c :: line.drop e.cursorPos,
      histOk_withLine ho.hist _, withLine_shows ho.hist _, ?_, ho.db⟩, rfl, rfl, rfl, .inl rfl, rfl, fun _ => rfl⟩
    have := ho.cursor
    simp
    omega
  have hsame : ∀ a, ∃ a' e', (.ok (a, e) : Outcome RuntimeErr (Action × Editor)) = .ok (a', e') ∧
      Next e .other e' := fun a => ⟨a, e, rfl, ⟨line, ho⟩, rfl, rfl, rfl, .inl rfl, rfl, fun _ => rfl⟩
  have hmove : ∀ n, n ≤ line.length →
      ∃ a' e', (.ok (.redraw, { e with cursorPos := n }) : Outcome RuntimeErr (Action × Editor)) =
        .ok (a', e') ∧ Next e .other e' := fun n hn =>
    ⟨_, _, rfl, ⟨line, ho.hist, ho.shows, hn, ho.db⟩, rfl, rfl, rfl, .inl rfl, rfl, fun _ => rfl⟩
  have conv : ∀ {ev : Event} {o : Outcome RuntimeErr (Action × Editor)}, isEnter ev = false →
      (∃ a e', o = .ok (a, e') ∧ Next e .other e') → ∃ a e', o = .ok (a, e') ∧ Next e ev e' := by
    rintro ev o hne ⟨a, e', h, hn⟩
    exact ⟨a, e', h, hn.ok, by rw [hn.complete, hne]; rfl, hn.args, hn.vars, .inl (hn.cols.resolve_right (by simp)), hn.row,
      fun _ => hn.past (by simp)⟩
  cases ev with
  | paste => exact .inl ⟨_, rfl⟩
  | resize w =>
    exact .inr ⟨_, _, rfl, ⟨line, ho.hist, ho.shows, ho.cursor, ho.db⟩, rfl, rfl, rfl, .inr rfl, rfl, fun _ => rfl⟩
  | other => exact .inr (hsame _)
  | key code mods =>
    cases code with
    | char c =>
      refine .inr (conv rfl ?_)
      unfold handleEvent handleChar
      simp only
      by_cases hasc : (!isAscii c) = true
      · rw [if_pos hasc]; exact hsame _
      rw [if_neg hasc]
      cases mods with
      | control =>
        simp only
        by_cases hq : c = 'd' ∨ c = 'z' ∨ c = 'c'
        · rw [if_pos hq]; exact hsame _
        rw [if_neg hq]
        by_cases hm : c = 'm' ∨ c = 'n'
        · rw [if_pos hm, hs]
          simp only [bind, Outcome.bind]
          rcases matchingParen_spec line e.cursorPos with ⟨q, hq, hlen, hp⟩ | ⟨hq, _⟩
          · rw [hq]
            refine hmove q ?_
            rcases hp with ⟨_, _, h3, _⟩ | ⟨_, h2, _⟩
            · exact Nat.le_of_lt (List.getElem?_eq_some_iff.1 h3).1
            · exact Nat.le_of_lt (List.getElem?_eq_some_iff.1 h2).1
          · rw [hq]; exact hsame _
        · rw [if_neg hm]; exact hsame _
      | shift => exact hins (charUpper c)
      | none => exact hins c
      | other => exact hsame _
    | backspace =>
      refine .inr (conv rfl ?_)
      unfold handleEvent
      simp only
      by_cases h0 : e.cursorPos = 0
      · rw [if_pos h0]; exact hsame _
      · rw [if_neg h0, removeChar_ok ho.hist hs (by have := ho.cursor; omega)]
        refine ⟨_, _, rfl, ⟨line.take (e.cursorPos - 1) ++ line.drop (e.cursorPos - 1 + 1),
          histOk_withLine ho.hist _, withLine_shows ho.hist _, ?_, ho.db⟩, rfl, rfl, rfl, .inl rfl, rfl, fun _ => rfl⟩
        have := ho.cursor
        simp
        omega
    | delete =>
      refine .inr (conv rfl ?_)
      unfold handleEvent
      rw [hs]
      simp only [bind, Outcome.bind]
      by_cases h0 : e.cursorPos ≥ line.length
      · rw [if_pos h0]; exact hsame _
      · rw [if_neg h0, removeChar_ok ho.hist hs (by omega)]
        refine ⟨_, _, rfl, ⟨line.take e.cursorPos ++ line.drop (e.cursorPos + 1),
          histOk_withLine ho.hist _, withLine_shows ho.hist _, ?_, ho.db⟩, rfl, rfl, rfl, .inl rfl, rfl, fun _ => rfl⟩
        simp
        omega
    | up =>
      unfold handleEvent
      simp only
      rcases tryEarlier_inv ho.hist ho.db with ⟨err, h', db', ht⟩ | ⟨b, h', db', ht, h1, h2⟩
      · rw [ht]; exact .inl ⟨_, rfl⟩
      · rw [ht]
        right
        obtain ⟨line', hl⟩ := shows_of h1
        cases b with
        | true =>
          simp only
          rw [hl]
          exact ⟨_, _, rfl, ⟨line', h1, hl, Nat.le_refl _, h2⟩, rfl, rfl, rfl, .inl rfl, rfl, fun h => absurd rfl (h mods)⟩
        | false =>
          simp only
          refine ⟨_, _, rfl, ⟨line, h1, ?_, ho.cursor, h2⟩, rfl, rfl, rfl, .inl rfl, rfl, fun h => absurd rfl (h mods)⟩
          have := tryEarlier_cases e.inputs e.db
          rw [ht] at this
          cases this with
          | done _ _ => exact ho.shows
          | none _ _ _ _ => exact ho.shows
    | down =>
      refine .inr (conv rfl ?_)
      unfold handleEvent
      simp only
      have h1 := tryLater_ok ho.hist
      have h2 := tryLater_exhausted e.inputs
      rcases ht : e.inputs.tryLater with ⟨b, h'⟩
      rw [ht] at h1 h2
      cases b with
      | true =>
        simp only
        obtain ⟨line', hl⟩ := shows_of h1
        simp only at hl
        rw [hl]
        exact ⟨_, _, rfl, ⟨line', h1, hl, Nat.le_refl _, fun h => ho.db (h2 ▸ h)⟩, rfl, rfl, rfl, .inl rfl, rfl,
          fun _ => tryLater_past ht⟩
      | false =>
        simp only
        unfold InputHistory.tryLater at ht
        split at ht
        · simp only [Prod.mk.injEq, true_and] at ht
          subst ht
          exact hsame _
        · cases ht
    | left =>
      refine .inr (conv rfl ?_)
      unfold handleEvent
      simp only
      cases moveDistance mods with
      | none => exact hsame _
      | some n =>
        refine hmove _ ?_
        have := ho.cursor
        split <;> omega
    | right =>
      refine .inr (conv rfl ?_)
      unfold handleEvent
      simp only
      cases moveDistance mods with
      | none => exact hsame _
      | some n =>
        simp only
        rw [hs]
        refine hmove _ ?_
        split <;> omega
    | home =>
      exact .inr (conv rfl (hmove 0 (by omega)))
    | «end» =>
      refine .inr (conv rfl ?_)
      unfold handleEvent
      rw [hs]
      exact hmove _ (Nat.le_refl _)
    | enter => exact .inr ⟨_, _, rfl, ⟨line, ho.hist, ho.shows, ho.cursor, ho.db⟩, rfl, rfl, rfl, .inl rfl, rfl, fun _ => rfl⟩
    | other => exact .inr (conv rfl (hsame _))

/-- The only errors of events. -/
theorem handleEvent_err {e : Editor} {line : Str} (ho : EditorOk e line) {ev : Event} {err : RuntimeErr}
    (h : handleEvent e ev = .err err) (hp : ev ≠ .paste) :
    ∃ mods derr, ev = .key .up mods ∧ err = .db derr := by
  have hs : (e.inputs.currentLine : Outcome RuntimeErr Str) = .ok line := ho.shows
  have hins : ∀ c, insertAtCursor e c ≠ .err err := by
    intro c hc
    unfold insertAtCursor at hc
    rw [insertChar_ok ho.hist hs ho.cursor c] at hc
    cases hc
  cases ev with
  | paste => exact absurd rfl hp
  | resize w => cases h
  | other => cases h
  | key code mods =>
    cases code with
    | char c =>
      unfold handleEvent handleChar at h
      simp only at h
      by_cases hasc : (!isAscii c) = true
      · rw [if_pos hasc] at h; cases h
      rw [if_neg hasc] at h
      cases mods with
      | control =>
        simp only at h
        by_cases hq : c = 'd' ∨ c = 'z' ∨ c = 'c'
        · rw [if_pos hq] at h; cases h
        rw [if_neg hq] at h
        by_cases hm : c = 'm' ∨ c = 'n'
        · rw [if_pos hm, hs] at h
          simp only [bind, Outcome.bind] at h
          rcases matchingParen_spec line e.cursorPos with ⟨q, hq, hlen, _⟩ | ⟨hq, _⟩
          · rw [hq] at h; cases h
          · rw [hq] at h; cases h
        · rw [if_neg hm] at h; cases h
      | shift => exact absurd h (hins _)
      | none => exact absurd h (hins _)
      | other => cases h
    | backspace =>
      unfold handleEvent at h
      simp only at h
      by_cases h0 : e.cursorPos = 0
      · rw [if_pos h0] at h; cases h
      · rw [if_neg h0, removeChar_ok ho.hist hs (by have := ho.cursor; omega)] at h
        cases h
    | delete =>
      unfold handleEvent at h
      rw [hs] at h
      simp only [bind, Outcome.bind] at h
      by_cases h0 : e.cursorPos ≥ line.length
      · rw [if_pos h0] at h; cases h
      · rw [if_neg h0, removeChar_ok ho.hist hs (by omega)] at h
        cases h
    | up =>
      unfold handleEvent at h
      simp only at h
      rcases tryEarlier_inv ho.hist ho.db with ⟨derr, h', db', ht⟩ | ⟨b, h', db', ht, h1, h2⟩
      · rw [ht] at h; cases h; exact ⟨_, _, rfl, rfl⟩
      · rw [ht] at h
        obtain ⟨line', hl⟩ := shows_of h1
        cases b with
        | true =>
          simp only at h
          rw [hl] at h
          cases h
        | false => cases h
    | down =>
      unfold handleEvent at h
      simp only at h
      have h1 := tryLater_ok ho.hist
      rcases ht : e.inputs.tryLater with ⟨b, h'⟩
      rw [ht] at h1 h
      cases b with
      | true =>
        simp only at h
        obtain ⟨line', hl⟩ := shows_of h1
        simp only at hl
        rw [hl] at h
        cases h
      | false => cases h
    | left =>
      unfold handleEvent at h
      simp only at h
      revert h
      cases moveDistance mods <;> simp
    | right =>
      unfold handleEvent at h
      simp only at h
      revert h
      cases moveDistance mods with
      | none => simp
      | some n => simp only; rw [hs]; simp
    | home => cases h
    | «end» =>
      unfold handleEvent at h
      rw [hs] at h
      cases h
    | enter => cases h
    | other => cases h

theorem EditorOk.drawn {m : Machine} {e e' : Editor} {line : Str} {d : Drawing} (ho : EditorOk e line)
    (h : draw m e = .ok (d, e')) : EditorOk e' line := by
  have := draw_ok h
  rw [this]
  exact ⟨ho.hist, ho.shows, ho.cursor, ho.db⟩

theorem outcome_bind_ok {ε α β : Type} {o : Outcome ε α} {f : α → Outcome ε β} {b : β}
    (h : (o >>= f) = .ok b) : ∃ a, o = .ok a ∧ f a = .ok b := by
  cases o with
  | ok a => exact ⟨a, rfl, h⟩
  | err e => cases h
  | panic k => cases h
  | diverge => cases h

/-- The course of an event. -/
inductive Stepped (m : Machine) (ce : CommandExecutor) (e : Editor) (ev : Event) (t : TermInfo) :
    StepOut → Editor → Prop
  | ignored {e'} : handleEvent e ev = .ok (.ignore, e') → Stepped m ce e ev t ⟨[], none, false⟩ e'
  | quit {e'} : handleEvent e ev = .ok (.quit, e') → Stepped m ce e ev t ⟨[], none, true⟩ e'
  | redrawn {e1 e' d} : handleEvent e ev = .ok (.redraw, e1) → e1.inputComplete = false →
      draw m e1 = .ok (d, e') → Stepped m ce e ev t ⟨[d], none, false⟩ e'
  | entered {e1 e2 e3 e' d d' out} : handleEvent e ev = .ok (.redraw, e1) → e1.inputComplete = true →
      draw m e1 = .ok (d, e2) → finishLine m ce e2 = .ok (out, e3) →
      draw m (e3.newLine t) = .ok (d', e') → Stepped m ce e ev t ⟨[d, d'], some out, false⟩ e'

theorem step_cases {m : Machine} {ce : CommandExecutor} {e e' : Editor} {ev : Event} {t : TermInfo}
    {out : StepOut} (h : step m ce e ev t = .ok (out, e')) : Stepped m ce e ev t out e' := by
  unfold step at h
  obtain ⟨⟨a, e1⟩, h1, h⟩ := outcome_bind_ok h
  cases a with
  | ignore =>
    simp only [Outcome.ok.injEq, Prod.mk.injEq] at h
    rw [← h.1, ← h.2]
    exact .ignored h1
  | quit =>
    simp only [Outcome.ok.injEq, Prod.mk.injEq] at h
    rw [← h.1, ← h.2]
    exact .quit h1
  | redraw =>
    simp only at h
    obtain ⟨⟨d, e2⟩, h2, h⟩ := outcome_bind_ok h
    simp only at h
    have hc : e2.inputComplete = e1.inputComplete := by rw [draw_ok h2]
    cases hb : e2.inputComplete with
    | true =>
      rw [hb, if_pos rfl] at h
      obtain ⟨⟨sh, e3⟩, h3, h⟩ := outcome_bind_ok h
      obtain ⟨⟨d', e4⟩, h4, h⟩ := outcome_bind_ok h
      simp only [Outcome.ok.injEq, Prod.mk.injEq] at h
      rw [← h.1, ← h.2]
      exact .entered h1 (by rw [← hc, hb]) h2 h3 h4
    | false =>
      rw [hb, if_neg (by simp)] at h
      simp only [Outcome.ok.injEq, Prod.mk.injEq] at h
      rw [← h.1, ← h.2]
      exact .redrawn h1 (by rw [← hc, hb]) h2

/-- Evaluating the line. -/
theorem finishLine_ok {m : Machine} {ce : CommandExecutor} {e e' : Editor} {line : Str} {out : Shown}
    (hs : Shows e line) (h : finishLine m ce e = .ok (out, e')) :
    ∃ r s vs, calculate m ce line e.session = (r, s) ∧ shown r = .ok out ∧
      s.inputs = some (e.inputs.finished line) ∧ s.vars = some vs ∧
      s.db.isSome = e.db.isSome ∧
      e' = { e with args := s.args, db := s.db, inputs := e.inputs.finished line, vars := vs } := by
  unfold finishLine at h
  unfold Shows at hs
  rw [hs] at h
  have hi := calculate_inputs m ce line (s := e.session) (h := e.inputs) rfl hs
  have hd := (calculate_db m ce line e.session).isSome
  have hv := calculate_vars_isSome m ce line e.session
  rcases hr : calculate m ce line e.session with ⟨r, s⟩
  rw [hr] at hi hd hv
  simp only [bind, Outcome.bind] at h
  rw [hr] at h
  simp only at h
  obtain ⟨o, h1, h⟩ := outcome_bind_ok (o := shown r) h
  simp only [Outcome.ok.injEq, Prod.mk.injEq] at h
  obtain ⟨vs, hvs⟩ : ∃ vs, s.vars = some vs := Option.isSome_iff_exists.1 hv
  refine ⟨r, s, vs, rfl, by rw [h1, h.1], hi, hvs, hd, ?_⟩
  rw [← h.2, hi, hvs]
  rfl

/-- Pressing Enter. -/
structure EnteredTo (m : Machine) (ce : CommandExecutor) (e : Editor) (t : TermInfo) (line : Str)
    (out : StepOut) (e' : Editor) : Prop where
  out : ∃ d d' sh r, out = ⟨[d, d'], some sh, false⟩ ∧ drawWrapped m { e with inputComplete := true } line = .ok d ∧
    calculate m ce line e.session = (r, e'.session) ∧ shown r = .ok sh
  inputs : e'.inputs = e.inputs.finished line
  db : e'.db.isSome = e.db.isSome
  cursor : e'.cursorPos = 0
  place : e'.startRow = t.startRow ∧ e'.startCol = t.startCol ∧ e'.cols = t.cols
  complete : e'.inputComplete = false

theorem drawn_complete {m : Machine} {e e' : Editor} {line : Str} {d : Drawing} (hs : Shows e line)
    (hc : e.inputComplete = true) (h : draw m e = .ok (d, e')) : drawWrapped m e line = .ok d ∧ e' = e := by
  unfold draw at h
  unfold Shows at hs
  rw [hs] at h
  simp only [bind, Outcome.bind, hc, Bool.or_true, if_true] at h
  cases hd : drawWrapped m e line with
  | ok d' =>
    rw [hd] at h
    simp only [Outcome.ok.injEq, Prod.mk.injEq] at h
    rw [h.1, h.2]; exact ⟨rfl, rfl⟩
  | err e => rw [hd] at h; cases h
  | panic k => rw [hd] at h; cases h
  | diverge => rw [hd] at h; cases h

theorem step_enter {m : Machine} {ce : CommandExecutor} {e e1 e2 e3 e' : Editor} {t : TermInfo}
    {line : Str} {d d' : Drawing} {sh : Shown} (ho : EditorOk e line)
    (he1 : e1 = { e with inputComplete := true })
    (h2 : draw m e1 = .ok (d, e2)) (h3 : finishLine m ce e2 = .ok (sh, e3))
    (h4 : draw m (e3.newLine t) = .ok (d', e')) :
    EnteredTo m ce e t line ⟨[d, d'], some sh, false⟩ e' := by
  subst he1
  have hs1 : Shows { e with inputComplete := true } line := ho.shows
  obtain ⟨hd, rfl⟩ := drawn_complete hs1 rfl h2
  obtain ⟨r, s, vs, hcalc, hsh, hin, hv, hdb, rfl⟩ := finishLine_ok hs1 h3
  have hd' := draw_ok h4
  have hcalc' : calculate m ce line e.session = (r, s) := hcalc
  refine ⟨⟨d, d', sh, r, rfl, hd, ?_, hsh⟩, ?_, ?_, ?_, ⟨?_, ?_, ?_⟩, ?_⟩
  · rw [hcalc']
    congr 1
    rw [hd']
    unfold Editor.session Editor.newLine
    cases s
    simp only at hin hv ⊢
    rw [hin, hv]
  all_goals rw [hd']
  all_goals first | rfl | exact hdb

theorem isEnter_iff {ev : Event} (h : isEnter ev = true) : ∃ mods, ev = .key .enter mods := by
  unfold isEnter at h
  split at h
  · exact ⟨_, rfl⟩
  · cases h

/-- One event, if not Enter: it is handled and the result drawn. -/
theorem step_other {m : Machine} {ce : CommandExecutor} {e e' : Editor} {ev : Event} {t : TermInfo}
    {line : Str} {out : StepOut} (ho : EditorOk e line) (hc : e.inputComplete = false)
    (hne : isEnter ev = false) (h : step m ce e ev t = .ok (out, e')) :
    out.output = none ∧ ∃ a e1, handleEvent e ev = .ok (a, e1) ∧ Next e ev e1 ∧
      (∃ off, e' = { e1 with scrollOffset := off }) ∧ (out.quit = true ↔ a = .quit) ∧
      ((a ≠ .redraw ∧ e' = e1 ∧ out.drawings = []) ∨
        (a = .redraw ∧ ∃ d, out.drawings = [d] ∧ draw m e1 = .ok (d, e'))) := by
  have hinv : ∀ {a e1}, handleEvent e ev = .ok (a, e1) → Next e ev e1 := by
    intro a e1 h1
    rcases handleEvent_inv ho ev with ⟨err, he⟩ | ⟨a', e1', he, hn⟩
    · rw [h1] at he; cases he
    · rw [h1] at he; cases he; exact hn
  cases step_cases h with
  | ignored h1 =>
    exact ⟨rfl, _, _, h1, hinv h1, ⟨_, rfl⟩, by simp, .inl ⟨by simp, rfl, rfl⟩⟩
  | quit h1 =>
    exact ⟨rfl, _, _, h1, hinv h1, ⟨_, rfl⟩, by simp, .inl ⟨by simp, rfl, rfl⟩⟩
  | redrawn h1 h2 h3 =>
    exact ⟨rfl, _, _, h1, hinv h1, ⟨_, draw_ok h3⟩, by simp, .inr ⟨rfl, _, rfl, h3⟩⟩
  | entered h1 h2 h3 h4 h5 =>
    have := (hinv h1).complete
    rw [h2, hne, hc] at this
    cases this

/-- One event, if Enter. -/
theorem step_enter_ok {m : Machine} {ce : CommandExecutor} {e e' : Editor} {mods : Mods} {t : TermInfo}
    {line : Str} {out : StepOut} (ho : EditorOk e line)
    (h : step m ce e (.key .enter mods) t = .ok (out, e')) : EnteredTo m ce e t line out e' := by
  cases step_cases h with
  | ignored h1 => cases h1
  | quit h1 => cases h1
  | redrawn h1 h2 h3 => cases h1; cases h2
  | entered h1 h2 h3 h4 h5 =>
    cases h1
    exact step_enter ho rfl h3 h4 h5

theorem step_inv {m : Machine} {ce : CommandExecutor} {e e' : Editor} {ev : Event} {t : TermInfo}
    {line : Str} {out : StepOut} (ho : EditorOk e line) (hc : e.inputComplete = false)
    (h : step m ce e ev t = .ok (out, e')) : (∃ line', EditorOk e' line') ∧ e'.inputComplete = false := by
  cases hen : isEnter ev with
  | true =>
    obtain ⟨mods, rfl⟩ := isEnter_iff hen
    have hE := step_enter_ok ho h
    refine ⟨⟨[], ?_, ?_, ?_, ?_⟩, hE.complete⟩
    · rw [hE.inputs]; exact histOk_finished _ _
    · unfold Shows; rw [hE.inputs]; rfl
    · rw [hE.cursor]; exact Nat.zero_le _
    · rw [hE.inputs, hE.db]; exact ho.db
  | false =>
    obtain ⟨_, a, e1, h1, hn, ⟨off, rfl⟩, _⟩ := step_other ho hc hen h
    obtain ⟨line', hl⟩ := hn.ok
    exact ⟨⟨line', hl.hist, hl.shows, hl.cursor, hl.db⟩, by have := hn.complete; rw [hen, hc] at this; exact this⟩

theorem start_ok {m : Machine} {args : Args} {db : Option SavedData} {t : TermInfo} {d : Drawing} {e : Editor}
    (h : Editor.start m args db t = .ok (d, e)) : EditorOk e [] ∧ e.inputComplete = false := by
  unfold Editor.start at h
  have := draw_ok h
  rw [this]
  exact ⟨⟨histOk_new _, rfl, Nat.le_refl _, fun h => by simpa [InputHistory.new] using h⟩, rfl⟩

theorem Spec.Awaits.ok {m : Machine} {ce : CommandExecutor} {e : Editor} (h : Awaits m ce e) :
    (∃ line, EditorOk e line) ∧ e.inputComplete = false := by
  induction h with
  | start h => exact ⟨⟨_, (start_ok h).1⟩, (start_ok h).2⟩
  | event _ h _ ih =>
    obtain ⟨⟨line, ho⟩, hc⟩ := ih
    exact step_inv ho hc h

theorem Spec.Awaits.line {m : Machine} {ce : CommandExecutor} {e : Editor} (h : Awaits m ce e) {line : Str}
    (hs : Shows e line) : EditorOk e line := by
  obtain ⟨⟨l, ho⟩, _⟩ := h.ok
  rw [hs.unique ho.shows]
  exact ho

/-! ## Navigation -/

theorem KeepsLines.refl (h : InputHistory) : KeepsLines h h := fun _ _ h => h

theorem past_length (h : InputHistory) : (pastInputs h).length = h.internal.length + h.dbHistory.length := by
  unfold pastInputs; simp

theorem lineAt_beyond {h : InputHistory} (ho : HistOk h) {i : Nat}
    (hi : h.internal.length + h.dbHistory.length < i) : lineAt h i = none := by
  have hl := ho.length
  unfold lineAt
  have : h.current[i]? = none := List.getElem?_eq_none (by omega)
  rw [this]
  simp only
  rw [if_neg (by omega), List.getElem?_eq_none (by rw [past_length]; omega)]

theorem lineAt_within {h : InputHistory} (ho : HistOk h) {i : Nat}
    (hi : i ≤ h.internal.length + h.dbHistory.length) : ∃ l, lineAt h i = some l := by
  unfold lineAt
  by_cases h0 : i = 0
  · subst h0
    obtain ⟨l, hl⟩ := ho.first
    rw [hl]
    exact ⟨l, rfl⟩
  · have hp : ∃ l, (pastInputs h)[i - 1]? = some l :=
      ⟨_, List.getElem?_eq_getElem (by rw [past_length]; omega)⟩
    rcases h.current[i]? with _ | _ | l
    · simp only; rw [if_neg h0]; exact hp
    · simp only; rw [if_neg h0]; exact hp
    · exact ⟨l, rfl⟩

/-- Going up. -/
theorem up_cases {e e1 : Editor} {line : Str} {mods : Mods} {a : Action} (ho : EditorOk e line)
    (h : handleEvent e (.key .up mods) = .ok (a, e1)) :
    (a = .redraw ∧ ∃ line1, e1 = { e with inputs := e1.inputs, db := e1.db, cursorPos := line1.length, scrollOffset := 0 } ∧
      EditorOk e1 line1 ∧ e1.inputs.index = e.inputs.index + 1 ∧ KeepsLines e.inputs e1.inputs ∧
      ((e.inputs.index < (pastInputs e.inputs).length ∧ pastInputs e1.inputs = pastInputs e.inputs ∧ e1.db = e.db) ∨
       (e.inputs.index = (pastInputs e.inputs).length ∧ ∃ older sd sd', e.db = some sd ∧
          sd.getPrevInputHistory = (.ok (some older), sd') ∧ e1.db = some sd' ∧
          pastInputs e1.inputs = pastInputs e.inputs ++ [older]))) ∨
    (a = .ignore ∧ e.inputs.index = (pastInputs e.inputs).length ∧
      e1 = { e with inputs := { e.inputs with dbExhausted := true }, db := e1.db } ∧
      ((e.inputs.dbExhausted = true ∧ e1.db = e.db) ∨ ∃ sd sd', e.db = some sd ∧
        sd.getPrevInputHistory = (.ok none, sd') ∧ e1.db = some sd')) := by
  obtain ⟨line1, ho1⟩ : ∃ line1, EditorOk e1 line1 := by
    rcases handleEvent_inv ho (.key .up mods) with ⟨err, he⟩ | ⟨a', e1', he, hn⟩
    · rw [h] at he; cases he
    · rw [h] at he; cases he; exact hn.ok
  have hi := ho.hist.index
  have hl := ho.hist.length
  unfold handleEvent at h
  simp only at h
  have hc := tryEarlier_cases e.inputs e.db
  generalize e.inputs.tryEarlier e.db = r at h hc
  cases hc with
  | within hlt =>
    simp only at h
    obtain ⟨l, h1, h⟩ := outcome_bind_ok h
    simp only [Outcome.ok.injEq, Prod.mk.injEq] at h
    obtain ⟨rfl, rfl⟩ := h
    have : line1 = l := ho1.shows.unique h1
    subst this
    refine .inl ⟨rfl, line1, rfl, ho1, rfl, ?_, .inl ⟨by rw [past_length]; exact hlt, rfl, rfl⟩⟩
    intro i l hil
    simp only
    rw [stepEarlier_lineAt]
    exact hil
  | done hge hx =>
    simp only [Outcome.ok.injEq, Prod.mk.injEq] at h
    obtain ⟨rfl, rfl⟩ := h
    refine .inr ⟨rfl, by rw [past_length]; omega, ?_, .inl ⟨hx, rfl⟩⟩
    have : { e.inputs with dbExhausted := true } = e.inputs := by
      rw [← hx]
    rw [this]
  | missing _ _ => cases h
  | loaded hge hx hs hg =>
    rename_i sd input sd'
    simp only at h
    obtain ⟨l, h1, h⟩ := outcome_bind_ok h
    simp only [Outcome.ok.injEq, Prod.mk.injEq] at h
    obtain ⟨rfl, rfl⟩ := h
    have : line1 = l := ho1.shows.unique h1
    subst this
    refine .inl ⟨rfl, line1, rfl, ho1, rfl, ?_, .inr ⟨by rw [past_length]; omega, input, sd, sd', hs, hg, rfl, ?_⟩⟩
    · intro i l hil
      simp only
      rw [stepEarlier_lineAt]
      rcases Nat.lt_or_ge (e.inputs.internal.length + e.inputs.dbHistory.length) i with h2 | h2
      · rw [lineAt_beyond ho.hist h2] at hil; cases hil
      · rw [lineAt_older _ h2]; exact hil
    · unfold pastInputs InputHistory.stepEarlier
      simp
  | none hge hx hs hg =>
    simp only [Outcome.ok.injEq, Prod.mk.injEq] at h
    obtain ⟨rfl, rfl⟩ := h
    exact .inr ⟨rfl, by rw [past_length]; omega, rfl, .inr ⟨_, _, hs, hg, rfl⟩⟩
  | failed _ _ _ _ => cases h

/-- Going down. -/
theorem down_cases {e e1 : Editor} {line : Str} {mods : Mods} {a : Action} (ho : EditorOk e line)
    (h : handleEvent e (.key .down mods) = .ok (a, e1)) :
    (a = .ignore ∧ e.inputs.index = 0 ∧ e1 = e) ∨
    (a = .redraw ∧ 0 < e.inputs.index ∧ ∃ line1, EditorOk e1 line1 ∧
      e1 = { e with inputs := { e.inputs with index := e.inputs.index - 1 }, cursorPos := line1.length, scrollOffset := 0 }) := by
  obtain ⟨line1, ho1⟩ : ∃ line1, EditorOk e1 line1 := by
    rcases handleEvent_inv ho (.key .down mods) with ⟨err, he⟩ | ⟨a', e1', he, hn⟩
    · rw [h] at he; cases he
    · rw [h] at he; cases he; exact hn.ok
  unfold handleEvent InputHistory.tryLater at h
  simp only at h
  by_cases h0 : e.inputs.index ≤ 0
  · rw [if_pos h0] at h
    simp only [Outcome.ok.injEq, Prod.mk.injEq] at h
    obtain ⟨rfl, rfl⟩ := h
    exact .inl ⟨rfl, by omega, rfl⟩
  · rw [if_neg h0] at h
    simp only at h
    obtain ⟨l, h1, h⟩ := outcome_bind_ok h
    simp only [Outcome.ok.injEq, Prod.mk.injEq] at h
    obtain ⟨rfl, rfl⟩ := h
    have : line1 = l := ho1.shows.unique h1
    subst this
    exact .inr ⟨rfl, by omega, line1, ho1, rfl⟩

end Bcalc
