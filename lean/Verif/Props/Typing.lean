import Verif.Spec.Typing
import Verif.Spec.Lexical
import Verif.Props.Editing

/-! # C70, C71: whole lines and whole sessions at the keyboard -/

namespace Bcalc
open Spec

/-! ## C70 Editing composes -/

theorem Spec.SameButLine.refl (e : Editor) : SameButLine e e := ⟨rfl, rfl, rfl, rfl, rfl, fun _ _ => rfl⟩

theorem Spec.SameButLine.trans {e e' e'' : Editor} (h : SameButLine e e') (h' : SameButLine e' e'') :
    SameButLine e e'' where
  args := h'.args.trans h.args
  db := h'.db.trans h.db
  vars := h'.vars.trans h.vars
  row := h'.row.trans h.row
  history := by
    have h1 := h'.history
    have h2 := h.history
    rw [h1]
    conv_lhs => rw [h2]
  others := fun i hi => by
    have : e'.inputs.index = e.inputs.index := by rw [h.history]
    rw [h'.others i (by rw [this]; exact hi), h.others i hi]

theorem Spec.OnlyLine.same {e e' : Editor} (h : OnlyLine e e') : SameButLine e e' := by
  have h1 := h.rest
  exact ⟨by rw [h1], by rw [h1], by rw [h1], by rw [h1], h.history, h.others⟩

theorem onlyCursor_same {e e' : Editor} (h : OnlyCursor e e') : SameButLine e e' ∧ e'.inputs = e.inputs := by
  unfold OnlyCursor at h
  have hi : e'.inputs = e.inputs := by rw [h]
  exact ⟨⟨by rw [h], by rw [h], by rw [h], by rw [h], by rw [hi], fun _ _ => by rw [hi]⟩, hi⟩

theorem Spec.Shows.of_inputs {e e' : Editor} {line : Str} (h : Shows e line) (hi : e'.inputs = e.inputs) :
    Shows e' line := by
  unfold Shows at *
  rw [hi]
  exact h

/-- One editing event. -/
theorem C70_key (m : Machine) (ce : CommandExecutor) (e e' : Editor) (h : Awaits m ce e) (b b' : Buffer)
    (hb : Holds e b) (ev : Event) (hev : b.edit ev = some b') (t : TermInfo) (out : StepOut)
    (hstep : step m ce e ev t = .ok (out, e')) :
    Holds e' b' ∧ SameButLine e e' ∧ out.output = none ∧ out.quit = false := by
  obtain ⟨hs, hc⟩ := hb
  have hlen : b.text.length = b.before.length + b.behind.length := by unfold Buffer.text; simp
  have htake : b.text.take e.cursorPos = b.before := by
    rw [hc]; unfold Buffer.text; simp
  have hdrop : b.text.drop e.cursorPos = b.behind := by
    rw [hc]; unfold Buffer.text; simp
  have ignored : Meaningless ev → b' = b →
      Holds e' b' ∧ SameButLine e e' ∧ out.output = none ∧ out.quit = false := by
    rintro hm rfl
    rw [C61_ignored m ce e ev hm t] at hstep
    cases hstep
    exact ⟨⟨hs, hc⟩, .refl _, rfl, rfl⟩
  have moved : ∀ cur, (∃ d, out = ⟨[d], none, false⟩) ∧ e'.cursorPos = cur ∧ OnlyCursor e e' →
      b'.text = b.text → b'.before.length = cur →
      Holds e' b' ∧ SameButLine e e' ∧ out.output = none ∧ out.quit = false := by
    rintro cur ⟨⟨d, rfl⟩, h1, h2⟩ h3 h4
    obtain ⟨h5, h6⟩ := onlyCursor_same h2
    refine ⟨⟨?_, by rw [h1, h4]⟩, h5, rfl, rfl⟩
    rw [h3]
    exact hs.of_inputs h6
  have inserted : ∀ c : Char, b' = ⟨b.before ++ [c], b.behind⟩ → ((∃ d, out = ⟨[d], none, false⟩) ∧
      Shows e' (b.text.take e.cursorPos ++ c :: b.text.drop e.cursorPos) ∧
      e'.cursorPos = e.cursorPos + 1 ∧ OnlyLine e e') →
      Holds e' b' ∧ SameButLine e e' ∧ out.output = none ∧ out.quit = false := by
    rintro c rfl ⟨⟨d, rfl⟩, h1, h2, h3⟩
    refine ⟨⟨?_, ?_⟩, h3.same, rfl, rfl⟩
    · rw [htake, hdrop] at h1
      unfold Buffer.text
      simpa using h1
    · rw [h2, hc]; simp
  cases ev with
  | paste => cases hev
  | other => cases hev; exact ignored trivial rfl
  | resize w =>
    cases hev
    obtain ⟨⟨d, rfl⟩, h1⟩ := C61_resize m ce e e' h w t out hstep
    have hi : e'.inputs = e.inputs := by rw [h1]
    refine ⟨⟨hs.of_inputs hi, by rw [h1]; exact hc⟩, ⟨by rw [h1], by rw [h1], by rw [h1], by rw [h1], by rw [hi],
      fun _ _ => by rw [hi]⟩, rfl, rfl⟩
  | key code mods =>
    cases code with
    | enter => cases hev
    | up => cases hev
    | down => cases hev
    | other => cases hev; exact ignored trivial rfl
    | home =>
      cases hev
      exact moved 0 (C61_home m ce e e' h mods t out hstep) (by unfold Buffer.text; simp) rfl
    | «end» =>
      cases hev
      exact moved _ (C61_end m ce e e' h mods t out hstep _ hs) (by unfold Buffer.text; simp) rfl
    | backspace =>
      cases hev
      obtain ⟨h0, h1⟩ := C61_backspace m ce e e' h mods t out hstep _ hs
      by_cases hz : e.cursorPos = 0
      · obtain ⟨rfl, rfl⟩ := h0 hz
        have : b.before = [] := List.eq_nil_of_length_eq_zero (by omega)
        refine ⟨⟨?_, ?_⟩, .refl _, rfl, rfl⟩
        · unfold Buffer.text at hs ⊢
          simp only [this, List.dropLast_nil] at hs ⊢
          exact hs
        · simp [this, hz]
      · obtain ⟨⟨d, rfl⟩, h2, h3, h4⟩ := h1 (by omega)
        refine ⟨⟨?_, ?_⟩, h4.same, rfl, rfl⟩
        · rw [hdrop] at h2
          have : b.text.take (e.cursorPos - 1) = b.before.dropLast := by
            rw [hc, List.dropLast_eq_take]
            unfold Buffer.text
            rw [List.take_append_of_le_length (by omega)]
          rw [this] at h2
          exact h2
        · rw [h3, hc]; simp
    | delete =>
      cases hev
      obtain ⟨h0, h1⟩ := C61_delete m ce e e' h mods t out hstep _ hs
      by_cases hz : e.cursorPos = b.text.length
      · obtain ⟨rfl, rfl⟩ := h0 hz
        have : b.behind = [] := List.eq_nil_of_length_eq_zero (by omega)
        refine ⟨⟨?_, hc⟩, .refl _, rfl, rfl⟩
        unfold Buffer.text at hs ⊢
        simp only [this, List.tail_nil] at hs ⊢
        exact hs
      · obtain ⟨⟨d, rfl⟩, h2, h3, h4⟩ := h1 (by omega)
        refine ⟨⟨?_, by rw [h3]; exact hc⟩, h4.same, rfl, rfl⟩
        rw [htake] at h2
        have : b.text.drop (e.cursorPos + 1) = b.behind.tail := by
          rw [← List.drop_drop, hdrop, List.drop_one]
        rw [this] at h2
        exact h2
    | left =>
      by_cases hm : mods = .other
      · subst hm; cases hev; exact ignored trivial rfl
      · have hb' : b' = ⟨b.before.take (b.before.length - arrowDistance mods),
            b.before.drop (b.before.length - arrowDistance mods) ++ b.behind⟩ := by
          cases mods <;> first | exact absurd rfl hm | (cases hev; rfl)
        refine moved _ (C61_left m ce e e' h mods hm t out hstep) ?_ ?_
        · rw [hb']; unfold Buffer.text; simp [← List.append_assoc]
        · rw [hb', hc]; simp
    | right =>
      by_cases hm : mods = .other
      · subst hm; cases hev; exact ignored trivial rfl
      · have hb' : b' = ⟨b.before ++ b.behind.take (arrowDistance mods), b.behind.drop (arrowDistance mods)⟩ := by
          cases mods <;> first | exact absurd rfl hm | (cases hev; rfl)
        refine moved _ (C61_right m ce e e' h mods hm t out hstep _ hs) ?_ ?_
        · rw [hb']; unfold Buffer.text; simp [List.append_assoc]
        · rw [hb', hc, hlen]; simp
    | char c =>
      cases mods with
      | other => cases hev; exact ignored trivial rfl
      | control =>
        change (if c ∈ ['c', 'd', 'z', 'n', 'm'] then none else some b) = some b' at hev
        split at hev
        · cases hev
        · rename_i hn; cases hev; exact ignored hn rfl
      | none =>
        change some (if c.toNat < 128 then (⟨b.before ++ [c], b.behind⟩ : Buffer) else b) = some b' at hev
        split at hev
        · rename_i hn; cases hev
          exact inserted c rfl (C61_type m ce e e' h c hn t out hstep _ hs)
        · rename_i hn; cases hev; exact ignored (Nat.le_of_not_lt hn) rfl
      | shift =>
        change some (if c.toNat < 128 then (⟨b.before ++ [c.toUpper], b.behind⟩ : Buffer) else b) = some b' at hev
        split at hev
        · rename_i hn; cases hev
          exact inserted c.toUpper rfl (C61_type_shift m ce e e' h c hn t out hstep _ hs)
        · rename_i hn; cases hev; exact ignored (Nat.le_of_not_lt hn) rfl

theorem runEvents_cons {m : Machine} {ce : CommandExecutor} {e e' : Editor} {ev : Event} {t : TermInfo}
    {rest : List (Event × TermInfo)} {outs : List StepOut}
    (h : runEvents m ce e ((ev, t) :: rest) = .ok (outs, e')) :
    ∃ out e1, step m ce e ev t = .ok (out, e1) ∧
      ((out.quit = true ∧ outs = [out] ∧ e' = e1) ∨
       (out.quit = false ∧ ∃ outs', runEvents m ce e1 rest = .ok (outs', e') ∧ outs = out :: outs')) := by
  unfold runEvents at h
  obtain ⟨⟨out, e1⟩, h1, h2⟩ := outcome_bind_ok h
  refine ⟨out, e1, h1, ?_⟩
  simp only at h2
  split at h2
  · rename_i hq; cases h2; exact .inl ⟨hq, rfl, rfl⟩
  · rename_i hq
    obtain ⟨⟨outs', e2⟩, h3, h4⟩ := outcome_bind_ok h2
    cases h4
    exact .inr ⟨by simpa using hq, outs', h3, rfl⟩

/-- Any sequence of editing events: the editor does to the line what an ideal one does; nothing is printed
and nothing else changes. -/
theorem C70_editing (m : Machine) (ce : CommandExecutor) : ∀ (evs : List (Event × TermInfo)) (e e' : Editor),
    Awaits m ce e → ∀ (b b' : Buffer), Holds e b → b.edits (evs.map (·.1)) = some b' →
    ∀ outs, runEvents m ce e evs = .ok (outs, e') →
    Awaits m ce e' ∧ Holds e' b' ∧ SameButLine e e' ∧ ∀ out ∈ outs, out.output = none
  | [], e, e', h, b, b', hb, hev, outs, hr => by
    cases hev
    cases hr
    exact ⟨h, hb, .refl _, by simp⟩
  | (ev, t) :: evs, e, e', h, b, b', hb, hev, outs, hr => by
    simp only [List.map_cons, Buffer.edits] at hev
    split at hev
    · rename_i b1 hb1
      obtain ⟨out, e1, h1, h2⟩ := runEvents_cons hr
      obtain ⟨h3, h4, h5, h6⟩ := C70_key m ce e e1 h b b1 hb ev hb1 t out h1
      rcases h2 with ⟨h2, _⟩ | ⟨_, outs', h7, rfl⟩
      · rw [h6] at h2; cases h2
      · obtain ⟨h8, h9, h10, h11⟩ := C70_editing m ce evs e1 e' (.event h h1 h6) b1 b' h3 hev outs' h7
        refine ⟨h8, h9, h4.trans h10, ?_⟩
        intro o ho
        rcases List.mem_cons.1 ho with rfl | ho
        · exact h5
        · exact h11 o ho
    · cases hev

theorem edits_typed : ∀ (text : Str) (b : Buffer), (∀ c ∈ text, c.toNat < 128) →
    b.edits (text.map fun c => .key (.char c) .none) = some ⟨b.before ++ text, b.behind⟩
  | [], b, _ => by simp [Buffer.edits]
  | c :: cs, b, h => by
    simp only [List.map_cons, Buffer.edits, Buffer.edit]
    rw [if_pos (h c (by simp))]
    rw [edits_typed cs _ fun c hc => h c (by simp [hc])]
    simp

/-- Typing a text inserts it at the cursor. -/
theorem C70_text (m : Machine) (ce : CommandExecutor) (e e' : Editor) (h : Awaits m ce e) (line : Str)
    (hs : Shows e line) (text : Str) (ha : Ascii text) (evs : List (Event × TermInfo))
    (hev : evs.map (·.1) = text.map fun c => .key (.char c) .none) (outs : List StepOut)
    (hr : runEvents m ce e evs = .ok (outs, e')) :
    Shows e' (line.take e.cursorPos ++ text ++ line.drop e.cursorPos) ∧
      e'.cursorPos = e.cursorPos + text.length ∧ SameButLine e e' := by
  have hc := (h.line hs).cursor
  have hb : Holds e ⟨line.take e.cursorPos, line.drop e.cursorPos⟩ :=
    ⟨by unfold Buffer.text; simpa using hs, by simp [hc]⟩
  obtain ⟨_, h1, h2, _⟩ := C70_editing m ce evs e e' h _ _ hb
    (by rw [hev]; exact edits_typed text _ ha) outs hr
  refine ⟨h1.1, ?_, h2⟩
  rw [h1.2]
  simp [hc]

theorem edit_length {e e1 : Editor} {line : Str} (ho : EditorOk e line) {b b' : Buffer} {ev : Event} {a : Action}
    (hev : b.edit ev = some b') (h : handleEvent e ev = .ok (a, e1)) :
    e1.inputs.current.length = e.inputs.current.length := by
  have hs : (e.inputs.currentLine : Outcome RuntimeErr Str) = .ok line := ho.shows
  have hins : ∀ c, insertAtCursor e c = .ok (a, e1) → e1.inputs.current.length = e.inputs.current.length := by
    intro c hc
    unfold insertAtCursor at hc
    rw [insertChar_ok ho.hist hs ho.cursor c] at hc
    cases hc
    unfold InputHistory.withLine
    simp
  have hrem : ∀ i {f : InputHistory → Editor}, (∀ x, (f x).inputs = x) →
      (e.inputs.removeChar i >>= fun inputs => (.ok (.redraw, f inputs) : Outcome RuntimeErr (Action × Editor)))
        = .ok (a, e1) → e1.inputs.current.length = e.inputs.current.length := by
    intro i f hf hc
    obtain ⟨x, h1, h2⟩ := outcome_bind_ok hc
    cases h2
    rw [hf]
    by_cases hi : i < line.length
    · rw [removeChar_ok ho.hist hs hi] at h1
      cases h1
      unfold InputHistory.withLine
      simp
    · unfold InputHistory.removeChar at h1
      rw [ensurePopulated_ok ho.hist hs] at h1
      simp only [bind, Outcome.bind] at h1
      unfold InputHistory.editCurrent at h1
      simp only at h1
      rw [vecIndex_of_some (List.getElem?_set_self ho.hist.index)] at h1
      simp only [bind, Outcome.bind] at h1
      unfold stringRemove at h1
      rw [if_neg hi] at h1
      cases h1
  cases ev with
  | paste => cases hev
  | other => cases h; rfl
  | resize w => cases h; rfl
  | key code mods =>
    cases code with
    | enter => cases hev
    | up => cases hev
    | down => cases hev
    | other => cases h; rfl
    | home => cases h; rfl
    | «end» =>
      unfold handleEvent at h
      rw [hs] at h
      cases h; rfl
    | backspace =>
      unfold handleEvent at h
      simp only at h
      split at h
      · cases h; rfl
      · exact hrem _ (fun _ => rfl) h
    | delete =>
      unfold handleEvent at h
      rw [hs] at h
      simp only [Outcome.bind_ok] at h
      split at h
      · cases h; rfl
      · exact hrem _ (fun _ => rfl) h
    | left =>
      unfold handleEvent at h
      cases mods <;> (cases h; rfl)
    | right =>
      unfold handleEvent at h
      rw [hs] at h
      cases mods <;> (cases h; rfl)
    | char c =>
      change handleChar e c mods = _ at h
      unfold handleChar at h
      split at h
      · cases h; rfl
      · cases mods with
        | none => exact hins _ h
        | shift => exact hins _ h
        | other => cases h; rfl
        | control =>
          simp only at h
          change (if c ∈ ['c', 'd', 'z', 'n', 'm'] then none else some b) = some b' at hev
          split at hev
          · cases hev
          · rename_i hn
            simp only [List.mem_cons, List.not_mem_nil, or_false, not_or] at hn
            rw [if_neg (by tauto), if_neg (by tauto)] at h
            cases h; rfl

/-- An editing event adds at most one character to the line. -/
theorem edit_grows {e e1 : Editor} {line line1 : Str} (ho : EditorOk e line) {b b' : Buffer} {ev : Event} {a : Action}
    (hev : b.edit ev = some b') (h : handleEvent e ev = .ok (a, e1)) (hs1 : Shows e1 line1) :
    line1.length ≤ line.length + 1 := by
  have hs : (e.inputs.currentLine : Outcome RuntimeErr Str) = .ok line := ho.shows
  have hself : e1.inputs = e.inputs → line1.length ≤ line.length + 1 := by
    intro hi
    have : Shows e1 line := ho.shows.of_inputs hi
    rw [hs1.unique this]
    omega
  have hins : ∀ c, insertAtCursor e c = .ok (a, e1) → line1.length ≤ line.length + 1 := by
    intro c hc
    unfold insertAtCursor at hc
    rw [insertChar_ok ho.hist hs ho.cursor c] at hc
    cases hc
    have hw : Shows { e with inputs := e.inputs.withLine (line.take e.cursorPos ++ c :: line.drop e.cursorPos) }
      (line.take e.cursorPos ++ c :: line.drop e.cursorPos) := withLine_shows ho.hist _
    have := hs1.unique (hw.of_inputs rfl)
    rw [this]
    simp
    omega
  have hrem : ∀ i {f : InputHistory → Editor}, (∀ x, (f x).inputs = x) →
      (e.inputs.removeChar i >>= fun inputs => (.ok (.redraw, f inputs) : Outcome RuntimeErr (Action × Editor)))
        = .ok (a, e1) → line1.length ≤ line.length + 1 := by
    intro i f hf hc
    obtain ⟨x, h1, h2⟩ := outcome_bind_ok hc
    cases h2
    by_cases hi : i < line.length
    · rw [removeChar_ok ho.hist hs hi] at h1
      cases h1
      have hw : Shows { e with inputs := e.inputs.withLine (line.take i ++ line.drop (i + 1)) }
        (line.take i ++ line.drop (i + 1)) := withLine_shows ho.hist _
      have := hs1.unique (hw.of_inputs (hf _))
      rw [this]
      simp
      omega
    · unfold InputHistory.removeChar at h1
      rw [ensurePopulated_ok ho.hist hs] at h1
      simp only [bind, Outcome.bind] at h1
      unfold InputHistory.editCurrent at h1
      simp only at h1
      rw [vecIndex_of_some (List.getElem?_set_self ho.hist.index)] at h1
      simp only [bind, Outcome.bind] at h1
      unfold stringRemove at h1
      rw [if_neg hi] at h1
      cases h1
  cases ev with
  | paste => cases hev
  | other => cases h; exact hself rfl
  | resize w => cases h; exact hself rfl
  | key code mods =>
    cases code with
    | enter => cases hev
    | up => cases hev
    | down => cases hev
    | other => cases h; exact hself rfl
    | home => cases h; exact hself rfl
    | «end» =>
      unfold handleEvent at h
      rw [hs] at h
      cases h; exact hself rfl
    | backspace =>
      unfold handleEvent at h
      simp only at h
      split at h
      · cases h; exact hself rfl
      · exact hrem _ (fun _ => rfl) h
    | delete =>
      unfold handleEvent at h
      rw [hs] at h
      simp only [Outcome.bind_ok] at h
      split at h
      · cases h; exact hself rfl
      · exact hrem _ (fun _ => rfl) h
    | left =>
      unfold handleEvent at h
      cases mods <;> (cases h; exact hself rfl)
    | right =>
      unfold handleEvent at h
      rw [hs] at h
      cases mods <;> (cases h; exact hself rfl)
    | char c =>
      change handleChar e c mods = _ at h
      unfold handleChar at h
      split at h
      · cases h; exact hself rfl
      · cases mods with
        | none => exact hins _ h
        | shift => exact hins _ h
        | other => cases h; exact hself rfl
        | control =>
          simp only at h
          change (if c ∈ ['c', 'd', 'z', 'n', 'm'] then none else some b) = some b' at hev
          split at hev
          · cases hev
          · rename_i hn
            simp only [List.mem_cons, List.not_mem_nil, or_false, not_or] at hn
            rw [if_neg (by tauto), if_neg (by tauto)] at h
            cases h; exact hself rfl

theorem edit_not_enter {b b' : Buffer} {ev : Event} (h : b.edit ev = some b') : isEnter ev = false := by
  cases hx : isEnter ev with
  | false => rfl
  | true => obtain ⟨mods, rfl⟩ := isEnter_iff hx; cases h

theorem edit_text_length {b b' : Buffer} {ev : Event} (h : b.edit ev = some b') :
    b'.text.length ≤ b.text.length + 1 := by
  cases ev with
  | paste => cases h
  | other => cases h; omega
  | resize w => cases h; omega
  | key code mods =>
    cases code <;> cases mods <;> simp only [Buffer.edit, Option.some.injEq, reduceCtorEq] at h <;>
      first
      | (subst h; simp only [Buffer.text, List.length_append, List.length_take, List.length_drop,
          List.length_dropLast, List.length_tail, List.length_nil]; omega)
      | (subst h; split <;> simp only [Buffer.text, List.length_append, List.length_cons, List.length_nil] <;> omega)
      | (split at h
         · cases h
         · cases h; omega)

theorem edits_length {n : Nat} : ∀ {evs : List (Event × TermInfo)} {b b' : Buffer},
    b.text.length ≤ n → b.edits (evs.map (·.1)) = some b' → b'.text.length ≤ n + evs.length
  | [], b, b', hb, h => by cases h; simpa using hb
  | (ev, t) :: evs, b, b', hb, h => by
    simp only [List.map_cons, Buffer.edits] at h
    split at h
    · rename_i b1 hb1
      have h1 : b1.text.length ≤ b.text.length + 1 := edit_text_length hb1
      have := edits_length (n := n + 1) (by omega) h
      simp only [List.length_cons]
      omega
    · cases h

/-- In a window of at least five columns editing always succeeds. -/
theorem C70_usable (m : Machine) (ce : CommandExecutor) : ∀ (evs : List (Event × TermInfo)) (e : Editor),
    Awaits m ce e → ∀ (b b' : Buffer), Holds e b → b.edits (evs.map (·.1)) = some b' →
    5 ≤ e.cols ∧ e.cols < 65536 → b.text.length + evs.length + e.startRow < 65536 → Roomy 0 evs →
    ∃ outs e', runEvents m ce e evs = .ok (outs, e') ∧ 5 ≤ e'.cols ∧ e'.cols < 65536
  | [], e, h, b, b', hb, hev, hc, hr, hroom => ⟨[], e, rfl, hc⟩
  | (ev, t) :: evs, e, h, b, b', hb, hev, hc, hr, hroom => by
    simp only [List.map_cons, Buffer.edits] at hev
    simp only [List.length_cons] at hr
    split at hev
    · rename_i b1 hb1
      obtain ⟨ht1, ht2, ht3, ht4⟩ := hroom (ev, t) (by simp)
      have hen := edit_not_enter hb1
      have ho := h.line hb.1
      have hu := C53_usable m ce e h ev t hc ⟨ht1, ht2⟩ (by simpa using ht3) ht4
        (by rintro rfl; cases hb1)
        (fun a e1 line1 h1 h2 => by have := edit_grows ho hb1 h1 h2; omega)
      rcases hu with ⟨out, e1, h1⟩ | ⟨mods, err, rfl, _⟩ | ⟨mods, line, rfl, _⟩
      · obtain ⟨h3, h4, h5, h6⟩ := C70_key m ce e e1 h b b1 hb ev hb1 t out h1
        obtain ⟨_, a, e2, h8, hn, ⟨off, h9⟩, _⟩ := step_other ho h.ok.2 hen h1
        have hlen : b1.text.length ≤ b.text.length + 1 := by
          refine edit_grows ho hb1 h8 ?_
          have := h3.1
          rw [h9] at this
          exact this
        have hcols : 5 ≤ e1.cols ∧ e1.cols < 65536 := by
          rw [h9]
          rcases hn.cols with h | h
          · change 5 ≤ e2.cols ∧ e2.cols < 65536
            rw [h]; exact hc
          · exact ht4 _ h
        obtain ⟨outs, e', h10, h11⟩ := C70_usable m ce evs e1 (.event h h1 h6) b1 b' h3 hev hcols
          (by rw [h4.row]; omega) (fun p hp => hroom p (by simp [hp]))
        refine ⟨out :: outs, e', ?_, h11⟩
        unfold runEvents
        rw [h1]
        simp only [Outcome.bind_ok, h6]
        rw [h10]
        rfl
      · cases hb1
      · cases hb1
    · cases hev

theorem editing_length {m : Machine} {ce : CommandExecutor} : ∀ {evs : List (Event × TermInfo)} {e e' : Editor}
    {b b' : Buffer} {outs : List StepOut}, Awaits m ce e → Holds e b → b.edits (evs.map (·.1)) = some b' →
    runEvents m ce e evs = .ok (outs, e') → e'.inputs.current.length = e.inputs.current.length
  | [], e, e', b, b', outs, h, hb, hev, hr => by
    cases hr; rfl
  | (ev, t) :: evs, e, e', b, b', outs, h, hb, hev, hr => by
    simp only [List.map_cons, Buffer.edits] at hev
    split at hev
    · rename_i b1 hb1
      obtain ⟨out, e1, h1, h2⟩ := runEvents_cons hr
      obtain ⟨h3, h4, h5, h6⟩ := C70_key m ce e e1 h b b1 hb ev hb1 t out h1
      rcases h2 with ⟨h2, _⟩ | ⟨_, outs', h7, rfl⟩
      · rw [h6] at h2; cases h2
      · rw [editing_length (.event h h1 h6) h3 hev h7]
        have hen := edit_not_enter hb1
        obtain ⟨_, a, e2, h8, _, ⟨off, h9⟩, _⟩ := step_other (h.line hb.1) h.ok.2 hen h1
        have h10 := edit_length (h.line hb.1) hb1 h8
        rw [h9]
        exact h10
    · cases hev

/-! ## C71 The keyboard is transparent -/

theorem runEvents_append {m : Machine} {ce : CommandExecutor} : ∀ {evs evs' : List (Event × TermInfo)}
    {e e' : Editor} {b b' : Buffer} {outs : List StepOut}, Awaits m ce e → Holds e b →
    b.edits (evs.map (·.1)) = some b' → runEvents m ce e (evs ++ evs') = .ok (outs, e') →
    ∃ e1 outs1 outs2, runEvents m ce e evs = .ok (outs1, e1) ∧ runEvents m ce e1 evs' = .ok (outs2, e') ∧
      outs = outs1 ++ outs2
  | [], evs', e, e', b, b', outs, h, hb, hev, hr => ⟨e, [], outs, rfl, hr, rfl⟩
  | (ev, t) :: evs, evs', e, e', b, b', outs, h, hb, hev, hr => by
    simp only [List.map_cons, Buffer.edits] at hev
    split at hev
    · rename_i b1 hb1
      obtain ⟨out, e1, h1, h2⟩ := runEvents_cons hr
      obtain ⟨h3, h4, h5, h6⟩ := C70_key m ce e e1 h b b1 hb ev hb1 t out h1
      rcases h2 with ⟨h2, _⟩ | ⟨_, outs', h7, rfl⟩
      · rw [h6] at h2; cases h2
      · obtain ⟨e2, o1, o2, h8, h9, rfl⟩ := runEvents_append (.event h h1 h6) h3 hev h7
        refine ⟨e2, out :: o1, o2, ?_, h9, rfl⟩
        unfold runEvents
        rw [h1]
        simp only [Outcome.bind_ok, h6]
        rw [h8]
        rfl
    · cases hev

theorem shows_first {e : Editor} {line : Str} (h : Shows e line) (hi : e.inputs.index = 0) :
    e.inputs.current[0]? = some (some line) := by
  unfold Shows InputHistory.currentLine vecIndex at h
  rw [hi] at h
  cases hx : e.inputs.current[0]? with
  | none => rw [hx] at h; cases h
  | some item =>
    rw [hx] at h
    cases item with
    | none =>
      simp only [Outcome.bind_ok, Nat.zero_le, if_true] at h
      unfold usizeSub at h
      rw [if_pos (Nat.zero_le _)] at h
      simp only [Outcome.bind_ok, Nat.sub_zero] at h
      rw [List.getElem?_eq_none (Nat.le_refl _)] at h
      cases h
    | some l => cases h; rfl

theorem atPrompt_holds {e : Editor} (h : AtPrompt e) : Holds e .empty := by
  obtain ⟨h1, h2, h3⟩ := h
  refine ⟨?_, h3⟩
  unfold Shows InputHistory.currentLine
  rw [h1, h2]
  rfl

/-- The session after typing a line at the prompt. -/
theorem typed_session {m : Machine} {ce : CommandExecutor} {evs : List (Event × TermInfo)} {e e' : Editor}
    {line : Str} {outs : List StepOut} (h : Awaits m ce e) (hp : AtPrompt e) (hk : Keys (evs.map (·.1)) line)
    (hr : runEvents m ce e evs = .ok (outs, e')) :
    Awaits m ce e' ∧ Shows e' line ∧ e'.session = given e.session line ∧ ∀ out ∈ outs, out.output = none := by
  obtain ⟨b, hb, rfl⟩ := hk
  have hh := atPrompt_holds hp
  obtain ⟨h1, h2, h3, h4⟩ := C70_editing m ce evs e e' h _ _ hh hb outs hr
  have hl := editing_length h hh hb hr
  refine ⟨h1, h2.1, ?_, h4⟩
  have hidx : e'.inputs.index = 0 := by rw [h3.history]; exact hp.2.1
  have hf := shows_first h2.1 hidx
  rw [hp.1] at hl
  have hcur : e'.inputs.current = [some b.text] := by
    match hx : e'.inputs.current with
    | [] => rw [hx] at hf; cases hf
    | [x] => rw [hx] at hf; cases hf; rfl
    | _ :: _ :: _ => rw [hx] at hl; simp at hl
  have hi : e'.inputs = { e.inputs with current := [some b.text], index := 0 } := by
    rw [h3.history, hcur]
    rw [← hp.2.1]
  unfold Editor.session given
  simp only [Option.map_some]
  rw [h3.args, h3.db, h3.vars, hi]

/-- A session at the keyboard, whatever keys are used to produce the lines: the answers are those of the
conversation without a terminal, and so is what is remembered. -/
theorem C71_session (m : Machine) (ce : CommandExecutor) (evs : List (Event × TermInfo)) (lines : List Str)
    (ht : Typed evs lines) : ∀ (e e' : Editor), Awaits m ce e → AtPrompt e → ∀ outs,
    runEvents m ce e evs = .ok (outs, e') →
    converse m ce e.session lines = .ok (outs.filterMap (·.output), e'.session) ∧ AtPrompt e' ∧ Awaits m ce e' := by
  induction ht with
  | nil =>
    intro e e' h hp outs hr
    cases hr
    exact ⟨rfl, hp, h⟩
  | @line evs line mods t rest lines hk ht ih =>
    intro e e' h hp outs hr
    obtain ⟨b, hb, hbl⟩ := id hk
    obtain ⟨e1, outs1, outs2, h1, h2, rfl⟩ := runEvents_append h (atPrompt_holds hp) hb hr
    obtain ⟨h3, h4, h5, h6⟩ := typed_session h hp hk h1
    obtain ⟨out, e2, h7, h8⟩ := runEvents_cons h2
    have hE := step_enter_ok (h3.line h4) h7
    obtain ⟨d, d', sh, r, rfl, _, hc, hsh⟩ := hE.out
    rcases h8 with ⟨h8, _⟩ | ⟨_, outs', h9, rfl⟩
    · cases h8
    have hp2 : AtPrompt e2 := by
      refine ⟨?_, ?_, hE.cursor⟩ <;> (rw [hE.inputs]; rfl)
    obtain ⟨h10, h11, h12⟩ := ih e2 e' (.event h3 h7 rfl) hp2 outs' h9
    refine ⟨?_, h11, h12⟩
    unfold converse
    rw [← h5, hc]
    simp only
    rw [hsh]
    simp only [Outcome.bind_ok]
    rw [h10]
    have : outs1.filterMap (·.output) = [] := by
      rw [List.filterMap_eq_nil_iff]
      exact h6
    simp only [Outcome.bind_ok, List.filterMap_append, this, List.nil_append]
    rfl

theorem runEvents_join {m : Machine} {ce : CommandExecutor} : ∀ {evs evs' : List (Event × TermInfo)}
    {e e1 e' : Editor} {b b' : Buffer} {outs1 outs2 : List StepOut}, Awaits m ce e → Holds e b →
    b.edits (evs.map (·.1)) = some b' → runEvents m ce e evs = .ok (outs1, e1) →
    runEvents m ce e1 evs' = .ok (outs2, e') → runEvents m ce e (evs ++ evs') = .ok (outs1 ++ outs2, e')
  | [], evs', e, e1, e', b, b', outs1, outs2, h, hb, hev, hr, hr' => by cases hr; exact hr'
  | (ev, t) :: evs, evs', e, e1, e', b, b', outs1, outs2, h, hb, hev, hr, hr' => by
    simp only [List.map_cons, Buffer.edits] at hev
    split at hev
    · rename_i b1 hb1
      obtain ⟨out, e2, h1, h2⟩ := runEvents_cons hr
      obtain ⟨h3, h4, h5, h6⟩ := C70_key m ce e e2 h b b1 hb ev hb1 t out h1
      rcases h2 with ⟨h2, _⟩ | ⟨_, outs', h7, rfl⟩
      · rw [h6] at h2; cases h2
      · have := runEvents_join (.event h h1 h6) h3 hev h7 hr'
        rw [List.cons_append]
        unfold runEvents
        rw [h1]
        simp only [Outcome.bind_ok, h6]
        rw [this]
        rfl
    · cases hev

/-- And conversely: in a window of at least five columns, a conversation that does not crash the calculator
can be typed; the answers and the session are those of the conversation. -/
theorem C71_complete (m : Machine) (ce : CommandExecutor) (evs : List (Event × TermInfo)) (lines : List Str)
    (ht : Typed evs lines) : ∀ (n : Nat) (e : Editor), Awaits m ce e → AtPrompt e → 5 ≤ e.cols ∧ e.cols < 65536 →
    evs.length ≤ n → n + e.startRow < 65536 → Roomy n evs → ∀ answers s',
    converse m ce e.session lines = .ok (answers, s') →
    ∃ outs e', runEvents m ce e evs = .ok (outs, e') ∧ outs.filterMap (·.output) = answers ∧ e'.session = s' := by
  induction ht with
  | nil =>
    intro n e h hp hc hn hrow hroom answers s' hcv
    cases hcv
    exact ⟨[], e, rfl, rfl, rfl⟩
  | @line evs line mods t rest lines hk ht ih =>
    intro n e h hp hc hn hrow hroom answers s' hcv
    obtain ⟨b, hb, hbl⟩ := id hk
    simp only [List.length_append, List.length_cons] at hn
    have hh := atPrompt_holds hp
    obtain ⟨outs1, e1, h1, hc1⟩ := C70_usable m ce evs e h _ _ hh hb hc
      (by change 0 + _ + _ < _; omega)
      (fun p hpm => by
        obtain ⟨q1, q2, q3, q4⟩ := hroom p (by simp [hpm])
        exact ⟨q1, q2, by omega, q4⟩)
    obtain ⟨h3, h4, h5, h6⟩ := typed_session h hp hk h1
    obtain ⟨_, _, h7, _⟩ := C70_editing m ce evs e e1 h _ _ hh hb outs1 h1
    unfold converse at hcv
    rw [← h5] at hcv
    obtain ⟨answer, ha, hcv⟩ := outcome_bind_ok hcv
    obtain ⟨⟨answers', s''⟩, hcv', hcv⟩ := outcome_bind_ok hcv
    cases hcv
    obtain ⟨q1, q2, q3, q4⟩ := hroom (.key .enter mods, t) (by simp)
    have hlen : line.length ≤ evs.length := by
      rw [← hbl]
      have := edits_length (n := 0) (b := .empty) (Nat.le_refl _) hb
      omega
    have hu := C53_usable m ce e1 h3 (.key .enter mods) t hc1 ⟨q1, q2⟩ (by simp only at q3; omega) q4 (by simp)
      (fun a e2 line1 g1 g2 => by
        cases g1
        have : Shows e1 line1 := g2
        rw [this.unique h4, h7.row]
        omega)
    rcases hu with ⟨out, e2, g1⟩ | ⟨_, _, hx, _⟩ | ⟨mods', line', _, g2, g3⟩
    · have hE := step_enter_ok (h3.line h4) g1
      obtain ⟨d, d', sh, r, rfl, _, hcl, hsh⟩ := hE.out
      rw [hcl] at ha hcv'
      rw [hsh] at ha
      cases ha
      have hp2 : AtPrompt e2 := by
        refine ⟨?_, ?_, hE.cursor⟩ <;> (rw [hE.inputs]; rfl)
      have hA2 : Awaits m ce e2 := .event h3 g1 rfl
      obtain ⟨outs', e', g4, g5, g6⟩ := ih n e2 hA2 hp2 (by rw [hE.place.2.2]; exact ⟨q1, q2⟩) (by omega)
        (by rw [hE.place.1]; exact q3) (fun p hpm => hroom p (by simp [hpm])) _ _ hcv'
      have hrun : runEvents m ce e1 ((.key .enter mods, t) :: rest) = .ok (⟨[d, d'], some answer, false⟩ :: outs', e') := by
        unfold runEvents
        rw [g1]
        simp only [Outcome.bind_ok]
        rw [g4]
        rfl
      refine ⟨_, e', runEvents_join h hh hb h1 hrun, ?_, g6⟩
      have : outs1.filterMap (·.output) = [] := by
        rw [List.filterMap_eq_nil_iff]
        exact h6
      rw [List.filterMap_append, this, List.nil_append, List.filterMap_cons]
      simp only [g5]
    · cases hx
    · have := g2.unique h4
      subst this
      rcases g3 with ⟨k, g3⟩ | g3
      · rw [g3] at ha; cases ha
      · rw [g3] at ha; cases ha

/-- The editor starts at the prompt. -/
theorem C71_start (m : Machine) (ce : CommandExecutor) (args : Args) (db : Option SavedData) (t : TermInfo)
    (d : Drawing) (e : Editor) (h : Editor.start m args db t = .ok (d, e)) :
    AtPrompt e ∧ Awaits m ce e ∧
      e.session = ⟨args, if args.noDb then none else db,
        some (InputHistory.new (if args.noDb then none else db).isSome), some VariableStore.new⟩ := by
  refine ⟨?_, .start h, ?_⟩
  · unfold Editor.start at h
    have := draw_ok h
    rw [this]
    exact ⟨rfl, rfl, rfl⟩
  · unfold Editor.start at h
    have := draw_ok h
    rw [this]
    rfl

/-- A line typed with corrections, an error, and a line that uses the answer; a narrow window. -/
def exTyping : List Event :=
  typed "$x=23" ++ [.key .left .none, .key .backspace .none, .key .home .none, .resize 7, .key .end .none] ++
    typed "4" ++ [.key .enter .none] ++ typed "1/0" ++ [.key .enter .none] ++ typed "$x*$x" ++ [.key .enter .none]

example : Typed (exTyping.map (·, ⟨0, 0, 9⟩)) ["$x=34".toList, "1/0".toList, "$x*$x".toList] := by
  refine .line (evs := (exTyping.take 11).map (·, ⟨0, 0, 9⟩)) ⟨⟨"$x=34".toList, []⟩, by rfl, rfl⟩ ?_
  refine .line (evs := (typed "1/0").map (·, ⟨0, 0, 9⟩)) ⟨⟨"1/0".toList, []⟩, by rfl, rfl⟩ ?_
  exact .line (evs := (typed "$x*$x").map (·, ⟨0, 0, 9⟩)) ⟨⟨"$x*$x".toList, []⟩, by rfl, rfl⟩ .nil

example : Roomy 100 (exTyping.map (·, ⟨0, 0, 9⟩)) := by
  intro p hp
  obtain ⟨ev, hev, rfl⟩ := List.mem_map.1 hp
  refine ⟨Nat.le_of_ble_eq_true rfl, by simp, by simp, ?_⟩
  rintro w rfl
  simp only [exTyping, typed, List.mem_append, List.mem_map, List.mem_cons, reduceCtorEq, and_false, exists_false,
    false_or, or_false, Event.resize.injEq, List.not_mem_nil] at hev
  subst hev
  decide

example : AtPrompt (exAfter 80 false []) ∧ Awaits (exMachine true) table (exAfter 80 false []) ∧
    (match converse (exMachine true) table (exAfter 80 false []).session
        ["$x=34".toList, "1/0".toList, "$x*$x".toList] with
      | .ok (answers, _) => [answers[0]?, answers[2]?]
      | _ => []) = [some (.result "34".toList), some (.result "1156".toList)] :=
  ⟨⟨by decide +kernel, by decide +kernel, by decide +kernel⟩, exAfter_awaits (by decide +kernel), by decide +kernel⟩

example : Holds (exAfter 80 false exKeys) ⟨"1+2*".toList, "4".toList⟩ ∧
    (Buffer.mk "1+2*".toList "4".toList).edits [.key .left .shift, .key .delete .none, .key .backspace .none,
      .key (.char 'a') .shift, .key .end .none] = some ⟨"A+2*4".toList, []⟩ :=
  ⟨⟨by unfold Shows; decide +kernel, by decide +kernel⟩, by rfl⟩

end Bcalc
