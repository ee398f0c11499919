import Verif.Proof.HashOrder
import Verif.Proof.Editor3

/-! # The line editor on two machines that iterate sets in different orders -/

namespace Bcalc
open Spec

/-- Editors that differ at most in how the values of the variables are laid out in memory, each alone at its
database. -/
structure EdSame (e e' : Editor) : Prop where
  args : e.args = e'.args
  inputs : e.inputs = e'.inputs
  cursorPos : e.cursorPos = e'.cursorPos
  scrollOffset : e.scrollOffset = e'.scrollOffset
  startRow : e.startRow = e'.startRow
  startCol : e.startCol = e'.startCol
  cols : e.cols = e'.cols
  inputComplete : e.inputComplete = e'.inputComplete
  vars : ∀ x, e.vars.lookup x = e'.vars.lookup x
  db : OptSame e.db e'.db
  reach : ∀ sd, e.db = some sd → Reachable sd.db

/-- Outcomes correspond. -/
def ORel {α β : Type} (Q : α → β → Prop) : Outcome RuntimeErr α → Outcome RuntimeErr β → Prop
  | .ok a, .ok b => Q a b
  | .err e, .err e' => e = e'
  | .panic k, .panic k' => k = k'
  | .diverge, .diverge => True
  | _, _ => False

theorem ORel.bind {α α' β β' : Type} {Q : α → α' → Prop} {P : β → β' → Prop} {o : Outcome RuntimeErr α}
    {o' : Outcome RuntimeErr α'} {f : α → Outcome RuntimeErr β} {f' : α' → Outcome RuntimeErr β'} (h : ORel Q o o')
    (hf : ∀ a a', Q a a' → ORel P (f a) (f' a')) : ORel P (o >>= f) (o' >>= f') := by
  rcases o with a | e | k | _ <;> rcases o' with a' | e' | k' | _
  all_goals first
    | exact hf _ _ h
    | exact h
    | exact h.elim

theorem ORel.bindSame {α β β' : Type} {P : β → β' → Prop} {o : Outcome RuntimeErr α}
    {f : α → Outcome RuntimeErr β} {f' : α → Outcome RuntimeErr β'}
    (hf : ∀ a, ORel P (f a) (f' a)) : ORel P (o >>= f) (o >>= f') := by
  rcases o with a | e | k | _
  · exact hf a
  · rfl
  · rfl
  · trivial

/-- The same action, corresponding editors. -/
def ActSame {α : Type} (a b : α × Editor) : Prop := a.1 = b.1 ∧ EdSame a.2 b.2

theorem EdSame.mk' {e : Editor} {vars : VariableStore} {db : Option SavedData}
    (hv : ∀ x, e.vars.lookup x = vars.lookup x) (hd : OptSame e.db db)
    (hr : ∀ sd, e.db = some sd → Reachable sd.db) (inputs : InputHistory) (c s : Nat) (cols : Nat) (ic : Bool) :
    EdSame { e with inputs := inputs, cursorPos := c, scrollOffset := s, cols := cols, inputComplete := ic }
      { e with db := db, vars := vars, inputs := inputs, cursorPos := c, scrollOffset := s, cols := cols, inputComplete := ic } :=
  ⟨rfl, rfl, rfl, rfl, rfl, rfl, rfl, rfl, hv, hd, hr⟩

theorem EdSame.form {e e' : Editor} (h : EdSame e e') : e' = { e with db := e'.db, vars := e'.vars } := by
  obtain ⟨h1, h2, h3, h4, h5, h6, h7, h8, _, _, _⟩ := h
  cases e
  cases e'
  simp_all

theorem getPrev_same {a b : SavedData} (h : SdSame a b) :
    a.getPrevInputHistory.1 = b.getPrevInputHistory.1 ∧ SdSame a.getPrevInputHistory.2 b.getPrevInputHistory.2 ∧
      a.getPrevInputHistory.2.db = a.db := by
  unfold SavedData.getPrevInputHistory
  rw [← h.position]
  cases hp : a.position with
  | none => exact ⟨rfl, h, rfl⟩
  | some i =>
    simp only
    obtain ⟨h1, h2⟩ := run_same h (selectInputAndPrev i)
    have h3 : (a.run (selectInputAndPrev i)).2.db = a.db := by
      rw [run_quiet h.left]
      rcases hs : selectInputAndPrev i a.db with ⟨x, db'⟩ | e | k | _
      · have : db' = a.db := readOnly_selectInputAndPrev i _ _ _ hs
        exact this
      · rfl
      · rfl
      · rfl
    generalize a.run (selectInputAndPrev i) = c at h1 h2 h3 ⊢
    generalize b.run (selectInputAndPrev i) = c' at h1 h2 ⊢
    obtain ⟨r, sd1⟩ := c
    obtain ⟨r', sd1'⟩ := c'
    simp only at h1 h2 h3
    subst h1
    rcases r with (_ | ⟨x, p⟩) | e | k | _
    · exact ⟨rfl, ⟨h2.db, rfl, h2.left, h2.right⟩, h3⟩
    · exact ⟨rfl, ⟨h2.db, rfl, h2.left, h2.right⟩, h3⟩
    · exact ⟨rfl, h2, h3⟩
    · exact ⟨rfl, h2, h3⟩
    · exact ⟨rfl, h2, h3⟩

theorem tryEarlier_same (i : InputHistory) {db db' : Option SavedData} (h : OptSame db db')
    (hr : ∀ sd, db = some sd → Reachable sd.db) :
    (i.tryEarlier db).1 = (i.tryEarlier db').1 ∧ (i.tryEarlier db).2.1 = (i.tryEarlier db').2.1 ∧
      OptSame (i.tryEarlier db).2.2 (i.tryEarlier db').2.2 ∧
      ∀ sd, (i.tryEarlier db).2.2 = some sd → Reachable sd.db := by
  unfold InputHistory.tryEarlier
  split
  · split
    · exact ⟨rfl, rfl, h, hr⟩
    · cases db with
      | none =>
        cases db' with
        | none => exact ⟨rfl, rfl, trivial, by simp⟩
        | some _ => exact h.elim
      | some sd =>
        cases db' with
        | none => exact h.elim
        | some sd' =>
          simp only
          obtain ⟨h1, h2, h3⟩ := getPrev_same h
          have hr' := hr sd rfl
          rw [← h3] at hr'
          generalize sd.getPrevInputHistory = c at h1 h2 hr' ⊢
          generalize sd'.getPrevInputHistory = c' at h1 h2 ⊢
          obtain ⟨r, sd1⟩ := c
          obtain ⟨r', sd1'⟩ := c'
          simp only at h1 h2 hr'
          subst h1
          rcases r with (_ | x) | e | k | _ <;>
            exact ⟨rfl, rfl, h2, fun sd hsd => by cases hsd; exact hr'⟩
  · exact ⟨rfl, rfl, h, hr⟩

theorem handleEvent_same {e e' : Editor} (h : EdSame e e') (ev : Event) :
    ORel ActSame (handleEvent e ev) (handleEvent e' ev) := by
  have hf := h.form
  have hv := h.vars
  have hd := h.db
  have hr := h.reach
  clear h
  generalize e'.db = db at hf hd
  generalize e'.vars = vars at hf hv
  subst hf
  have go := EdSame.mk' hv hd hr
  unfold handleEvent
  split
  · unfold handleChar
    split
    · exact ⟨rfl, go _ _ _ _ _⟩
    · split
      · split
        · exact ⟨rfl, go _ _ _ _ _⟩
        · split
          · refine .bindSame fun line => .bindSame fun r => ?_
            cases r <;> exact ⟨rfl, go _ _ _ _ _⟩
          · exact ⟨rfl, go _ _ _ _ _⟩
      · exact .bindSame fun i => ⟨rfl, go _ _ _ _ _⟩
      · exact .bindSame fun i => ⟨rfl, go _ _ _ _ _⟩
      · exact ⟨rfl, go _ _ _ _ _⟩
  · simp only
    split
    · exact ⟨rfl, go _ _ _ _ _⟩
    · exact .bindSame fun i => ⟨rfl, go _ _ _ _ _⟩
  · refine .bindSame fun line => ?_
    simp only
    split
    · exact ⟨rfl, go _ _ _ _ _⟩
    · exact .bindSame fun i => ⟨rfl, go _ _ _ _ _⟩
  · simp only
    obtain ⟨h1, h2, h3, h4⟩ := tryEarlier_same e.inputs hd hr
    generalize e.inputs.tryEarlier e.db = c at h1 h2 h3 h4 ⊢
    generalize e.inputs.tryEarlier db = c' at h1 h2 h3 ⊢
    obtain ⟨r, i1, db1⟩ := c
    obtain ⟨r', i1', db1'⟩ := c'
    simp only at h1 h2 h3 h4
    subst h1 h2
    rcases r with (_ | _) | e | k | _
    · exact ⟨rfl, rfl, rfl, rfl, rfl, rfl, rfl, rfl, rfl, hv, h3, h4⟩
    · exact .bindSame fun line => ⟨rfl, rfl, rfl, rfl, rfl, rfl, rfl, rfl, rfl, hv, h3, h4⟩
    · rfl
    · rfl
    · trivial
  · simp only
    rcases e.inputs.tryLater with ⟨_ | _, i⟩
    · exact ⟨rfl, go _ _ _ _ _⟩
    · exact .bindSame fun line => ⟨rfl, go _ _ _ _ _⟩
  · split
    · exact ⟨rfl, go _ _ _ _ _⟩
    · exact ⟨rfl, go _ _ _ _ _⟩
  · split
    · exact ⟨rfl, go _ _ _ _ _⟩
    · exact .bindSame fun line => ⟨rfl, go _ _ _ _ _⟩
  · exact ⟨rfl, go _ _ _ _ _⟩
  · exact .bindSame fun line => ⟨rfl, go _ _ _ _ _⟩
  · exact ⟨rfl, go _ _ _ _ _⟩
  · exact ⟨rfl, go _ _ _ _ _⟩
  · rfl
  · exact ⟨rfl, go _ _ _ _ _⟩
  · exact ⟨rfl, go _ _ _ _ _⟩

theorem draw_machine {m m' : Machine} (h : SameMachine m m') (e : Editor) : draw m e = draw m' e := by
  obtain ⟨o, f, g, g', rfl, rfl⟩ := h.eq
  rfl

theorem draw_same {m m' : Machine} (hm : SameMachine m m') {e e' : Editor} (h : EdSame e e') :
    ORel ActSame (draw m e) (draw m' e') := by
  rw [draw_machine hm]
  have hf := h.form
  have hv := h.vars
  have hd := h.db
  have hr := h.reach
  clear h
  generalize e'.db = db at hf hd
  generalize e'.vars = vars at hf hv
  subst hf
  have go := EdSame.mk' hv hd hr
  unfold draw
  refine .bindSame fun line => ?_
  simp only
  split
  · have : drawWrapped m' { e with db := db, vars := vars } line = drawWrapped m' e line := rfl
    rw [this]
    exact .bindSame fun d => ⟨rfl, go _ _ _ _ _⟩
  · have : drawScrolled { e with db := db, vars := vars } line = drawScrolled e line := rfl
    rw [this]
    exact .bindSame fun d => ⟨rfl, go _ _ _ _ _⟩

/-- What is shown is the same, up to the order of lines. -/
def ShownSame (a b : Shown) : Prop := a = b ∨ ∃ t t', a = .result t ∧ b = .result t' ∧ SameLines t t'

theorem finishLine_same {m m' : Machine} (hm : SameMachine m m') (ho : HashOk m) (ho' : HashOk m') (ce : CommandExecutor)
    {e e' : Editor} (h : EdSame e e') :
    ORel (fun a b => ShownSame a.1 b.1 ∧ EdSame a.2 b.2) (finishLine m ce e) (finishLine m' ce e') := by
  unfold finishLine
  rw [← h.inputs]
  refine .bindSame fun line => ?_
  simp only
  have ht : Twins e.session e'.session := ⟨h.args, by simp [Editor.session, h.inputs], h.vars, h.db⟩
  obtain ⟨h1, h2⟩ := calculate_same hm ho ho' ce line ht (.inl rfl) h.reach
  have hev := calculate_db m ce line e.session
  have hvs : (calculate m ce line e.session).2.vars.isSome = true := by
    rw [calculate_vars_isSome]
    rfl
  generalize calculate m ce line e.session = c at h1 h2 hev hvs ⊢
  generalize calculate m' ce line e'.session = c' at h1 h2 ⊢
  obtain ⟨r, s⟩ := c
  obtain ⟨r', s'⟩ := c'
  simp only at h1 h2 hev hvs ⊢
  have hed : EdSame { e with args := s.args, db := s.db, inputs := s.inputs.getD e.inputs, vars := s.vars.getD e.vars }
      { e' with args := s'.args, db := s'.db, inputs := s'.inputs.getD e.inputs, vars := s'.vars.getD e'.vars } := by
    refine ⟨h2.args, ?_, h.cursorPos, h.scrollOffset, h.startRow, h.startCol, h.cols, h.inputComplete, ?_, h2.db, ?_⟩
    · simp only
      rw [h2.inputs]
    · simp only
      have hvv := h2.vars
      obtain ⟨vs, hvs⟩ := Option.isSome_iff_exists.1 hvs
      rw [hvs] at hvv ⊢
      cases hvs' : s'.vars with
      | none => rw [hvs'] at hvv; exact hvv.elim
      | some vs' => rw [hvs'] at hvv; exact hvv
    · intro sd hsd
      unfold SessRel at hev
      simp only at hsd
      rw [hsd] at hev
      cases hd : e.session.db with
      | none => rw [hd] at hev; exact hev.elim
      | some sd0 =>
        rw [hd] at hev
        exact (h.reach sd0 hd).evolves (SdRel.db hev)
  rcases h1 with rfl | ⟨_, t, t', rfl, rfl, hl⟩
  · exact .bindSame fun out => ⟨.inl rfl, hed⟩
  · exact ⟨.inr ⟨t, t', rfl, rfl, hl⟩, hed⟩

theorem step_same {m m' : Machine} (hm : SameMachine m m') (ho : HashOk m) (ho' : HashOk m') (ce : CommandExecutor)
    {e e' : Editor} (h : EdSame e e') (ev : Event) (t : TermInfo) :
    ORel (fun a b => SameStep a.1 b.1 ∧ EdSame a.2 b.2) (step m ce e ev t) (step m' ce e' ev t) := by
  unfold step
  refine (handleEvent_same h ev).bind ?_
  rintro ⟨a, e⟩ ⟨a', e'⟩ ⟨h1, h2⟩
  simp only at h1 h2 ⊢
  subst h1
  cases a with
  | ignore => exact ⟨⟨rfl, rfl, .inl rfl⟩, h2⟩
  | quit => exact ⟨⟨rfl, rfl, .inl rfl⟩, h2⟩
  | redraw =>
    refine (draw_same hm h2).bind ?_
    rintro ⟨d, e⟩ ⟨d', e'⟩ ⟨h3, h4⟩
    simp only at h3 h4 ⊢
    subst h3
    rw [← h4.inputComplete]
    split
    · refine (finishLine_same hm ho ho' ce h4).bind ?_
      rintro ⟨o, e⟩ ⟨o', e'⟩ ⟨h5, h6⟩
      simp only at h5 h6 ⊢
      have h7 : EdSame (e.newLine t) (e'.newLine t) :=
        ⟨h6.args, h6.inputs, rfl, rfl, rfl, rfl, rfl, rfl, h6.vars, h6.db, h6.reach⟩
      refine (draw_same hm h7).bind ?_
      rintro ⟨d2, e⟩ ⟨d2', e'⟩ ⟨h8, h9⟩
      simp only at h8 h9
      subst h8
      refine ⟨⟨rfl, rfl, ?_⟩, h9⟩
      rcases h5 with rfl | ⟨t1, t2, rfl, rfl, hl⟩
      · exact .inl rfl
      · exact .inr ⟨t1, t2, rfl, rfl, hl⟩
    · exact ⟨⟨rfl, rfl, .inl rfl⟩, h4⟩

theorem runEvents_same {m m' : Machine} (hm : SameMachine m m') (ho : HashOk m) (ho' : HashOk m') (ce : CommandExecutor) :
    ∀ (evs : List (Event × TermInfo)) {e e' : Editor} (_ : EdSame e e'),
    ORel (fun a b => List.Forall₂ SameStep a.1 b.1 ∧ EdSame a.2 b.2) (runEvents m ce e evs) (runEvents m' ce e' evs)
  | [], e, e', h => ⟨.nil, h⟩
  | (ev, t) :: evs, e, e', h => by
    unfold runEvents
    refine (step_same hm ho ho' ce h ev t).bind ?_
    rintro ⟨o, e⟩ ⟨o', e'⟩ ⟨h1, h2⟩
    simp only at h1 h2 ⊢
    rw [← h1.quit]
    split
    · exact ⟨.cons h1 .nil, h2⟩
    · refine (runEvents_same hm ho ho' ce evs h2).bind ?_
      rintro ⟨os, e⟩ ⟨os', e'⟩ ⟨h3, h4⟩
      exact ⟨.cons h1 h3, h4⟩

end Bcalc
