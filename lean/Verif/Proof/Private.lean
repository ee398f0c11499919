import Verif.Spec.Private
import Verif.Proof.Session

/-! # Sessions without a database -/

namespace Bcalc

open Spec

theorem insertAtCursor_db {e e' : Editor} {c : Char} {a : Action} (h : insertAtCursor e c = .ok (a, e')) :
    e'.db = e.db := by
  unfold insertAtCursor at h
  obtain ⟨_, _, h⟩ := outcome_bind_ok h
  cases h; rfl

theorem handleEvent_none {e e' : Editor} {ev : Event} {a : Action} (h : handleEvent e ev = .ok (a, e'))
    (hd : e.db = none) : e'.db = none := by
  unfold handleEvent at h
  split at h
  · unfold handleChar at h
    split at h
    · cases h; exact hd
    · split at h
      · split at h
        · cases h; exact hd
        · split at h
          · obtain ⟨_, _, h⟩ := outcome_bind_ok h
            obtain ⟨_, _, h⟩ := outcome_bind_ok h
            split at h <;> cases h <;> exact hd
          · cases h; exact hd
      · rw [insertAtCursor_db h, hd]
      · rw [insertAtCursor_db h, hd]
      · cases h; exact hd
  · split at h
    · cases h; exact hd
    · obtain ⟨_, _, h⟩ := outcome_bind_ok h
      cases h; exact hd
  · obtain ⟨_, _, h⟩ := outcome_bind_ok h
    split at h
    · cases h; exact hd
    · obtain ⟨_, _, h⟩ := outcome_bind_ok h
      cases h; exact hd
  · have hc := tryEarlier_cases e.inputs e.db
    generalize e.inputs.tryEarlier e.db = r at h hc
    rw [hd] at hc
    cases hc with
    | within _ =>
      obtain ⟨_, _, h⟩ := outcome_bind_ok h
      cases h; rfl
    | done _ _ => cases h; rfl
    | missing _ _ => cases h
    | loaded _ _ hs _ => cases hs
    | none _ _ hs _ => cases hs
    | failed _ _ hs _ => cases hs
  · split at h
    · obtain ⟨_, _, h⟩ := outcome_bind_ok h
      cases h; exact hd
    · cases h; exact hd
  · split at h <;> cases h <;> exact hd
  · split at h
    · cases h; exact hd
    · obtain ⟨_, _, h⟩ := outcome_bind_ok h
      cases h; exact hd
  · cases h; exact hd
  · obtain ⟨_, _, h⟩ := outcome_bind_ok h
    cases h; exact hd
  · cases h; exact hd
  · cases h; exact hd
  · cases h
  · cases h; exact hd
  · cases h; exact hd

theorem handleEvent_past {e e' : Editor} {line : Str} (ho : EditorOk e line) {ev : Event} {a : Action}
    (h : handleEvent e ev = .ok (a, e')) (hd : e.db = none) : pastInputs e'.inputs = pastInputs e.inputs := by
  by_cases hu : ∃ mods, ev = .key .up mods
  · obtain ⟨mods, rfl⟩ := hu
    unfold handleEvent at h
    simp only at h
    have hc := tryEarlier_cases e.inputs e.db
    generalize e.inputs.tryEarlier e.db = r at h hc
    rw [hd] at hc
    cases hc with
    | within _ =>
      obtain ⟨_, _, h⟩ := outcome_bind_ok h
      cases h; rfl
    | done _ _ => cases h; rfl
    | missing _ _ => cases h
    | loaded _ _ hs _ => cases hs
    | none _ _ hs _ => cases hs
    | failed _ _ hs _ => cases hs
  · rcases handleEvent_inv ho ev with ⟨err, he⟩ | ⟨a', e1', he, hn⟩
    · rw [h] at he; cases he
    · rw [h] at he; cases he; exact hn.past fun mods hm => hu ⟨mods, hm⟩

/-- Up without a database does not fail. -/
theorem handleEvent_quiet {e : Editor} {line : Str} (ho : EditorOk e line) (hd : e.db = none) {ev : Event}
    {err : DbError} : handleEvent e ev ≠ .err (.db err) := by
  intro h
  by_cases hp : ev = .paste
  · subst hp; cases h
  · obtain ⟨mods, derr, rfl, _⟩ := handleEvent_err ho h hp
    unfold handleEvent at h
    simp only at h
    have hc := tryEarlier_cases e.inputs e.db
    generalize e.inputs.tryEarlier e.db = r at h hc
    rw [hd] at hc
    cases hc with
    | within hlt =>
      simp only at h
      obtain ⟨l, hl⟩ := shows_of (stepEarlier_ok ho.hist hlt)
      rw [hl] at h; cases h
    | done _ _ => cases h
    | missing _ _ => cases h
    | loaded _ _ hs _ => cases hs
    | none _ _ hs _ => cases hs
    | failed _ _ hs _ => cases hs

theorem outcome_bind_err {ε α β : Type} {o : Outcome ε α} {f : α → Outcome ε β} {x : ε}
    (h : (o >>= f) = .err x) : o = .err x ∨ ∃ a, o = .ok a ∧ f a = .err x := by
  cases o with
  | ok a => exact .inr ⟨a, rfl, h⟩
  | err e => cases h; exact .inl rfl
  | panic k => cases h
  | diverge => cases h

theorem toU16_quiet {n : Nat} {err : DbError} : toU16 n ≠ .err (.db err) := by
  unfold toU16 intConversionError
  split <;> intro h <;> cases h

theorem strSlice_quiet {s : Str} {a b : Nat} {err : RuntimeErr} : (strSlice s a b : Outcome RuntimeErr Str) ≠ .err err := by
  unfold strSlice
  split <;> intro h <;> cases h

theorem wrapRows_quiet {w : Str} {n : Nat} {input : Str} {err : RuntimeErr} : ∀ {fuel i : Nat},
    wrapRows w n input fuel i ≠ .err err
  | 0, _ => fun h => by cases h
  | fuel + 1, i => fun h => by
    unfold wrapRows at h
    split at h
    · rcases outcome_bind_err h with h | ⟨_, _, h⟩
      · exact strSlice_quiet h
      · rcases outcome_bind_err h with h | ⟨_, _, h⟩
        · exact wrapRows_quiet h
        · cases h
    · cases h

/-- Drawing has nothing to do with the database. -/
theorem draw_quiet {m : Machine} {e : Editor} {line : Str} (hs : Shows e line) {err : DbError} :
    draw m e ≠ .err (.db err) := by
  intro h
  unfold draw at h
  unfold Shows at hs
  rw [hs] at h
  simp only [bind, Outcome.bind] at h
  split at h
  · rcases outcome_bind_err (o := drawWrapped m e line) h with h | ⟨_, _, h⟩
    · unfold drawWrapped at h
      simp only at h
      split at h
      · cases h
      · split at h
        · cases h
        · rcases outcome_bind_err h with h | ⟨_, _, h⟩
          · exact toU16_quiet h
          · rcases outcome_bind_err h with h | ⟨_, _, h⟩
            · unfold u16Add at h
              split at h
              · cases h
              · split at h <;> cases h
            · rcases outcome_bind_err h with h | ⟨_, _, h⟩
              · exact toU16_quiet h
              · rcases outcome_bind_err h with h | ⟨_, _, h⟩
                · exact strSlice_quiet h
                · rcases outcome_bind_err h with h | ⟨_, _, h⟩
                  · exact wrapRows_quiet h
                  · cases h
    · cases h
  · rcases outcome_bind_err (o := drawScrolled e line) h with h | ⟨_, _, h⟩
    · unfold drawScrolled at h
      simp only at h
      split at h
      · cases h
      · rcases outcome_bind_err h with h | ⟨_, _, h⟩
        · unfold usizeSub at h
          split at h <;> cases h
        · rcases outcome_bind_err h with h | ⟨_, _, h⟩
          · exact toU16_quiet h
          · rcases outcome_bind_err h with h | ⟨_, _, h⟩
            · exact strSlice_quiet h
            · cases h
    · cases h

theorem shown_quiet {r : Outcome Failure Str} {err : RuntimeErr} : shown r ≠ .err err := by
  unfold shown
  split <;> intro h <;> cases h

/-- Without a database the events lead to no error of a database. -/
theorem step_quiet {m : Machine} {ce : CommandExecutor} {e : Editor} {line : Str} (ho : EditorOk e line)
    (hd : e.db = none) {ev : Event} {t : TermInfo} {err : DbError} :
    step m ce e ev t ≠ .err (.db err) := by
  intro h
  unfold step at h
  rcases outcome_bind_err h with h | ⟨⟨a, e1⟩, h1, h⟩
  · exact handleEvent_quiet ho hd h
  · have hn : ∃ line', EditorOk e1 line' := by
      rcases handleEvent_inv ho ev with ⟨err, he⟩ | ⟨a', e1', he, hn⟩
      · rw [h1] at he; cases he
      · rw [h1] at he; cases he; exact hn.ok
    obtain ⟨line1, ho1⟩ := hn
    cases a with
    | ignore => cases h
    | quit => cases h
    | redraw =>
      simp only at h
      rcases outcome_bind_err h with h | ⟨⟨d, e2⟩, h2, h⟩
      · exact draw_quiet ho1.shows h
      · have ho2 := ho1.drawn h2
        simp only at h
        split at h
        · rcases outcome_bind_err h with h | ⟨⟨out, e3⟩, h3, h⟩
          · unfold finishLine at h
            have hs : (e2.inputs.currentLine : Outcome RuntimeErr Str) = .ok line1 := ho2.shows
            rw [hs] at h
            simp only [bind, Outcome.bind] at h
            rcases outcome_bind_err (o := shown _) h with h | ⟨_, _, h⟩
            · exact shown_quiet h
            · cases h
          · simp only at h
            rcases outcome_bind_err h with h | ⟨_, _, h⟩
            · obtain ⟨r, s, vs, hcalc, hsh, hin, hv, hdb, rfl⟩ := finishLine_ok ho2.shows h3
              exact draw_quiet (line := []) (by unfold Shows Editor.newLine; rfl) h
            · cases h
        · cases h

/-- The state of a program that runs without a database. -/
structure Secluded (e : Editor) (lines : List Str) : Prop where
  ok : ∃ line, EditorOk e line
  complete : e.inputComplete = false
  db : e.db = none
  past : pastInputs e.inputs = lines

theorem start_secluded {m : Machine} {args : Args} {db : Option SavedData} {t : TermInfo} {d : Drawing}
    {e : Editor} (hp : args.noDb = true ∨ db = none) (h : Editor.start m args db t = .ok (d, e)) :
    Secluded e [] := by
  have hs := start_ok h
  unfold Editor.start at h
  have hd := draw_ok h
  refine ⟨⟨_, hs.1⟩, hs.2, ?_, ?_⟩
  · rw [hd]
    simp only
    rcases hp with hp | hp
    · rw [hp]; rfl
    · rw [hp]; simp
  · rw [hd]; rfl

theorem step_secluded {m : Machine} {ce : CommandExecutor} {e e' : Editor} {ev : Event} {t : TermInfo}
    {out : StepOut} {lines : List Str} (hs : Secluded e lines) (h : step m ce e ev t = .ok (out, e')) :
    ∃ lines', Secluded e' lines' ∧ ((∀ mods, ev ≠ .key .enter mods) → lines' = lines) ∧
      (∀ mods line, ev = .key .enter mods → Shows e line → lines' = line :: lines) ∧
      ∀ err, out.output ≠ some (.runtimeError err) := by
  obtain ⟨line, ho⟩ := hs.ok
  cases hen : isEnter ev with
  | true =>
    obtain ⟨mods, rfl⟩ := isEnter_iff hen
    have hE := step_enter_ok ho h
    obtain ⟨ho', hc'⟩ := step_inv ho hs.complete h
    refine ⟨line :: lines, ⟨ho', hc', ?_, ?_⟩, fun hx => absurd rfl (hx mods), ?_, ?_⟩
    · have := hE.db
      rw [hs.db] at this
      simpa using this
    · rw [hE.inputs, finished_past, hs.past]
    · intro _ l _ hl
      rw [hl.unique ho.shows]
    · obtain ⟨d, d', sh, r, hout, _, hcalc, hsh⟩ := hE.out
      have hcl : Clean false (calculate m ce line e.session).1 := by
        refine calculate_clean m ce line (recordInput_clean (h := e.inputs) rfl ho.shows ?_) (.inl rfl) ?_
        all_goals
          unfold Editor.session
          rw [hs.db]; rfl
      rw [hcalc] at hcl
      intro err he
      rw [hout] at he
      simp only [Option.some.injEq] at he
      subst he
      simp only at hcl
      rcases r with v | ⟨⟨⟩ | e⟩ | k | _
      · cases hsh
      · cases hsh
      · obtain ⟨hf, _⟩ := hcl _ rfl
        cases hf
      · cases hsh
      · cases hsh
  | false =>
    obtain ⟨hnone, a, e1, h1, hn, ⟨off, rfl⟩, _⟩ := step_other ho hs.complete hen h
    obtain ⟨ho', hc'⟩ := step_inv ho hs.complete h
    refine ⟨lines, ⟨ho', hc', by have := handleEvent_none h1 hs.db; exact this, ?_⟩, fun _ => rfl, ?_, ?_⟩
    · have := handleEvent_past ho h1 hs.db
      rw [← hs.past]; exact this
    · intro mods _ he _
      subst he
      cases hen
    · intro err he
      rw [hnone] at he; cases he

theorem runEvents_secluded {m : Machine} {ce : CommandExecutor} : ∀ (evs : List (Event × TermInfo))
    {e : Editor} {lines : List Str}, Secluded e lines →
    (∀ err, runEvents m ce e evs ≠ .err (.db err)) ∧
    ∀ outs e', runEvents m ce e evs = .ok (outs, e') → e'.db = none ∧
      ∀ out ∈ outs, ∀ err, out.output ≠ some (.runtimeError err)
  | [], e, lines, hs => by
    refine ⟨fun err h => (by cases h), fun outs e' h => ?_⟩
    cases h
    exact ⟨hs.db, fun _ h => by cases h⟩
  | (ev, t) :: rest, e, lines, hs => by
    obtain ⟨line, ho⟩ := hs.ok
    constructor
    · intro err h
      unfold runEvents at h
      rcases outcome_bind_err h with h | ⟨⟨out, e1⟩, h1, h⟩
      · exact step_quiet ho hs.db h
      · obtain ⟨l', hs', _⟩ := step_secluded hs h1
        simp only at h
        split at h
        · cases h
        · rcases outcome_bind_err h with h | ⟨_, _, h⟩
          · exact (runEvents_secluded rest hs').1 err h
          · cases h
    · intro outs e' h
      unfold runEvents at h
      obtain ⟨⟨out, e1⟩, h1, h⟩ := outcome_bind_ok h
      obtain ⟨l', hs', _, _, hq⟩ := step_secluded hs h1
      simp only at h
      split at h
      · cases h
        refine ⟨hs'.db, fun o ho => ?_⟩
        rw [List.mem_singleton] at ho
        subst ho
        exact hq
      · obtain ⟨⟨outs', e2⟩, h2, h⟩ := outcome_bind_ok h
        cases h
        obtain ⟨hd, hq'⟩ := (runEvents_secluded rest hs').2 _ _ h2
        refine ⟨hd, fun o ho => ?_⟩
        rcases List.mem_cons.1 ho with rfl | ho
        · exact hq
        · exact hq' o ho

end Bcalc
