import Verif.Spec.Control
import Verif.Props.Typing
import Verif.Props.Robust

/-! # C101: never stuck -/

namespace Bcalc
open Spec

theorem edits_append : ∀ (evs evs' : List Event) (b b1 : Buffer), b.edits evs = some b1 →
    b.edits (evs ++ evs') = b1.edits evs'
  | [], _, b, b1, h => by cases h; rfl
  | ev :: evs, evs', b, b1, h => by
    simp only [Buffer.edits, List.cons_append] at h ⊢
    split at h
    · rename_i b2 hb2
      exact edits_append evs evs' b2 b1 h
    · cases h

theorem edits_erase : ∀ (n : Nat) (l : Str), l.length = n →
    (Buffer.mk l []).edits (List.replicate n (.key .backspace .none)) = some .empty
  | 0, l, h => by
    rw [List.length_eq_zero_iff.1 h]; rfl
  | n + 1, l, h => by
    simp only [List.replicate_succ, Buffer.edits, Buffer.edit]
    exact edits_erase n l.dropLast (by rw [List.length_dropLast, h]; rfl)

theorem edits_retype (b : Buffer) (text : Str) (ha : Ascii text) :
    b.edits (retype b.text.length text) = some ⟨text, []⟩ := by
  unfold retype
  simp only [Buffer.edits, Buffer.edit]
  rw [edits_append _ _ _ _ (edits_erase _ b.text rfl), edits_typed text _ ha]
  rfl

theorem holds_split {m : Machine} {ce : CommandExecutor} {e : Editor} (h : Awaits m ce e) {line : Str}
    (hs : Shows e line) : ∃ b, Holds e b ∧ b.text = line := by
  refine ⟨⟨line.take e.cursorPos, line.drop e.cursorPos⟩, ⟨?_, ?_⟩, ?_⟩
  · unfold Buffer.text; simpa using hs
  · simp [(h.line hs).cursor]
  · simp [Buffer.text]

theorem retype_length (n : Nat) (text : Str) : (retype n text).length = n + text.length + 1 := by
  simp [retype]

theorem editing_no_quit {m : Machine} {ce : CommandExecutor} : ∀ {evs : List (Event × TermInfo)} {e e' : Editor}
    {b b' : Buffer} {outs : List StepOut}, Awaits m ce e → Holds e b → b.edits (evs.map (·.1)) = some b' →
    runEvents m ce e evs = .ok (outs, e') → ∀ out ∈ outs, out.quit = false
  | [], e, e', b, b', outs, h, hb, hev, hr => by cases hr; simp
  | (ev, t) :: evs, e, e', b, b', outs, h, hb, hev, hr => by
    simp only [List.map_cons, Buffer.edits] at hev
    split at hev
    · rename_i b1 hb1
      obtain ⟨out, e1, h1, h2⟩ := runEvents_cons hr
      obtain ⟨h3, h4, h5, h6⟩ := C70_key m ce e e1 h b b1 hb ev hb1 t out h1
      rcases h2 with ⟨h2, _⟩ | ⟨_, outs', h7, rfl⟩
      · rw [h6] at h2; cases h2
      · have := editing_no_quit (.event h h1 h6) h3 hev h7
        intro o ho
        rcases List.mem_cons.1 ho with rfl | ho
        · exact h6
        · exact this o ho
    · cases hev

/-- Whatever line is being edited, and wherever the cursor is: the keys `retype` replace it by any ASCII text.
Nothing is printed, and neither settings, variables, database nor other lines change. -/
theorem C101_any_line (m : Machine) (ce : CommandExecutor) (e : Editor) (h : Awaits m ce e) (line : Str)
    (hs : Shows e line) (text : Str) (ha : Ascii text) (t : TermInfo)
    (hw : Wide e t (2 * line.length + text.length + 1)) :
    ∃ outs e', runEvents m ce e ((retype line.length text).map (·, t)) = .ok (outs, e') ∧
      Shows e' text ∧ e'.cursorPos = text.length ∧ SameButLine e e' ∧ Awaits m ce e' ∧
      (∀ out ∈ outs, out.output = none ∧ out.quit = false) ∧ 5 ≤ e'.cols ∧ e'.cols < 65536 := by
  obtain ⟨b, hb, rfl⟩ := holds_split h hs
  have hmap : ((retype b.text.length text).map fun ev => (ev, t)).map (·.1) = retype b.text.length text := by
    rw [List.map_map]; exact List.map_id _
  have hev := edits_retype b text ha
  rw [← hmap] at hev
  have hroom : Roomy 0 ((retype b.text.length text).map fun ev => (ev, t)) := by
    intro p hp
    obtain ⟨ev, hev, rfl⟩ := List.mem_map.1 hp
    refine ⟨hw.next.1, hw.next.2, by simpa using hw.rows.2, ?_⟩
    rintro w rfl
    simp [retype, List.mem_replicate] at hev
  obtain ⟨outs, e', hr, hc⟩ := C70_usable m ce _ e h b _ hb hev hw.now
    (by have := hw.rows.1; rw [List.length_map, retype_length]; omega) hroom
  obtain ⟨h1, h2, h3, h4⟩ := C70_editing m ce _ e e' h b _ hb hev outs hr
  refine ⟨outs, e', hr, ?_, ?_, h3, h1, ?_, hc⟩
  · have := h2.1; unfold Buffer.text at this; simpa using this
  · exact h2.2
  · intro out ho
    refine ⟨h4 out ho, ?_⟩
    exact editing_no_quit h hb hev hr out ho

theorem runEvents_no_quit {m : Machine} {ce : CommandExecutor} : ∀ {evs evs' : List (Event × TermInfo)}
    {e e1 e' : Editor} {outs1 outs2 : List StepOut}, runEvents m ce e evs = .ok (outs1, e1) →
    (∀ out ∈ outs1, out.quit = false) → runEvents m ce e1 evs' = .ok (outs2, e') →
    runEvents m ce e (evs ++ evs') = .ok (outs1 ++ outs2, e')
  | [], evs', e, e1, e', outs1, outs2, hr, hq, hr' => by cases hr; exact hr'
  | (ev, t) :: evs, evs', e, e1, e', outs1, outs2, hr, hq, hr' => by
    obtain ⟨out, e2, h1, h2⟩ := runEvents_cons hr
    rcases h2 with ⟨h2, rfl, _⟩ | ⟨h6, outs', h7, rfl⟩
    · rw [hq out (by simp)] at h2; cases h2
    · have := runEvents_no_quit h7 (fun o ho => hq o (by simp [ho])) hr'
      rw [List.cons_append]
      unfold runEvents
      rw [h1]
      simp only [Outcome.bind_ok, h6]
      rw [this]
      rfl

/-- And Enter then answers it, whatever happened in the session before: at any time, any text without modulus, power
or square root can be entered in place of the line; exactly its answer is printed, with the settings, variables
and database of that time, and a new line begins. -/
theorem C101_answer (m : Machine) (ce : CommandExecutor) (hce : CommandExecutor.new = .ok ce) (e : Editor)
    (h : Underway m ce e) (line : Str) (hs : Shows e line) (text : Str) (ha : Ascii text)
    (hn : ¬ RiskyLine e.args.radix text) (t : TermInfo) (hw : Wide e t (2 * line.length + text.length + 1)) :
    ∃ outs e' answer s, runEvents m ce e ((retype line.length text ++ [Event.key .enter .none]).map (·, t)) = .ok (outs, e') ∧
      outs.filterMap (·.output) = [answer] ∧ shown (calculate m ce text s).1 = .ok answer ∧
      s.args = e.args ∧ s.db = e.db ∧ s.vars = some e.vars ∧
      e'.session = (calculate m ce text s).2 ∧ AtPrompt e' ∧ Underway m ce e' := by
  obtain ⟨outs, e1, hr, h1, h2, h3, h4, h5, h6⟩ := C101_any_line m ce e (underway_inv hce h).1 line hs text ha t hw
  have hu : Underway m ce e1 := underway_run _ h hr (by
    rw [List.all_eq_true]; intro o ho; simp [(h5 o ho).2])
  have hstep := C80_usable m ce hce e1 hu (.key .enter .none) t h6 hw.next hw.rows.2 (by simp) (by simp)
    (fun a e2 line1 g1 g2 => by
      cases g1
      have : Shows e1 line1 := g2
      rw [this.unique h1, h3.row]
      have := hw.rows.1
      omega)
  rcases hstep with ⟨out, e2, g1⟩ | ⟨_, _, hx, _⟩ | ⟨mods, line', _, g2, g3⟩
  · have hE := step_enter_ok (h4.line h1) g1
    obtain ⟨d, d', sh, r, rfl, _, hcl, hsh⟩ := hE.out
    have hrun : runEvents m ce e1 [(.key .enter .none, t)] = .ok ([⟨[d, d'], some sh, false⟩], e2) := by
      unfold runEvents
      rw [g1]
      rfl
    refine ⟨outs ++ [⟨[d, d'], some sh, false⟩], e2, sh, e1.session, ?_, ?_, ?_, h3.args, h3.db, ?_, ?_, ⟨?_, ?_, hE.cursor⟩, .event hu g1 rfl⟩
    · rw [List.map_append]
      exact runEvents_no_quit hr (fun o ho => (h5 o ho).2) hrun
    · have : outs.filterMap (·.output) = [] := by
        rw [List.filterMap_eq_nil_iff]
        exact fun o ho => (h5 o ho).1
      rw [List.filterMap_append, this]
      rfl
    · rw [hcl]; exact hsh
    · change some e1.vars = _; rw [h3.vars]
    · rw [hcl]
    · rw [hE.inputs]; rfl
    · rw [hE.inputs]; rfl
  · cases hx
  · rw [g2.unique h1, h3.args] at g3
    exact absurd g3 hn

/-- In particular there is always a way back to a new line: erase the line and press Enter. -/
theorem C101_prompt (m : Machine) (ce : CommandExecutor) (hce : CommandExecutor.new = .ok ce) (e : Editor)
    (h : Underway m ce e) (line : Str) (hs : Shows e line) (t : TermInfo) (hw : Wide e t (2 * line.length + 1)) :
    ∃ outs e', runEvents m ce e ((retype line.length [] ++ [Event.key .enter .none]).map (·, t)) = .ok (outs, e') ∧
      AtPrompt e' ∧ Underway m ce e' ∧ e'.args = e.args := by
  have hr := (underway_inv hce h).2.1.radix
  obtain ⟨outs, e', answer, s, h1, _, _, h4, _, _, h5, h6, h7⟩ := C101_answer m ce hce e h line hs []
    (by intro c hc; cases hc)
    (riskyLine_not hr.1 hr.2 (ts := []) rfl rfl) t hw
  refine ⟨outs, e', h1, h6, h7, ?_⟩
  have : e'.session.args = s.args := by
    rw [h5]
    rw [new_eq_table hce]
    rcases calculate_args m [] s with h | ⟨_, _, _, _, h, _⟩
    · exact h
    · obtain ⟨name, _, h⟩ := h
      unfold NamedCommand at h
      obtain ⟨_, _, _, h, _⟩ := h
      simp at h
  exact this.trans h4

/-- And out: Ctrl+C ends the program at any time, printing nothing and changing nothing. -/
theorem C101_leave (m : Machine) (ce : CommandExecutor) (e : Editor) (t : TermInfo) :
    runEvents m ce e [(.key (.char 'c') .control, t)] = .ok ([⟨[], none, true⟩], e) := rfl

/-- A session with a database, with the cursor inside a line. -/
example : Underway (exMachine true) table exWithDb ∧ CommandExecutor.new = .ok table ∧
    ∃ line, Shows exWithDb line ∧ Ascii "$x = 2 + 3".toList ∧ ¬ RiskyLine exWithDb.args.radix "$x = 2 + 3".toList ∧
      Wide exWithDb ⟨24, 0, 80⟩ (2 * line.length + "$x = 2 + 3".toList.length + 1) := by
  have hr : exWithDb.args.radix = 10 := by decide +kernel
  rw [hr]
  refine ⟨exAfter_underway (fun sd h => by cases h; exact ⟨_, rfl⟩) (by decide +kernel), new_table,
    match (exWithDb.inputs.currentLine : Outcome RuntimeErr Str) with | .ok l => l | _ => [], ?_, ?_,
    riskyLine_not (by decide) (by decide)
      (ts := (match tokenize "$x = 2 + 3".toList 10 with | .ok (.tokens ts) => ts | _ => []))
      (by decide +kernel) (by decide +kernel),
    ⟨by decide +kernel, by decide, by decide +kernel⟩⟩
  · unfold Shows
    decide +kernel
  · unfold Ascii; decide +kernel

/-- Half-way through a line that cannot be evaluated. -/
example : Underway (exMachine true) table (exAfter 80 false (typed "(1 +" ++ [.key .left .none])) ∧
    Shows (exAfter 80 false (typed "(1 +" ++ [.key .left .none])) "(1 +".toList ∧
    Wide (exAfter 80 false (typed "(1 +" ++ [.key .left .none])) ⟨24, 0, 80⟩ (2 * 4 + 1) ∧
    ((runEvents (exMachine true) table (exAfter 80 false (typed "(1 +" ++ [.key .left .none]))
      ((retype 4 "7/2".toList ++ [Event.key .enter .none]).map (·, ⟨24, 0, 80⟩)) >>= fun (outs, _) =>
        (.ok (outs.filterMap (·.output)) : Outcome RuntimeErr (List Shown))) = .ok [.result "3.5".toList]) :=
  ⟨exAfter_underway (fun sd h => by cases h) (by decide +kernel), by unfold Shows; decide +kernel,
    ⟨by decide +kernel, by decide, by decide +kernel⟩, by decide +kernel⟩

end Bcalc
