import Verif.Proof.Shown
import Verif.Props.Laws
import Verif.Props.Typing

/-! # How numbers are shown (C88) -/

namespace Bcalc
open Spec

/-! ## C88 How numbers are shown never changes what is calculated -/

/-- Two sessions that differ only in how they show numbers (as fractions, with commas, in capitals, in which output
radix) do the same with every line, whatever it is and whatever the database does: they fail in the same way, or both
answer, with the same text, or with the same number, each in its own way, or, when the line asks for a setting, with that
setting; and afterwards database, history, variables and all other settings are the same again. -/
theorem C88_line (m : Machine) (ce : CommandExecutor) (hce : CommandExecutor.new = .ok ce) (line : Str) (s s' : Session)
    (h : SessionButDisplay s s') (hv : ValidSettings s.args) (hv' : ValidSettings s'.args) :
    OutcomeAlike (ReplyAlike s.args s'.args line) (calculate m ce line s).1 (calculate m ce line s').1 ∧
      SessionButDisplay (calculate m ce line s).2 (calculate m ce line s').2 :=
  same_line m (new_eq_table hce) line h hv hv'

/-- The same for whole sessions of lines: the histories do the same between the lines in both. -/
theorem C88_lines (m : Machine) (ce : CommandExecutor) (hce : CommandExecutor.new = .ok ce) (s s' t : Session)
    (talk : List (Str × Outcome Failure Str)) (h : SessionButDisplay s s') (hv : ValidSettings s.args)
    (hv' : ValidSettings s'.args) (hd : Dialogue m ce s talk t) :
    ∃ talk' t', Dialogue m ce s' talk' t' ∧ SessionButDisplay t t' ∧
      List.Forall₂ (fun x y => x.1 = y.1 ∧ ∃ a a', SameButDisplay a a' ∧ OutcomeAlike (ReplyAlike a a' x.1) x.2 y.2)
        talk talk' := by
  induction hd generalizing s' with
  | done => exact ⟨[], s', .done, h, .nil⟩
  | @line s hist line r s1 talk t hcur he hd ih =>
    have hs : SessionButDisplay { s with inputs := some hist } { s' with inputs := some hist } := ⟨h.args, h.db, rfl, h.vars⟩
    obtain ⟨h1, h2⟩ := C88_line m ce hce line _ _ hs hv hv'
    have hw := C62_session m ce hce _ _ (.input (line := line) (.now (s := { s with inputs := some hist }))) hv
    have hw' := C62_session m ce hce _ _ (.input (line := line) (.now (s := { s' with inputs := some hist }))) hv'
    rw [he] at h1 h2 hw
    obtain ⟨talk', t', h3, h4, h5⟩ := ih _ h2 hw hw'
    exact ⟨_, t', .line hcur rfl h3, h4, .cons ⟨rfl, _, _, h.args, h1⟩ h5⟩

/-- The same for the interactive program: the same keys lead to the same drawings of the input line, to outputs that are
alike, to the same failures, and to editors that again differ only in how they show numbers. -/
theorem C88_events (m : Machine) (ce : CommandExecutor) (hce : CommandExecutor.new = .ok ce) (e e' : Editor)
    (events : List (Event × TermInfo)) (h : EditorButDisplay e e') (hv : ValidSettings e.args)
    (hv' : ValidSettings e'.args) :
    OutcomeAlike (fun x y => List.Forall₂ SightButDisplay x.1 y.1 ∧ EditorButDisplay x.2 y.2)
      (runEvents m ce e events) (runEvents m ce e' events) := by
  induction events generalizing e e' with
  | nil => exact .ok ⟨.nil, h⟩
  | cons x events ih =>
    obtain ⟨ev, t⟩ := x
    obtain ⟨h1, h2⟩ := h
    generalize e'.args = a' at h1 h2 hv'
    subst h2
    unfold runEvents
    refine (same_step m (new_eq_table hce) ev t h1 hv hv').bind ?_
    rintro ⟨o, e1⟩ ⟨o', e1'⟩ ⟨⟨h3, h4, h5⟩, ⟨h6, h7, h8⟩, h9⟩
    simp only at h3 h4 h5 h6 h7 h8 h9 ⊢
    have ho : SightButDisplay o o' := ⟨h3, h4, h5.imp id fun ⟨line, t, t', hr⟩ => ⟨_, _, line, t, t', h1, hr⟩⟩
    rw [h4]
    split
    · exact .ok ⟨.cons ho .nil, h6, h9.symm⟩
    · refine (ih _ _ ⟨h6, h9.symm⟩ h7 h8).bind ?_
      rintro ⟨os, e2⟩ ⟨os', e2'⟩ ⟨h10, h11⟩
      exact .ok ⟨.cons ho h10, h11⟩

/-- Started with options that differ only in how numbers are shown, the program awaits its first key in the same way. -/
theorem C88_start (m : Machine) (a a' : Args) (db : Option SavedData) (t : TermInfo) (h : SameButDisplay a a') :
    OutcomeAlike (fun x y => x.1 = y.1 ∧ EditorButDisplay x.2 y.2) (Editor.start m a db t) (Editor.start m a' db t) := by
  unfold Editor.start
  have := same_draw m ⟨a, if a.noDb then none else db, InputHistory.new (if a.noDb then none else db).isSome, VariableStore.new,
    0, 0, t.startRow, t.startCol, t.cols, false⟩ a' h
  rw [← h.noDb]
  refine this.mono ?_
  rintro ⟨d, e⟩ ⟨_, _⟩ ⟨rfl, rfl, h1⟩
  simp only at h1
  exact ⟨rfl, h1 ▸ h, rfl⟩

/-- Settings that show numbers in another way than the usual ones. -/
def exHexArgs : Args := { Args.default with fractional := false, commas := true, upper := true, convertToRadix := some 16 }

/-- A session that knows `$x`, about to read the line. -/
def exShowing (a : Args) (line : String) : Session := ⟨a, none, some { InputHistory.new false with current := [some line.toList] },
  some ⟨[("$x".toList, 2000)]⟩⟩

example : SessionButDisplay (exShowing .default "$y=$x*1000") (exShowing exHexArgs "$y=$x*1000") ∧ ValidSettings Args.default ∧
    ValidSettings exHexArgs ∧
    (calculate (exMachine true) table "$y=$x*1000".toList (exShowing .default "$y=$x*1000")).1 = .ok "2000000".toList ∧
    (calculate (exMachine true) table "$y=$x*1000".toList (exShowing exHexArgs "$y=$x*1000")).1 = .ok "1E8,480".toList :=
  ⟨⟨⟨rfl, rfl, rfl, rfl, rfl⟩, rfl, rfl, rfl⟩, ⟨by decide, by decide, by decide⟩,
    ⟨by decide, fun r h => by cases h; decide, by decide⟩, by decide +kernel, by decide +kernel⟩

/-- A command that shows a setting, and one that changes it. -/
example :
    (calculate (exMachine true) table "/commas".toList (exShowing .default "/commas")).1 = .ok "false".toList ∧
    (calculate (exMachine true) table "/commas".toList (exShowing exHexArgs "/commas")).1 = .ok "true".toList ∧
    (calculate (exMachine true) table "/radix 8".toList (exShowing .default "/radix 8")).2.args.radix = 8 ∧
    (calculate (exMachine true) table "/radix 8".toList (exShowing exHexArgs "/radix 8")).2.args.radix = 8 := by
  decide +kernel

/-- An editor about to read a line. -/
def exEditorWith (a : Args) : Editor :=
  ⟨a, none, { InputHistory.new false with current := [some "$x*3".toList] }, ⟨[("$x".toList, 2000)]⟩, 4, 0, 0, 0, 80, false⟩

/-- Typing into two editors that show numbers differently. -/
example : EditorButDisplay (exEditorWith .default) (exEditorWith exHexArgs) := ⟨⟨rfl, rfl, rfl, rfl, rfl⟩, rfl⟩

end Bcalc
