import Verif.Spec.Editor
import Verif.Proof.SessionVars

/-! # The input history and the editor -/

namespace Bcalc
open Spec

/-- What holds of an input history. -/
structure HistOk (h : InputHistory) : Prop where
  index : h.index < h.current.length
  length : h.current.length ≤ h.internal.length + h.dbHistory.length + 1
  first : ∃ l, h.current[0]? = some (some l)

theorem histOk_new (b : Bool) : HistOk (InputHistory.new b) :=
  ⟨by simp [InputHistory.new], by simp [InputHistory.new], [], rfl⟩

theorem vecIndex_of_some {ε α : Type} {l : List α} {i : Nat} {a : α} (h : l[i]? = some a) :
    (vecIndex l i : Outcome ε α) = .ok a := by
  unfold vecIndex; rw [h]

/-- What is shown is the line at the place. -/
theorem currentLine_eq {ε : Type} {h : InputHistory} (ho : HistOk h) :
    ∃ line, lineAt h h.index = some line ∧ (h.currentLine : Outcome ε Str) = .ok line := by
  obtain ⟨a, ha⟩ : ∃ a, h.current[h.index]? = some a := ⟨_, List.getElem?_eq_getElem ho.index⟩
  unfold InputHistory.currentLine lineAt
  rw [vecIndex_of_some ha, ha]
  cases a with
  | some l => exact ⟨l, rfl, rfl⟩
  | none =>
    have h0 : h.index ≠ 0 := by
      intro h0
      obtain ⟨l, hl⟩ := ho.first
      rw [h0, hl] at ha
      cases ha
    have hi := ho.index
    have hl := ho.length
    simp only [bind, Outcome.bind]
    rw [if_neg h0]
    unfold pastInputs
    by_cases hle : h.index ≤ h.internal.length
    · rw [if_pos hle, List.getElem?_append_left (by simp; omega), List.getElem?_reverse (by omega)]
      unfold usizeSub
      rw [if_pos hle]
      simp only
      have : h.internal.length - 1 - (h.index - 1) = h.internal.length - h.index := by omega
      rw [this]
      have hlt : h.internal.length - h.index < h.internal.length := by omega
      exact ⟨h.internal[h.internal.length - h.index], List.getElem?_eq_getElem hlt,
        vecIndex_of_some (List.getElem?_eq_getElem hlt)⟩
    · rw [if_neg hle, List.getElem?_append_right (by simp; omega)]
      unfold usizeSub
      rw [if_pos (by omega)]
      simp only
      rw [if_pos (by omega)]
      simp only [List.length_reverse]
      have : h.index - 1 - h.internal.length = h.index - h.internal.length - 1 := by omega
      rw [this]
      have hlt : h.index - h.internal.length - 1 < h.dbHistory.length := by omega
      exact ⟨h.dbHistory[h.index - h.internal.length - 1], List.getElem?_eq_getElem hlt,
        vecIndex_of_some (List.getElem?_eq_getElem hlt)⟩

theorem currentLine_ok {ε : Type} {h : InputHistory} {line : Str}
    (hc : (h.currentLine : Outcome RuntimeErr Str) = .ok line) :
    (h.currentLine : Outcome ε Str) = .ok line := by
  unfold InputHistory.currentLine at hc ⊢
  unfold vecIndex usizeSub at *
  cases hx : h.current[h.index]? with
  | none => rw [hx] at hc; cases hc
  | some a =>
    rw [hx] at hc
    cases a with
    | some l =>
      simp only [bind, Outcome.bind, Outcome.ok.injEq] at hc ⊢
      exact hc
    | none =>
      simp only [bind, Outcome.bind] at hc ⊢
      by_cases hle : h.index ≤ h.internal.length
      · rw [if_pos hle] at hc ⊢
        rw [if_pos hle] at hc ⊢
        simp only at hc ⊢
        cases hy : h.internal[h.internal.length - h.index]? with
        | none => rw [hy] at hc; cases hc
        | some l => rw [hy] at hc; simpa using hc
      · rw [if_neg hle] at hc ⊢
        rw [if_pos (by omega)] at hc ⊢
        simp only at hc ⊢
        rw [if_pos (by omega)] at hc ⊢
        simp only at hc ⊢
        cases hy : h.dbHistory[h.index - h.internal.length - 1]? with
        | none => rw [hy] at hc; cases hc
        | some l => rw [hy] at hc; simpa using hc

theorem lineAt_shown {h : InputHistory} (ho : HistOk h) {line : Str} :
    (h.currentLine : Outcome RuntimeErr Str) = .ok line ↔ lineAt h h.index = some line := by
  obtain ⟨l, h1, h2⟩ := currentLine_eq (ε := RuntimeErr) ho
  rw [h1, h2]
  simp

/-! ## Navigation -/

theorem stepEarlier_ok {h : InputHistory} (ho : HistOk h)
    (hlt : h.index < h.internal.length + h.dbHistory.length) : HistOk h.stepEarlier := by
  obtain ⟨l, hl⟩ := ho.first
  have hi := ho.index
  have hlen := ho.length
  unfold InputHistory.stepEarlier
  refine ⟨?_, ?_, l, ?_⟩
  · simp only
    split
    · simp; omega
    · omega
  · simp only
    split
    · simp; omega
    · omega
  · simp only
    split
    · rw [List.getElem?_append_left (by omega)]; exact hl
    · exact hl

/-- Going up adds no changes to any line. -/
theorem stepEarlier_lineAt {h : InputHistory} (i : Nat) : lineAt h.stepEarlier i = lineAt h i := by
  unfold lineAt InputHistory.stepEarlier pastInputs
  simp only
  by_cases hc : h.index + 1 ≥ h.current.length
  · rw [if_pos hc]
    by_cases hi : i < h.current.length
    · rw [List.getElem?_append_left hi]
    · have : h.current[i]? = none := List.getElem?_eq_none (by omega)
      rw [this]
      rcases Nat.lt_or_ge i (h.current.length + 1) with h1 | h1
      · have : i = h.current.length := by omega
        subst this
        simp
      · rw [List.getElem?_eq_none (l := h.current ++ [none]) (by simp; omega)]
  · rw [if_neg hc]

theorem lineAt_older {h : InputHistory} (input : Str) {i : Nat}
    (hi : i ≤ h.internal.length + h.dbHistory.length) :
    lineAt { h with dbHistory := h.dbHistory ++ [input] } i = lineAt h i := by
  unfold lineAt pastInputs
  simp only
  cases h.current[i]? with
  | none =>
    simp only
    by_cases h0 : i = 0
    · rw [if_pos h0, if_pos h0]
    · rw [if_neg h0, if_neg h0, ← List.append_assoc, List.getElem?_append_left (by simp; omega)]
  | some o =>
    cases o with
    | some l => rfl
    | none =>
      simp only
      by_cases h0 : i = 0
      · rw [if_pos h0, if_pos h0]
      · rw [if_neg h0, if_neg h0, ← List.append_assoc, List.getElem?_append_left (by simp; omega)]

theorem histOk_older {h : InputHistory} (ho : HistOk h) (input : Str) :
    HistOk { h with dbHistory := h.dbHistory ++ [input] } :=
  ⟨ho.index, by have := ho.length; simp; omega, ho.first⟩

/-- What going up does. -/
inductive WentUp (h : InputHistory) (db : Option SavedData) :
    Outcome RuntimeErr Bool × InputHistory × Option SavedData → Prop
  | within : h.index < h.internal.length + h.dbHistory.length →
      WentUp h db (.ok true, h.stepEarlier, db)
  | done : h.internal.length + h.dbHistory.length ≤ h.index → h.dbExhausted = true →
      WentUp h db (.ok false, h, db)
  | missing : h.dbExhausted = false → db = none →
      WentUp h db (.err (.internal earlierMissingDbMsg), h, none)
  | loaded {sd input sd'} : h.internal.length + h.dbHistory.length ≤ h.index → h.dbExhausted = false →
      db = some sd → sd.getPrevInputHistory = (.ok (some input), sd') →
      WentUp h db (.ok true, { h with dbHistory := h.dbHistory ++ [input] }.stepEarlier, some sd')
  | none {sd sd'} : h.internal.length + h.dbHistory.length ≤ h.index → h.dbExhausted = false →
      db = some sd → sd.getPrevInputHistory = (.ok none, sd') →
      WentUp h db (.ok false, { h with dbExhausted := true }, some sd')
  | failed {sd e sd'} : h.internal.length + h.dbHistory.length ≤ h.index → h.dbExhausted = false →
      db = some sd → sd.getPrevInputHistory = (.err e, sd') →
      WentUp h db (.err (.db e), h, some sd')

theorem getPrev_no_panic (sd : SavedData) :
    (∃ o sd', sd.getPrevInputHistory = (.ok o, sd')) ∨ ∃ e sd', sd.getPrevInputHistory = (.err e, sd') := by
  unfold SavedData.getPrevInputHistory
  cases sd.position with
  | none => exact .inl ⟨_, _, rfl⟩
  | some i =>
    simp only
    unfold SavedData.run
    simp only
    split
    · rename_i heq
      split at heq
      · cases heq
      · split at heq <;> cases heq
        exact .inl ⟨_, _, rfl⟩
    · rename_i heq
      split at heq
      · cases heq
      · split at heq <;> cases heq
        exact .inl ⟨_, _, rfl⟩
    · exact .inr ⟨_, _, rfl⟩
    · rename_i heq
      split at heq
      · cases heq
      · unfold selectInputAndPrev at heq; simp at heq
    · rename_i heq
      split at heq
      · cases heq
      · unfold selectInputAndPrev at heq; simp at heq

theorem tryEarlier_cases (h : InputHistory) (db : Option SavedData) : WentUp h db (h.tryEarlier db) := by
  unfold InputHistory.tryEarlier
  split
  · rename_i hge
    by_cases hx' : h.dbExhausted = true
    · rw [if_pos hx']; exact .done hge hx'
    · rw [if_neg hx']
      have hx : h.dbExhausted = false := by simpa using hx'
      cases db with
      | none => exact .missing hx rfl
      | some sd =>
        simp only
        rcases getPrev_no_panic sd with ⟨o, sd', hg⟩ | ⟨e, sd', hg⟩
        · cases o with
          | none => rw [hg]; exact .none hge hx rfl hg
          | some input => rw [hg]; simp only; exact .loaded hge hx rfl hg
        · rw [hg]; exact .failed hge hx rfl hg
  · exact .within (by omega)

/-! ## Editing -/

theorem ensurePopulated_ok {ε : Type} {h : InputHistory} (ho : HistOk h) {line : Str}
    (hc : (h.currentLine : Outcome RuntimeErr Str) = .ok line) :
    (h.ensurePopulated : Outcome ε InputHistory) =
      .ok { h with current := h.current.set h.index (some line) } := by
  have hc' := currentLine_ok (ε := ε) hc
  obtain ⟨a, ha⟩ : ∃ a, h.current[h.index]? = some a := ⟨_, List.getElem?_eq_getElem ho.index⟩
  unfold InputHistory.ensurePopulated
  rw [vecIndex_of_some ha]
  cases a with
  | none =>
    simp only [bind, Outcome.bind]
    rw [hc']
  | some l =>
    simp only [bind, Outcome.bind]
    have : line = l := by
      unfold InputHistory.currentLine at hc
      rw [vecIndex_of_some ha] at hc
      simp only [bind, Outcome.bind, Outcome.ok.injEq] at hc
      exact hc.symm
    subst this
    congr 1
    obtain ⟨hlt, hg⟩ := List.getElem?_eq_some_iff.1 ha
    rw [← hg, List.set_getElem_self]

/-- Replacing the shown line. -/
def InputHistory.withLine (h : InputHistory) (line : Str) : InputHistory :=
  { h with current := h.current.set h.index (some line) }

theorem editCurrent_ok {ε : Type} {h : InputHistory} (ho : HistOk h) {line line' : Str}
    {edit : Str → Outcome ε Str} (he : edit line = .ok line') :
    (h.withLine line).editCurrent edit = .ok (h.withLine line') := by
  unfold InputHistory.editCurrent InputHistory.withLine
  simp only
  rw [vecIndex_of_some (List.getElem?_set_self ho.index)]
  simp only [bind, Outcome.bind]
  rw [he]
  simp only [List.set_set]

theorem insertChar_ok {ε : Type} {h : InputHistory} (ho : HistOk h) {line : Str}
    (hc : (h.currentLine : Outcome RuntimeErr Str) = .ok line) {i : Nat} (hi : i ≤ line.length) (c : Char) :
    (h.insertChar i c : Outcome ε InputHistory) =
      .ok (h.withLine (line.take i ++ c :: line.drop i)) := by
  unfold InputHistory.insertChar
  rw [ensurePopulated_ok ho hc]
  simp only [bind, Outcome.bind]
  refine editCurrent_ok ho (line := line) ?_
  unfold stringInsert
  rw [if_pos hi]

theorem removeChar_ok {ε : Type} {h : InputHistory} (ho : HistOk h) {line : Str}
    (hc : (h.currentLine : Outcome RuntimeErr Str) = .ok line) {i : Nat} (hi : i < line.length) :
    (h.removeChar i : Outcome ε InputHistory) =
      .ok (h.withLine (line.take i ++ line.drop (i + 1))) := by
  unfold InputHistory.removeChar
  rw [ensurePopulated_ok ho hc]
  simp only [bind, Outcome.bind]
  refine editCurrent_ok ho (line := line) ?_
  unfold stringRemove
  rw [if_pos hi]

theorem histOk_withLine {h : InputHistory} (ho : HistOk h) (line : Str) : HistOk (h.withLine line) := by
  unfold InputHistory.withLine
  refine ⟨by simpa using ho.index, by simpa using ho.length, ?_⟩
  simp only
  by_cases h0 : h.index = 0
  · rw [h0]
    exact ⟨line, List.getElem?_set_self (by have := ho.index; omega)⟩
  · obtain ⟨l, hl⟩ := ho.first
    exact ⟨l, by rw [List.getElem?_set_ne h0]; exact hl⟩

theorem withLine_lineAt {h : InputHistory} (ho : HistOk h) (line : Str) (i : Nat) :
    lineAt (h.withLine line) i = if i = h.index then some line else lineAt h i := by
  unfold lineAt InputHistory.withLine pastInputs
  simp only
  split
  · rename_i l hl
    by_cases hi : i = h.index
    · subst hi
      rw [List.getElem?_set_self ho.index] at hl
      cases hl
      rw [if_pos rfl]
    · rw [List.getElem?_set_ne (fun h => hi h.symm)] at hl
      rw [if_neg hi, hl]
  · rename_i hx
    by_cases hi : i = h.index
    · subst hi
      exact absurd (List.getElem?_set_self ho.index) (hx line)
    · rw [List.getElem?_set_ne (fun h => hi h.symm)] at hx
      rw [if_neg hi]
      rcases hy : h.current[i]? with _ | _ | l
      · rfl
      · rfl
      · exact absurd hy (hx l)

theorem withLine_shows {h : InputHistory} (ho : HistOk h) (line : Str) :
    ((h.withLine line).currentLine : Outcome RuntimeErr Str) = .ok line := by
  rw [lineAt_shown (histOk_withLine ho line)]
  have : (h.withLine line).index = h.index := rfl
  rw [this, withLine_lineAt ho, if_pos rfl]

end Bcalc
