import Verif.Proof.Refusal2
import Verif.Proof.HashOrder
import Verif.Proof.Scroll

/-! # Commands either succeed or complain about the line -/

namespace Bcalc

open Spec

/-- The outcome is a text, or a complaint. -/
def Settled {α : Type} (r : Outcome Failure α) : Prop := (∃ a, r = .ok a) ∨ ∃ t p, r = .err (.input t p)

theorem settled_intListArgs {arguments : Str} (ha : Ascii arguments) {α : Type}
    {f : List (Positioned Int) → Outcome Failure α} (hf : ∀ ps, Settled (f ps)) :
    Settled (intListArgs arguments >>= f) := by
  rcases intListArgs_cases ha with ⟨ps, _, h⟩ | ⟨t, p, _, h⟩
  · rw [h]; exact hf ps
  · rw [h]; exact .inr ⟨t, some p, rfl⟩

theorem settled_histcapArgument (ps : List (Positioned Int)) : Settled (histcapArgument ps) := by
  unfold histcapArgument
  split
  · exact .inl ⟨_, rfl⟩
  · split
    · exact .inr ⟨_, _, rfl⟩
    · exact .inl ⟨_, rfl⟩
  · exact .inr ⟨_, _, rfl⟩

theorem settled_radixArgument (ps : List (Positioned Int)) : Settled (radixArgument ps) := by
  unfold radixArgument
  split
  · exact .inl ⟨_, rfl⟩
  · split
    · exact .inr ⟨_, _, rfl⟩
    · split
      · exact .inr ⟨_, _, rfl⟩
      · exact .inl ⟨_, rfl⟩
  · exact .inr ⟨_, _, rfl⟩

theorem settled_precisionValues (k : Nat) (p : Positioned Int) (o : Option (Positioned Int)) :
    Settled (precisionValues k p o) := by
  unfold precisionValues
  cases toU8 p.value with
  | none => exact .inr ⟨_, _, rfl⟩
  | some n =>
    cases o with
    | none =>
      simp only
      split
      · exact .inl ⟨_, rfl⟩
      · exact .inr ⟨_, _, rfl⟩
    | some e =>
      simp only
      cases toU8 e.value with
      | none => exact .inr ⟨_, _, rfl⟩
      | some j =>
        simp only
        split
        · exact .inl ⟨_, rfl⟩
        · exact .inr ⟨_, _, rfl⟩

theorem settled_precisionArgument (k : Nat) (ps : List (Positioned Int)) : Settled (precisionArgument k ps) := by
  unfold precisionArgument
  split
  · exact .inl ⟨_, rfl⟩
  · exact settled_precisionValues _ _ _
  · exact settled_precisionValues _ _ _
  · exact .inr ⟨_, _, rfl⟩

theorem settled_executeBool (get : Args → Bool) (set : Args → Bool → Args) (arguments : Positioned Str) (s : Session) :
    Settled (executeBool get set arguments s).1 := by
  unfold executeBool boolArgument
  simp only
  split
  · exact .inl ⟨_, rfl⟩
  · exact .inl ⟨_, rfl⟩
  · split at * <;> simp_all
    rename_i h1 h2
    split at h2
    · cases h2
    · split at h2
      · cases h2
      · cases h2; exact .inr ⟨_, _, rfl⟩
  · split at * <;> simp_all
    split at * <;> simp_all
    split at * <;> simp_all
  · split at * <;> simp_all
    split at * <;> simp_all
    split at * <;> simp_all

theorem settled_variableListLoop : ∀ (ts : List PTok) (r : List (Positioned Str)),
    (∃ ns, variableListLoop ts r = .ok ns) ∨ ∃ e, variableListLoop ts r = .err e
  | [], r => .inl ⟨r, rfl⟩
  | t :: ts, r => by
    unfold variableListLoop
    split
    · exact settled_variableListLoop ts _
    · exact .inr ⟨_, rfl⟩

theorem settled_variableList {arguments : Str} :
    (∃ ns, tokenizeVariableList arguments = .ok ns) ∨ ∃ e, tokenizeVariableList arguments = .err e := by
  unfold tokenizeVariableList
  rcases C05_no_crash 10 (by omega) (by omega) arguments with ⟨r, h⟩ | ⟨e, h⟩
  · rw [h]
    cases r with
    | tokens ts => exact settled_variableListLoop ts []
    | command n a => exact .inr ⟨_, rfl⟩
  · rw [h]; exact .inr ⟨_, rfl⟩

theorem histcapArgument_pos {ps : List (Positioned Int)} {n : Int} (h : histcapArgument ps = .ok (some n)) : 1 ≤ n := by
  unfold histcapArgument validateMaxHistorySize at h
  split at h
  · cases h
  · split at h
    · cases h
    · split at *
      · simp_all
      · simp only [Outcome.ok.injEq, Option.some.injEq] at h
        omega
  · cases h

theorem settled_execute (m : Machine) {line name arguments : Str} (hn : NamedCommand line name arguments) (cmd : Cmd)
    (q : Position) {s : Session} {id : Option Int} (hid : IdOk id s.db) :
    Settled (cmd.execute m table ⟨arguments, q⟩ s).1 := by
  have ha := ascii_arguments hn
  cases cmd with
  | help =>
    unfold Cmd.execute executeHelp
    simp only
    split
    · exact .inl ⟨_, rfl⟩
    · split
      · exact .inl ⟨_, rfl⟩
      · exact .inr ⟨_, _, rfl⟩
  | reloadVar =>
    unfold Cmd.execute executeReloadVar
    rcases settled_variableList (arguments := arguments) with ⟨ns, h⟩ | ⟨e, h⟩
    · simp only [h]
      cases hd : s.db with
      | none => exact .inr ⟨_, _, rfl⟩
      | some sd =>
        rw [hd] at hid
        cases hv : s.vars with
        | none => exact .inr ⟨_, _, rfl⟩
        | some vs =>
          simp only
          obtain ⟨texts, w, sd1, h1, _⟩ := reloadLoop_quiet (m.hashOrder (ns.map (·.value))) sd hid.1 hid.2.1 vs [] []
          rw [h1]
          exact .inl ⟨_, rfl⟩
    · simp only [h]; exact .inr ⟨_, _, rfl⟩
  | purgeVar =>
    unfold Cmd.execute executePurgeVar
    rcases settled_variableList (arguments := arguments) with ⟨ns, h⟩ | ⟨e, h⟩
    · simp only [h]
      cases hv : s.vars with
      | none => exact .inr ⟨_, _, rfl⟩
      | some vs =>
        simp only
        cases hd : s.db with
        | none =>
          obtain ⟨vs', h1, _⟩ := purgeLoop_none (m.hashOrder (ns.map (·.value))) vs
          rw [h1]; exact .inl ⟨_, rfl⟩
        | some sd =>
          rw [hd] at hid
          obtain ⟨vs', c, h1, _⟩ := purgeLoop_quiet (m.hashOrder (ns.map (·.value))) vs sd hid.1 (reachable_fk hid.2.1)
          rw [h1]; exact .inl ⟨_, rfl⟩
    · simp only [h]; exact .inr ⟨_, _, rfl⟩
  | histcap =>
    unfold Cmd.execute executeHistcap
    have := settled_intListArgs ha settled_histcapArgument
    rcases this with ⟨a, h⟩ | ⟨t, p, h⟩
    · simp only [h]
      cases hd : s.db with
      | none => exact .inr ⟨_, _, rfl⟩
      | some sd =>
        rw [hd] at hid
        obtain ⟨st, hrep⟩ := hid.2.1.rep
        cases a with
        | none =>
          simp only
          unfold SavedData.getMaxHistorySize
          rw [run_quiet hid.1]
          unfold selectMeta
          have hc := hrep.capacity
          unfold CapacityIs at hc
          rw [hc]
          exact .inl ⟨_, rfl⟩
        | some n =>
          have hn : 1 ≤ n := by
            obtain ⟨ps, _, h2⟩ := outcome_bind_ok h
            exact histcapArgument_pos h2
          simp only
          unfold SavedData.setMaxHistorySize validateMaxHistorySize
          rw [if_neg (by omega)]
          obtain ⟨db', h2, _⟩ := hrep.setCap n hn
          simp only
          rw [run_quiet hid.1, h2]
          exact .inl ⟨_, rfl⟩
    · simp only [h]; exact .inr ⟨_, _, rfl⟩
  | fractional => exact settled_executeBool _ _ _ _
  | upper => exact settled_executeBool _ _ _ _
  | commas => exact settled_executeBool _ _ _ _
  | radix =>
    unfold Cmd.execute executeRadix
    rcases settled_intListArgs ha settled_radixArgument with ⟨a, h⟩ | ⟨t, p, h⟩
    · simp only [h]; cases a <;> exact .inl ⟨_, rfl⟩
    · simp only [h]; exact .inr ⟨_, _, rfl⟩
  | convertToRadix =>
    unfold Cmd.execute executeConvertToRadix
    simp only
    split
    · exact .inl ⟨_, rfl⟩
    · rcases settled_intListArgs ha settled_radixArgument with ⟨a, h⟩ | ⟨t, p, h⟩
      · simp only [h]
        cases a with
        | some v => exact .inl ⟨_, rfl⟩
        | none => simp only; split <;> exact .inl ⟨_, rfl⟩
      · simp only [h]; exact .inr ⟨_, _, rfl⟩
  | precision =>
    unfold Cmd.execute executePrecision
    rcases settled_intListArgs ha (settled_precisionArgument s.args.extraPrecision) with ⟨a, h⟩ | ⟨t, p, h⟩
    · simp only [h]
      cases a with
      | some v => obtain ⟨v, w⟩ := v; exact .inl ⟨_, rfl⟩
      | none => exact .inl ⟨_, rfl⟩
    · simp only [h]; exact .inr ⟨_, _, rfl⟩

theorem settled_msgOf {r : Outcome Failure CmdResult} (h : Settled r) : Settled (msgOf r) := by
  rcases h with ⟨a, rfl⟩ | ⟨t, p, rfl⟩
  · exact .inl ⟨_, rfl⟩
  · exact .inr ⟨_, _, rfl⟩

/-- A command is carried out, or complained about. -/
theorem settled_calculate (m : Machine) {line : Str} {cmd : Cmd} {arguments : Str}
    (hl : IsCommand line cmd arguments) {s s1 : Session} {id : Option Int}
    (hrec : recordInput s = (.ok id, s1)) (hid : IdOk id s1.db) : Settled (calculate m table line s).1 := by
  obtain ⟨name, p, q, ht, hres⟩ := (isCommand_iff s.args.radix).1 hl
  have hset := settled_execute m (named_of_tokenize ht) cmd q hid
  by_cases hc : cmd = .reloadVar
  · subst hc
    have hargs := (recordInput_args s).1
    rw [calculate_eq, andThen_of_ok hrec]
    unfold afterRecording
    rw [hrec] at hargs
    rw [hargs, ht]
    simp only
    unfold calculateCommand CommandExecutor.executeCommand
    simp only [hres]
    rcases hx : Cmd.execute m table .reloadVar ⟨arguments, q⟩ s1 with ⟨r, s2⟩
    rw [hx] at hset
    rcases hset with ⟨⟨text, touched⟩, h⟩ | ⟨t, p, h⟩
    · simp only at h
      subst h
      rw [andThen_of_ok hx]
      simp only
      unfold Cmd.execute executeReloadVar at hx
      simp only at hx
      rcases settled_variableList (arguments := arguments) with ⟨ns, h⟩ | ⟨e, h⟩
      · simp only [h] at hx
        cases hd : s1.db with
        | none => rw [hd] at hx; cases hx
        | some sd =>
          rw [hd] at hid hx
          cases hv : s1.vars with
          | none => rw [hv] at hx; cases hx
          | some vs =>
            rw [hv] at hx
            simp only at hx
            obtain ⟨texts, w, sd1, h1, h2, h3, _⟩ :=
              reloadLoop_quiet (m.hashOrder (ns.map (·.value))) sd hid.1 hid.2.1 vs [] []
            rw [h1] at hx
            cases hx
            obtain ⟨_, hr, i, rfl, hi⟩ := hid
            obtain ⟨c, hk⟩ := touchAll_quiet ([] ++ m.hashOrder (ns.map (·.value))) (s := { s1 with vars := some w, db := some sd1 })
              (sd := sd1) (i := i) rfl h3 (by rw [h2]; exact reachable_fk hr) (by rw [h2]; exact hi) rfl
            simp only
            rw [andThen_of_ok hk]
            exact .inl ⟨_, rfl⟩
      · simp only [h] at hx; cases hx
    · simp only at h
      subst h
      rw [andThen_of_err hx]
      exact .inr ⟨_, _, rfl⟩
  · rw [calculate_command hrec ht hres hc]
    exact settled_msgOf hset

end Bcalc
