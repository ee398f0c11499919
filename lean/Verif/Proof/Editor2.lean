import Verif.Proof.Editor
import Verif.Proof.Loaded

/-! # Entering lines, and the invariant of the editor -/

namespace Bcalc
open Spec

/-! ## The evaluation of a line leaves the input history alone, apart from the recording -/

def SameInputs (s s' : Session) : Prop := s'.inputs = s.inputs

theorem bool_inputs (get : Args → Bool) (set : Args → Bool → Args) (arguments : Positioned Str)
    (s : Session) : (executeBool get set arguments s).2.inputs = s.inputs := by
  unfold executeBool
  rcases boolArgument arguments with ⟨_ | _⟩ | _ | _ | _ <;> rfl

theorem command_inputs (m : Machine) (ce : CommandExecutor) (cmd : Cmd) (arguments : Positioned Str)
    (s : Session) : (cmd.execute m ce arguments s).2.inputs = s.inputs := by
  unfold Cmd.execute
  cases cmd with
  | help => rfl
  | reloadVar =>
    simp only
    unfold executeReloadVar
    cases tokenizeVariableList arguments.value with
    | ok r =>
      simp only
      cases s.db with
      | none => rfl
      | some sd =>
        cases s.vars with
        | none => rfl
        | some vs => rfl
    | err e => rfl
    | panic k => rfl
    | diverge => rfl
  | purgeVar =>
    simp only
    unfold executePurgeVar
    cases tokenizeVariableList arguments.value with
    | ok r =>
      cases s.vars with
      | none => rfl
      | some vs => rfl
    | err e => rfl
    | panic k => rfl
    | diverge => rfl
  | histcap =>
    simp only
    unfold executeHistcap
    cases intListArgs arguments.value >>= histcapArgument with
    | ok r =>
      cases s.db with
      | none => rfl
      | some sd =>
        cases r with
        | none => simp only; rcases sd.getMaxHistorySize with ⟨_ | _ | _ | _, _⟩ <;> rfl
        | some n => simp only; rcases sd.setMaxHistorySize n with ⟨_ | _ | _ | _, _⟩ <;> rfl
    | err e => rfl
    | panic k => rfl
    | diverge => rfl
  | fractional => exact bool_inputs _ _ _ _
  | upper => exact bool_inputs _ _ _ _
  | commas => exact bool_inputs _ _ _ _
  | radix =>
    simp only
    unfold executeRadix
    rcases (intListArgs arguments.value >>= radixArgument) with ⟨_ | _⟩ | _ | _ | _ <;> rfl
  | convertToRadix =>
    simp only
    unfold executeConvertToRadix
    split
    · rfl
    · rcases (intListArgs arguments.value >>= radixArgument) with ⟨_ | _⟩ | _ | _ | _
      · simp only; split <;> rfl
      all_goals rfl
  | precision =>
    simp only
    unfold executePrecision
    rcases (intListArgs arguments.value >>= precisionArgument s.args.extraPrecision) with
      ⟨_ | _⟩ | _ | _ | _ <;> rfl

theorem SameInputs.trans (a b c : Session) (h : SameInputs a b) (h' : SameInputs b c) : SameInputs a c :=
  Eq.trans h' h

theorem calculateTokens_inputs (m : Machine) (id : Option Int) (ts : List PTok) :
    (calculateTokens m id ts).Rel SameInputs := by
  intro s
  unfold calculateTokens
  refine St.Rel.andThen (R := SameInputs) SameInputs.trans
    (fun s' => (touchVars_only id _ s.vars s').inputs) (fun _ => ?_) s
  split
  · exact fun s => rfl
  · intro s
    cases hn : SyntaxTree.new ts with
    | ok tree =>
      change SameInputs s ((executeTree m tree id).andThen
        (fun result s => (displayResult s.args result, s)) s).2
      refine St.Rel.andThen (R := SameInputs) SameInputs.trans
        (fun s => (executeTree_args m tree id s).2) (fun _ s => ?_) s
      rfl
    | err e => rfl
    | panic k => rfl
    | diverge => rfl

theorem calculateCommand_inputs (m : Machine) (ce : CommandExecutor) (id : Option Int)
    (name arguments : Positioned Str) : (calculateCommand m ce id name arguments).Rel SameInputs := by
  unfold calculateCommand
  refine St.Rel.andThen (R := SameInputs) SameInputs.trans (fun s => ?_) (fun r s => ?_)
  · unfold CommandExecutor.executeCommand
    cases ce.resolve name.value with
    | none => rfl
    | some cmd => exact command_inputs m ce cmd arguments s
  · refine St.Rel.andThen (R := SameInputs) SameInputs.trans
      (fun s' => (touchVars_only id _ s.vars s').inputs) (fun _ s => ?_) s
    rfl

theorem afterRecording_inputs (m : Machine) (ce : CommandExecutor) (line : Str) (id : Option Int) :
    (afterRecording m ce line id).Rel SameInputs := by
  intro s
  unfold afterRecording
  cases tokenize line s.args.radix with
  | ok r =>
    cases r with
    | tokens ts => exact calculateTokens_inputs m id ts s
    | command name arguments => exact calculateCommand_inputs m ce id name arguments s
  | err e => rfl
  | panic k => rfl
  | diverge => rfl

/-- The input history after a line has been entered. -/
def InputHistory.finished (h : InputHistory) (line : Str) : InputHistory :=
  { h with internal := h.internal ++ [line], current := [some []], index := 0 }

theorem recordInput_inputs {s : Session} {h : InputHistory} {text : Str} (hi : s.inputs = some h)
    (hc : (h.currentLine : Outcome RuntimeErr Str) = .ok text) :
    (recordInput s).2.inputs = some (h.finished text) := by
  unfold recordInput
  rw [hi]
  simp only
  unfold InputHistory.inputFinished
  rw [hc]
  simp only
  cases s.db with
  | none => rfl
  | some sd =>
    simp only [vecIndex_last]
    rcases sd.addToInputHistory text with ⟨_ | _ | _ | _, _⟩ <;> rfl

theorem calculate_inputs (m : Machine) (ce : CommandExecutor) (line : Str) {s : Session} {h : InputHistory}
    {text : Str} (hi : s.inputs = some h) (hc : (h.currentLine : Outcome RuntimeErr Str) = .ok text) :
    (calculate m ce line s).2.inputs = some (h.finished text) := by
  have h1 := recordInput_inputs hi hc
  rw [calculate_eq]
  unfold St.andThen
  rcases hr : recordInput s with ⟨r, s1⟩
  rw [hr] at h1
  cases r with
  | ok id => exact Eq.trans (afterRecording_inputs m ce line id s1) h1
  | err e => exact h1
  | panic k => exact h1
  | diverge => exact h1

/-! ## The session keeps its variable store -/

def SameVars (s s' : Session) : Prop := s'.vars.isSome = s.vars.isSome

theorem SameVars.trans (a b c : Session) (h : SameVars a b) (h' : SameVars b c) : SameVars a c :=
  Eq.trans h' h

theorem executeTree_vars_isSome (m : Machine) (tree : SyntaxTree) (id : Option Int) :
    (executeTree m tree id).Rel SameVars := by
  intro s
  have hext := (execute_extends m s.args tree.root ⟨s.vars, s.db⟩).1
  unfold SameVars executeTree SyntaxTree.execute St.andThen
  rcases hr : tree.root.execute m s.args ⟨s.vars, s.db⟩ with ⟨r, env⟩
  rw [hr] at hext
  simp only at hext
  cases r with
  | ok q =>
    simp only
    cases hres : tree.resultVar with
    | none => exact hext.symm
    | some y =>
      simp only
      cases hvars : env.vars with
      | none => rw [hvars] at hext; simp only; rw [hext]; rw [hvars]
      | some vs =>
        simp only
        rw [hvars] at hext
        rcases vs.update ⟨y.value, q⟩ id env.db with ⟨_ | _ | _ | _, _, _⟩ <;> exact hext.symm
  | err e => exact hext.symm
  | panic k => exact hext.symm
  | diverge => exact hext.symm

theorem command_vars_isSome (m : Machine) (ce : CommandExecutor) (cmd : Cmd) (arguments : Positioned Str)
    (s : Session) : (cmd.execute m ce arguments s).2.vars.isSome = s.vars.isSome := by
  by_cases h1 : cmd = .reloadVar
  · subst h1
    unfold Cmd.execute executeReloadVar
    simp only
    cases tokenizeVariableList arguments.value with
    | ok r =>
      simp only
      cases s.db with
      | none => rfl
      | some sd =>
        cases hv : s.vars with
        | none => simp only; rw [hv]
        | some vs => rfl
    | err e => rfl
    | panic k => rfl
    | diverge => rfl
  · by_cases h2 : cmd = .purgeVar
    · subst h2
      unfold Cmd.execute executePurgeVar
      simp only
      cases tokenizeVariableList arguments.value with
      | ok r =>
        cases hv : s.vars with
        | none => simp only; rw [hv]
        | some vs => rfl
      | err e => rfl
      | panic k => rfl
      | diverge => rfl
    · rw [command_vars_eq m ce cmd arguments s h1 h2]

theorem calculate_vars_isSome (m : Machine) (ce : CommandExecutor) (line : Str) (s : Session) :
    (calculate m ce line s).2.vars.isSome = s.vars.isSome := by
  rw [calculate_eq]
  refine St.Rel.andThen (R := SameVars) SameVars.trans (fun s => ?_) (fun id s => ?_) s
  · unfold SameVars; rw [(recordInput_args s).2]
  · unfold afterRecording
    cases tokenize line s.args.radix with
    | ok r =>
      cases r with
      | tokens ts =>
        simp only
        unfold calculateTokens
        refine St.Rel.andThen (R := SameVars) SameVars.trans
          (fun s' => congrArg Option.isSome (OnlyDb.vars (touchVars_only id _ s.vars s'))) (fun _ => ?_) s
        split
        · exact fun s => rfl
        · intro s
          cases hn : SyntaxTree.new ts with
          | ok tree =>
            change SameVars s ((executeTree m tree id).andThen
              (fun result s => (displayResult s.args result, s)) s).2
            refine St.Rel.andThen (R := SameVars) SameVars.trans
              (executeTree_vars_isSome m tree id) (fun _ s => ?_) s
            rfl
          | err e => rfl
          | panic k => rfl
          | diverge => rfl
      | command name arguments =>
        simp only
        unfold calculateCommand
        refine St.Rel.andThen (R := SameVars) SameVars.trans (fun s => ?_) (fun r s => ?_) s
        · unfold CommandExecutor.executeCommand
          cases ce.resolve name.value with
          | none => rfl
          | some cmd => exact command_vars_isSome m ce cmd arguments s
        · refine St.Rel.andThen (R := SameVars) SameVars.trans
            (fun s' => congrArg Option.isSome (OnlyDb.vars (touchVars_only id _ s.vars s'))) (fun _ s => ?_) s
          rfl
    | err e => rfl
    | panic k => rfl
    | diverge => rfl

theorem OptRel.isSome {own : DbOp → Prop} {a b : Option SavedData} (h : OptRel own a b) :
    b.isSome = a.isSome := by
  cases a <;> cases b <;> first | rfl | exact h.elim

theorem histOk_finished (h : InputHistory) (line : Str) : HistOk (h.finished line) :=
  ⟨by simp [InputHistory.finished], by simp [InputHistory.finished], [], rfl⟩

theorem finished_past (h : InputHistory) (line : Str) :
    pastInputs (h.finished line) = line :: pastInputs h := by
  unfold pastInputs InputHistory.finished
  simp

theorem finished_lineAt (h : InputHistory) (line : Str) (i : Nat) :
    lineAt (h.finished line) i = if i = 0 then some [] else (pastInputs (h.finished line))[i - 1]? := by
  unfold lineAt
  cases i with
  | zero => rfl
  | succ i =>
    have : (h.finished line).current[i + 1]? = none := by simp [InputHistory.finished]
    rw [this]
    simp

end Bcalc
