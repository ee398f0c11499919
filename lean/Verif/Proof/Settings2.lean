import Verif.Proof.Settings
import Verif.Proof.Editor3

/-! # What inputs do to the settings -/

namespace Bcalc
open Spec

/-- The settings are the same. -/
def SameArgs (s s' : Session) : Prop := s'.args = s.args

theorem SameArgs.trans (a b c : Session) (h : SameArgs a b) (h' : SameArgs b c) : SameArgs a c :=
  Eq.trans h' h

theorem command_args (m : Machine) (ce : CommandExecutor) {cmd : Cmd} (hs : ¬ Setting cmd)
    (arguments : Positioned Str) (s : Session) : (cmd.execute m ce arguments s).2.args = s.args := by
  unfold Cmd.execute
  cases cmd with
  | help => rfl
  | reloadVar =>
    simp only
    unfold executeReloadVar
    cases tokenizeVariableList arguments.value with
    | ok ts =>
      simp only
      cases s.db with
      | none => rfl
      | some db =>
        simp only
        cases s.vars with
        | none => rfl
        | some vs => rfl
    | err e => rfl
    | panic k => rfl
    | diverge => rfl
  | purgeVar =>
    simp only
    unfold executePurgeVar
    cases tokenizeVariableList arguments.value with
    | ok ts =>
      simp only
      cases s.vars with
      | none => rfl
      | some vs => rfl
    | err e => rfl
    | panic k => rfl
    | diverge => rfl
  | histcap =>
    simp only
    unfold executeHistcap
    cases (intListArgs arguments.value >>= histcapArgument) with
    | ok input =>
      simp only
      cases s.db with
      | none => rfl
      | some db =>
        simp only
        cases input with
        | none => simp only; rcases db.getMaxHistorySize with ⟨_ | _ | _ | _, _⟩ <;> rfl
        | some n => simp only; rcases db.setMaxHistorySize n with ⟨_ | _ | _ | _, _⟩ <;> rfl
    | err e => rfl
    | panic k => rfl
    | diverge => rfl
  | fractional => exact absurd trivial hs
  | radix => exact absurd trivial hs
  | convertToRadix => exact absurd trivial hs
  | upper => exact absurd trivial hs
  | commas => exact absurd trivial hs
  | precision => exact absurd trivial hs

theorem calculateTokens_args (m : Machine) (id : Option Int) (ts : List PTok) :
    (calculateTokens m id ts).Rel SameArgs := by
  intro s
  unfold calculateTokens
  refine St.Rel.andThen (R := SameArgs) SameArgs.trans
    (fun s' => (touchVars_only id _ s.vars s').args) (fun _ => ?_) s
  split
  · intro s; rfl
  · refine St.Rel.andThen (R := SameArgs) SameArgs.trans (fun s => ?_) (fun t => ?_)
    · unfold St.lift SameArgs; rfl
    · refine St.Rel.andThen (R := SameArgs) SameArgs.trans (fun s => ?_) (fun r s => ?_)
      · exact (executeTree_args m t id s).1
      · rfl

/-- What an input does to the settings: nothing, or what a setting command asks for. -/
theorem calculate_args (m : Machine) (line : Str) (s : Session) :
    (calculate m table line s).2.args = s.args ∨
    ∃ cmd arguments a', Setting cmd ∧ IsCommand line cmd arguments ∧ Requests arguments s.args cmd a' ∧
      (calculate m table line s).1 = .ok doneMsg ∧ (calculate m table line s).2.args = a' := by
  have hargs := (recordInput_args s).1
  rcases hrec : recordInput s with ⟨r, s1⟩
  rw [hrec] at hargs
  simp only at hargs
  by_cases hok : ∃ id, r = .ok id
  · obtain ⟨id, rfl⟩ := hok
    have hcalc : calculate m table line s = afterRecording m table line id s1 := by
      rw [calculate_eq, andThen_of_ok hrec]
    cases ht : tokenize line s.args.radix with
    | ok r =>
      cases r with
      | tokens ts =>
        left
        rw [hcalc]
        unfold afterRecording
        rw [hargs, ht]
        exact Eq.trans (calculateTokens_args m id ts s1) hargs
      | command name arguments =>
        cases hres : table.resolve name.value with
        | none =>
          left
          rw [hcalc]
          unfold afterRecording
          rw [hargs, ht]
          simp only
          unfold calculateCommand CommandExecutor.executeCommand
          rw [andThen_of_err (s1 := s1) (e := noSuchCommand name)]
          · exact hargs
          · rw [hres]
        | some cmd =>
          by_cases hs : Setting cmd
          · have hne : cmd ≠ .reloadVar := by rintro rfl; exact hs
            have hx := calculate_command (m := m) hrec ht hres hne
            by_cases hreq : ∃ a', Requests arguments.value s1.args cmd a'
            · obtain ⟨a', hreq⟩ := hreq
              right
              rw [setting_set hreq] at hx
              rw [hx]
              rw [hargs] at hreq
              obtain ⟨n, p⟩ := name
              obtain ⟨a, q⟩ := arguments
              exact ⟨cmd, a, a', hs, (isCommand_iff s.args.radix).2 ⟨n, p, q, ht, hres⟩, hreq, rfl, rfl⟩
            · left
              by_cases hsp : NoArgument arguments.value cmd
              · rw [hx, setting_show hs s1 hsp]
                exact hargs
              · obtain ⟨t, p, he⟩ := setting_else (m := m) (ce := table) hs hsp (fun a' h => hreq ⟨a', h⟩)
                rw [hx, he]
                exact hargs
          · left
            rw [hcalc]
            unfold afterRecording
            rw [hargs, ht]
            simp only
            unfold calculateCommand
            refine SameArgs.trans _ s1 _ hargs ?_
            refine St.Rel.andThen (R := SameArgs) SameArgs.trans (fun s => ?_) (fun r s => ?_) s1
            · unfold CommandExecutor.executeCommand
              rw [hres]
              exact command_args m table hs arguments s
            · exact (St.Rel.andThen (R := OnlyDb) OnlyDb.trans (touchVars_only id r.2 s.vars)
                (fun _ s => OnlyDb.refl s) s).args
    | err e => left; rw [hcalc]; unfold afterRecording; rw [hargs, ht]; exact hargs
    | panic k => left; rw [hcalc]; unfold afterRecording; rw [hargs, ht]; exact hargs
    | diverge => left; rw [hcalc]; unfold afterRecording; rw [hargs, ht]; exact hargs
  · left
    have := (calculate_rec_fail (m := m) (ce := table) (line := line) (s := s) (by
      intro id h; rw [hrec] at h; exact hok ⟨id, h⟩)).2
    rw [this, hrec]
    exact hargs

end Bcalc
