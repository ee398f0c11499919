import Verif.Spec.Commands
import Verif.Proof.Loaded

/-! # The command table -/

namespace Bcalc
open Spec

/-- The table built at start-up. -/
def table : CommandExecutor :=
  match CommandExecutor.new with
  | .ok ce => ce
  | _ => ⟨[], []⟩

theorem new_table : CommandExecutor.new = .ok table := by decide +kernel

theorem new_eq_table {ce : CommandExecutor} (h : CommandExecutor.new = .ok ce) : ce = table := by
  rw [new_table] at h; simpa using h.symm

theorem assocGet_mem {α : Type} {k : Str} {v : α} {l : List (Str × α)} (h : assocGet k l = some v) :
    (k, v) ∈ l := by
  induction l with
  | nil => simp [assocGet] at h
  | cons kv l ih =>
    obtain ⟨k', v'⟩ := kv
    unfold assocGet at h
    split at h
    · rename_i hk
      simp at h
      subst hk h
      simp
    · exact List.mem_cons_of_mem _ (ih h)

/-- The names as character lists. -/
def commandNames' : List (Str × Cmd) := commandNames.map fun p => (p.1.toList, p.2)

theorem resolve_iff (name : Str) (cmd : Cmd) :
    table.resolve name = some cmd ↔ (name, cmd) ∈ commandNames' := by
  have h1 : ∀ a ∈ table.aliasMap, ∀ c ∈ table.commandMap, a.2 = c.1 → (a.1, c.2) ∈ commandNames' := by
    decide +kernel
  have h2 : ∀ c ∈ table.commandMap, c ∈ commandNames' := by decide +kernel
  have h3 : ∀ p ∈ commandNames', table.resolve p.1 = some p.2 := by decide +kernel
  constructor
  · intro h
    unfold CommandExecutor.resolve at h
    cases ha : assocGet name table.aliasMap with
    | none =>
      rw [ha] at h
      exact h2 _ (assocGet_mem h)
    | some target =>
      rw [ha] at h
      exact h1 _ (assocGet_mem ha) _ (assocGet_mem h) rfl
  · intro h
    exact h3 _ h

theorem table_ok : TableOk table := by
  constructor
  · intro name h
    have h1 := (resolve_iff _ _).1 h
    have : ∀ p ∈ commandNames', p.2 = .reloadVar → p.1 = "reloadvar".toList := by decide +kernel
    exact this _ h1 rfl
  · intro name h
    have h1 := (resolve_iff _ _).1 h
    have : ∀ p ∈ commandNames', p.2 = .purgeVar → p.1 = "purgevar".toList := by decide +kernel
    exact this _ h1 rfl

end Bcalc
