import Verif.Spec.Sessions
import Verif.Spec.CrashPoints
import Verif.Spec.Answer

/-! # Sessions side by side -/

namespace Bcalc.Spec

/-- A session that waits for a line: its settings and its variables. -/
structure Member where
  args : Args
  vars : VariableStore

/-- Any number of sessions, in processes of their own, that share a database. -/
structure Company where
  db : Db
  members : Nat → Option Member

/-- What may happen in a company: sessions are opened, end (or are killed) while they wait for a line, process a line,
or die while they process a line. -/
inductive Happening where
  | opened (i : Nat)
  | left (i : Nat)
  | entered (i : Nat) (args : Args) (line : Str) (answer : Outcome Failure Str)
  | died (i : Nat) (args : Args) (line : Str)

/-- The line that comes to be recorded. -/
def Happening.line : Happening → Option Str
  | .opened _ => none
  | .left _ => none
  | .entered _ _ line _ => some line
  | .died _ _ line => some line

/-- The member is concerned. -/
def Happening.member : Happening → Nat
  | .opened i => i
  | .left i => i
  | .entered i _ _ _ => i
  | .died i _ _ => i

/-- The company with another member, or without one, or with one that has changed. -/
def Company.with (c : Company) (db : Db) (i : Nat) (m : Option Member) : Company :=
  ⟨db, fun j => if j = i then m else c.members j⟩

/-- `s` is the session in which the member submits the line: with the settings and variables of the member, connected
to the database as it is now.  How it got there by editing and recalling lines does not matter. -/
structure Submits (c : Company) (i : Nat) (line : Str) (s : Session) (sd : SavedData) : Prop where
  member : ∃ m, c.members i = some m ∧ s.args = m.args ∧ s.vars = some m.vars
  inputs : ∃ h, s.inputs = some h ∧ (h.currentLine : Outcome RuntimeErr Str) = .ok line
  db : s.db = some sd
  same : sd.db = c.db
  quiet : sd.env = []

/-- `Together m ce c log c'`: the company gets from `c` to `c'` while this happens (the newest first), in any order. -/
inductive Together (m : Machine) (ce : CommandExecutor) (c : Company) : List Happening → Company → Prop
  | now : Together m ce c [] c
  | opens {log c' i args sd} : Together m ce c log c' → ValidSettings args → c'.members i = none →
      SavedData.openDb c'.db [] = .ok sd →
      Together m ce c (.opened i :: log) (c'.with sd.db i (some ⟨args, VariableStore.new⟩))
  | leaves {log c' i} : Together m ce c log c' → Together m ce c (.left i :: log) (c'.with c'.db i none)
  | enters {log c' i line s sd r s' sd' vars} : Together m ce c log c' → Submits c' i line s sd →
      calculate m ce line s = (r, s') → (∀ k, r ≠ .panic k) → r ≠ .diverge → s'.db = some sd' → s'.vars = some vars →
      Together m ce c (.entered i s.args line r :: log) (c'.with sd'.db i (some ⟨s'.args, vars⟩))
  | dies {log c' i line s sd r s' sd' new db} : Together m ce c log c' → Submits c' i line s sd →
      calculate m ce line s = (r, s') → s'.db = some sd' → sd'.commits = sd.commits ++ new → db ∈ new →
      Together m ce c (.died i s.args line :: log) (c'.with db i none)

/-- The lines that came to be recorded, in the same order. -/
def linesOf (log : List Happening) : List Str := log.filterMap Happening.line

/-- What happens neither sets nor removes the variable, nor does it change the capacity of the history. -/
def Happening.LeavesAlone (x : Str) (h : Happening) : Prop :=
  match h with
  | .opened _ => True
  | .left _ => True
  | .entered _ args line _ => KeepsCapacity line ∧ ¬ Assigns args.radix line x ∧ ¬ Lists args.radix line "purgevar" x
  | .died _ args line => KeepsCapacity line ∧ ¬ Assigns args.radix line x ∧ ¬ Lists args.radix line "purgevar" x

/-- The member goes on, and does not itself set the variable. -/
def Happening.Spares (i : Nat) (x : Str) (h : Happening) : Prop :=
  h.member = i → ∃ args line r, h = .entered i args line r ∧ ¬ Sets args.radix line x

end Bcalc.Spec
