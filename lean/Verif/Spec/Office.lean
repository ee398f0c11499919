import Verif.Spec.Calculator
import Verif.Spec.Together

/-!
# Several calculators that share the saved data

Desks, each with the calculator on one page, and one set of saved data for all of them.
-/

namespace Bcalc.Spec

/-- A desk: the settings there, and the values that variables have there. -/
structure Desk where
  settings : Args
  values : Str → Option Rat

/-- The shared saved data, and the desks. -/
structure Office where
  saved : Store
  desks : Nat → Option Desk

/-- The calculator at a desk. -/
def Office.calculator (o : Office) (d : Desk) : Calculator := ⟨d.settings, d.values, some o.saved⟩

/-- The office with other saved data, and with another desk, or without one, or with one that has changed. -/
def Office.with (o : Office) (st : Store) (i : Nat) (d : Option Desk) : Office :=
  ⟨st, fun j => if j = i then d else o.desks j⟩

/-- `Interrupted E c line st`: if the calculator `c` breaks down after it has recorded the line, these may be the saved
data: as after the recording; or some of the variables that are used have been marked as used, or some of those that
lose their values have lost them; or everything is as after the line. -/
inductive Interrupted (E : Evaluator) (c : Calculator) (line : Str) : Store → Prop
  | recorded {st} : (c.record line).saved = some st → Interrupted E c line st
  | used {st ts part} : (c.record line).saved = some st → Ascii line → ¬ CommandLine line →
      Lexes c.settings.radix 0 line ts → (∀ x ∈ part, x ∈ variablesOf ts) → Interrupted E c line (st.use part)
  | reloaded {st arguments names part} : (c.record line).saved = some st → IsCommand line .reloadVar arguments →
      Variables arguments names → (∀ x ∈ part, x ∈ names) → Interrupted E c line (st.use part)
  | forgotten {st arguments names part} : (c.record line).saved = some st → IsCommand line .purgeVar arguments →
      Variables arguments names → (∀ x ∈ part, x ∈ names) → Interrupted E c line (st.forget part)
  | finished {r c' st} : Enters E c line r c' → c'.saved = some st → Interrupted E c line st

/-- `Works E o log o'`: the office gets from `o` to `o'` while this happens (the newest first), in any order. -/
inductive Works (E : Evaluator) (o : Office) : List Happening → Office → Prop
  | now : Works E o [] o
  | opens {log o' i settings} : Works E o log o' → ValidSettings settings → o'.desks i = none →
      Works E o (.opened i :: log) (o'.with o'.saved i (some ⟨settings, fun _ => none⟩))
  | leaves {log o' i} : Works E o log o' → Works E o (.left i :: log) (o'.with o'.saved i none)
  | enters {log o' i d line r c st} : Works E o log o' → o'.desks i = some d → Enters E (o'.calculator d) line r c →
      c.saved = some st →
      Works E o (.entered i d.settings line r :: log) (o'.with st i (some ⟨c.settings, c.values⟩))
  | dies {log o' i d line st} : Works E o log o' → o'.desks i = some d → Interrupted E (o'.calculator d) line st →
      Works E o (.died i d.settings line :: log) (o'.with st i none)

/-- The same sessions as desks: with the same settings, and with the same values. -/
def SameDesks (c : Company) (o : Office) : Prop :=
  ∀ i, match c.members i, o.desks i with
    | none, none => True
    | some a, some d => a.args = d.settings ∧ ∀ x, a.vars.lookup x = d.values x
    | _, _ => False

/-- The company begins as the office: with the same sessions, whose settings are permitted ones, and, after any
operations of any sessions on the database, with what these operations have saved. -/
structure BeginsAs (c : Company) (o : Office) : Prop where
  desks : SameDesks c o
  valid : ∀ i a, c.members i = some a → ValidSettings a.args
  saved : ∃ ops, c.db = after ops newDb ∧ o.saved = storeAfter ops

/-- The company looks like the office: the same sessions, and saved data with the same history, the same capacity and
the same variables. -/
structure LooksLike (c : Company) (o : Office) : Prop where
  desks : SameDesks c o
  history : historyOf c.db = o.saved.history
  capacity : CapacityIs c.db o.saved.cap
  stored : ∀ x q, Stored c.db x q ↔ ∃ i, o.saved.vars x = some (q, i)

end Bcalc.Spec
