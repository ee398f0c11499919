import Verif.Spec.Session

/-!
# What the saved data is, as a user sees it

All inputs ever recorded by any session, how many of the newest of them are still there, the capacity,
and the variables with their values and the number of the input that last set or used them.
-/

namespace Bcalc.Spec

/-- The saved data. -/
structure Store where
  /-- all inputs recorded so far, the oldest first; the n-th is known as number n -/
  recorded : List Str
  /-- how many of the newest inputs are still in the history -/
  kept : Nat
  /-- the capacity in force -/
  cap : Nat
  /-- the stored variables: the value, and the number of the input that last set or used it -/
  vars : Str → Option (Rat × Int)

/-- No inputs, no variables, capacity 100. -/
def Store.fresh : Store := ⟨[], 0, 100, fun _ => none⟩

/-- The input of that number is in the history. -/
def Store.Has (st : Store) (i : Int) : Prop :=
  (st.recorded.length : Int) - st.kept < i ∧ i ≤ st.recorded.length

instance (st : Store) (i : Int) : Decidable (st.Has i) := by unfold Store.Has; infer_instance

/-- The saved history, the oldest input first. -/
def Store.history (st : Store) : List Str := st.recorded.drop (st.recorded.length - st.kept)

/-- Keep at most as many inputs as the capacity allows; the variables last used by the others go. -/
def Store.trim (st : Store) : Store :=
  let st' := { st with kept := min st.kept st.cap }
  { st' with vars := fun x =>
      match st.vars x with
      | some (q, i) => if st'.Has i then some (q, i) else none
      | none => none }

/-- The saved data after an operation of a session. -/
def Store.step (st : Store) : DbOp → Store
  | .openDb => st
  | .add input => { st with recorded := st.recorded ++ [input], kept := st.kept + 1 }.trim
  | .setVar var i =>
    if st.Has i then { st with vars := fun x => if x = var.name then some (var.value, i) else st.vars x }
    else st
  | .touch name i =>
    if st.Has i then
      { st with vars := fun x => if x = name then (st.vars x).map (fun v => (v.1, i)) else st.vars x }
    else st
  | .clear name => { st with vars := fun x => if x = name then none else st.vars x }
  | .setCap n => if n < 1 then st else { st with cap := n.toNat }.trim

/-- The saved data after any operations on a new database. -/
def storeAfter (ops : List DbOp) : Store := ops.foldl Store.step Store.fresh

/-- The inputs in the database, the oldest first. -/
def historyOf (db : Db) : List Str := db.history.map (·.input)

/-- The capacity stored in the database. -/
def CapacityIs (db : Db) (n : Nat) : Prop := lookupKey metaMaxHistorySize db.metaInt = some (n : Int)

/-- The last `n` of a list. -/
def lastN {α : Type} (n : Nat) (l : List α) : List α := l.drop (l.length - n)

/-- The inputs one meets when following the links to the previous input. -/
inductive Walk (db : Db) : Option Int → List Str → Prop
  | stop : Walk db none []
  | step {row l} : row ∈ db.history → Walk db row.prev l → Walk db (some row.id) (row.input :: l)

/-- The history is a doubly linked list: there is an order of the rows, from the row marked as the back
to the one marked as the front, in which each row refers to the one before and the one after it. -/
def Linked (db : Db) : Prop :=
  ∃ order : List HistRow, order.Perm db.history ∧ (order.map (·.id)).Nodup ∧
    lookupKey tagBack db.tags = some (order.head?.map (·.id)) ∧
    lookupKey tagFront db.tags = some (order.getLast?.map (·.id)) ∧
    ∀ (k : Nat) (row : HistRow), order[k]? = some row →
      row.next = (order[k + 1]?).map (·.id) ∧
      row.prev = if k = 0 then none else (order[k - 1]?).map (·.id)

/-- What a scrollback request shows. -/
def answer : Outcome DbError (Option Str) → List Str
  | .ok (some input) => [input]
  | _ => []

/-- `Scroll sd shown sd'`: from the state `sd` of its connection a session gets to `sd'` by any number of
scrollback requests, which show the inputs `shown`, while it does other things and other sessions change
the database. -/
inductive Scroll : SavedData → List Str → SavedData → Prop
  | now {sd} : Scroll sd [] sd
  | meanwhile {sd shown sd' sd''} : Scroll sd shown sd' → sd''.position = sd'.position →
      Evolves (fun _ => True) sd'.db sd''.db → Scroll sd shown sd''
  | request {sd shown sd'} : Scroll sd shown sd' →
      Scroll sd (shown ++ answer sd'.getPrevInputHistory.1) sd'.getPrevInputHistory.2

end Bcalc.Spec
