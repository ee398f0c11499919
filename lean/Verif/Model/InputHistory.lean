import Verif.Model.Variable

/-! # Model of src/input_history.rs -/

namespace Bcalc

/-- input_history.rs 20-51 `InputHistory`. -/
structure InputHistory where
  /-- oldest first -/
  internal : List Str
  /-- newest first -/
  dbHistory : List Str
  current : List (Option Str)
  index : Nat
  dbExhausted : Bool
  deriving DecidableEq, Repr

/-- input_history.rs 54-62 `InputHistory::new`. -/
def InputHistory.new (useDb : Bool) : InputHistory where
  internal := []
  dbHistory := []
  current := [some []]
  index := 0
  dbExhausted := !useDb

/-- `v[i]` on a `Vec`: out of range panics. -/
def vecIndex {ε α : Type} (l : List α) (i : Nat) : Outcome ε α :=
  match l[i]? with
  | some a => .ok a
  | none => .panic .index

/-- `a - b` on `usize` (a checked build panics on underflow; proved not to occur). -/
def usizeSub {ε : Type} (a b : Nat) : Outcome ε Nat :=
  if b ≤ a then .ok (a - b) else .panic .arithmetic

/-- input_history.rs 89-102 `current_line`. -/
def InputHistory.currentLine {ε : Type} (h : InputHistory) : Outcome ε Str :=
  vecIndex h.current h.index >>= fun item =>
  match item with
  | some item => .ok item
  | none =>
    if h.index ≤ h.internal.length then
      usizeSub h.internal.length h.index >>= fun i => vecIndex h.internal i
    else
      usizeSub h.index h.internal.length >>= fun i =>
      usizeSub i 1 >>= fun i => vecIndex h.dbHistory i

/-- input_history.rs 69-86 `input_finished`.  The history is updated even if recording in the
database fails. -/
def InputHistory.inputFinished (h : InputHistory) (maybeDb : Option SavedData) :
    Outcome RuntimeErr (Option Int) × InputHistory × Option SavedData :=
  match (h.currentLine : Outcome RuntimeErr Str) with
  | .panic k => (.panic k, h, maybeDb)
  | .err e => (.err e, h, maybeDb)
  | .diverge => (.diverge, h, maybeDb)
  | .ok line =>
    let h' : InputHistory :=
      { h with internal := h.internal ++ [line], current := [some []], index := 0 }
    match maybeDb with
    | none => (.ok none, h', none)
    | some db =>
      match (usizeSub h'.internal.length 1 >>= fun i => vecIndex h'.internal i :
          Outcome RuntimeErr Str) with
      | .panic k => (.panic k, h', some db)
      | .err e => (.err e, h', some db)
      | .diverge => (.diverge, h', some db)
      | .ok recorded =>
        match db.addToInputHistory recorded with
        | (.ok id, db') => (.ok (some id), h', some db')
        | (.err e, db') => (.err (.db e), h', some db')
        | (.panic k, db') => (.panic k, h', some db')
        | (.diverge, db') => (.diverge, h', some db')

/-- input_history.rs 122-126: message of the internal error. -/
def earlierMissingDbMsg : Str :=
  ("InputHistory constructed with `use_db = true`, but " ++
   "`try_to_go_to_earlier_line` was not passed a database.").toList

/-- input_history.rs 138-142: the step to the next earlier line. -/
def InputHistory.stepEarlier (h : InputHistory) : InputHistory :=
  let current := if h.index + 1 ≥ h.current.length then h.current ++ [none] else h.current
  { h with current := current, index := h.index + 1 }

/-- input_history.rs 109-143 `try_to_go_to_earlier_line`. -/
def InputHistory.tryEarlier (h : InputHistory) (maybeDb : Option SavedData) :
    Outcome RuntimeErr Bool × InputHistory × Option SavedData :=
  if h.index ≥ h.internal.length + h.dbHistory.length then
    if h.dbExhausted then (.ok false, h, maybeDb)
    else
      match maybeDb with
      | none => (.err (.internal earlierMissingDbMsg), h, none)
      | some db =>
        match db.getPrevInputHistory with
        | (.ok (some input), db') =>
          (.ok true, { h with dbHistory := h.dbHistory ++ [input] }.stepEarlier, some db')
        | (.ok none, db') => (.ok false, { h with dbExhausted := true }, some db')
        | (.err e, db') => (.err (.db e), h, some db')
        | (.panic k, db') => (.panic k, h, some db')
        | (.diverge, db') => (.diverge, h, some db')
  else (.ok true, h.stepEarlier, maybeDb)

/-- input_history.rs 148-154 `try_to_go_to_later_line`. -/
def InputHistory.tryLater (h : InputHistory) : Bool × InputHistory :=
  if h.index ≤ 0 then (false, h) else (true, { h with index := h.index - 1 })

/-- input_history.rs 157-161 `ensure_current_line_populated`. -/
def InputHistory.ensurePopulated {ε : Type} (h : InputHistory) : Outcome ε InputHistory :=
  vecIndex h.current h.index >>= fun item =>
  match item with
  | some _ => .ok h
  | none =>
    h.currentLine >>= fun line => .ok { h with current := h.current.set h.index (some line) }

/-- `String::insert`: panics beyond the end. -/
def stringInsert {ε : Type} (s : Str) (i : Nat) (c : Char) : Outcome ε Str :=
  if i ≤ s.length then .ok (s.take i ++ c :: s.drop i) else .panic .index

/-- `String::remove`: panics at or beyond the end. -/
def stringRemove {ε : Type} (s : Str) (i : Nat) : Outcome ε Str :=
  if i < s.length then .ok (s.take i ++ s.drop (i + 1)) else .panic .index

/-- The `current_history[current_index].as_mut().unwrap()` of input_history.rs 167-170, 177-180,
applied to an edit. -/
def InputHistory.editCurrent {ε : Type} (h : InputHistory) (edit : Str → Outcome ε Str) :
    Outcome ε InputHistory :=
  vecIndex h.current h.index >>= fun item =>
  match item with
  | none => .panic .unwrap
  | some line =>
    edit line >>= fun line' => .ok { h with current := h.current.set h.index (some line') }

/-- input_history.rs 165-171 `insert_char_into_current_line`. -/
def InputHistory.insertChar {ε : Type} (h : InputHistory) (i : Nat) (c : Char) :
    Outcome ε InputHistory :=
  h.ensurePopulated >>= fun h => h.editCurrent fun line => stringInsert line i c

/-- input_history.rs 175-181 `remove_char_from_current_line`. -/
def InputHistory.removeChar {ε : Type} (h : InputHistory) (i : Nat) : Outcome ε InputHistory :=
  h.ensurePopulated >>= fun h => h.editCurrent fun line => stringRemove line i

end Bcalc
