import Verif.Model.SavedData
import Verif.Model.Operations

/-! # Model of src/variable.rs, and of `CalculatorFailure` and its conversions (src/error.rs) -/

namespace Bcalc

/-- The errors behind `Box<dyn std::error::Error>`: database errors and
`InternalCalculatorError` (error.rs 28-47). -/
inductive RuntimeErr where
  | db (e : DbError)
  | internal (message : Str)
  deriving DecidableEq, Repr

/-- error.rs 7-14 `CalculatorFailure`. -/
inductive Failure where
  | input (message : Str) (position : Option Position)
  | runtime (e : RuntimeErr)
  deriving DecidableEq, Repr

/-- error.rs 197-201 `MissingCapabilityError` and its `Display` (203-210). -/
def noVariableStoreMsg : Str := "Variable store unavailable".toList
/-- error.rs 203-210 -/
def noDatabaseMsg : Str := "Database unavailable".toList

/-- error.rs 191-195 `From<Positioned<MathExecutionError>>` -/
def Failure.ofMath (e : MathError) (p : Position) : Failure := .input e.display (some p)

/-- error.rs 108-112 `From<Positioned<ParseError>>` -/
def Failure.ofParse (e : Positioned ParseError) : Failure := .input e.value.display (some e.position)

/-- error.rs 16-20 `From<Positioned<String>>` -/
def Failure.ofString (e : Positioned Str) : Failure := .input e.value (some e.position)

/-- variable.rs 15-17 `VariableStore`: the hash map as an association list (first entry wins;
`insert` removes the old entry). -/
structure VariableStore where
  vars : List (Str × Rat)
  deriving DecidableEq, Repr

/-- variable.rs 20-24 `VariableStore::new` -/
def VariableStore.new : VariableStore := { vars := [] }

/-- `HashMap::remove` -/
def assocRemove {α : Type} (k : Str) (l : List (Str × α)) : List (Str × α) :=
  l.filter fun kv => kv.1 ≠ k

/-- `HashMap::insert` -/
def assocInsert {α : Type} (k : Str) (v : α) (l : List (Str × α)) : List (Str × α) :=
  (k, v) :: assocRemove k l

/-- Value of a name in the in-memory store (`HashMap::get`). -/
def VariableStore.lookup (vs : VariableStore) (name : Str) : Option Rat := assocGet name vs.vars

/-- `HashMap::insert` on the store. -/
def VariableStore.insert (vs : VariableStore) (name : Str) (value : Rat) : VariableStore :=
  { vars := assocInsert name value vs.vars }

/-- variable.rs 38-39, 43-44: messages of the internal errors of `update`. -/
def updateMissingIdMsg : Str :=
  "VariableStore missing input history id when updating variable".toList
/-- variable.rs 42-46 -/
def updateMissingDbMsg : Str :=
  "VariableStore was provided an input history id but no database when updating variable".toList
/-- variable.rs 63-66 -/
def touchMissingIdMsg : Str :=
  "VariableStore missing input history id when touching variable".toList
/-- variable.rs 67-71 -/
def touchMissingDbMsg : Str :=
  "VariableStore was provided an input history id but no database when touching variable".toList

/-- Result of an operation that works on a store and an optional database handle. -/
abbrev StoreRes (α : Type) := Outcome RuntimeErr α × VariableStore × Option SavedData

/-- Wrap a database error (`Box<dyn Error>`). -/
def liftDb {α : Type} (o : Outcome DbError α) : Outcome RuntimeErr α := o.mapErr RuntimeErr.db

/-- variable.rs 30-53 `VariableStore::update`.  A panic in the database call would prevent the
insertion; there is none (see C27). -/
def VariableStore.update (vs : VariableStore) (var : Variable) (maybeId : Option Int)
    (maybeDb : Option SavedData) : StoreRes Unit :=
  let (result, maybeDb') : Outcome RuntimeErr Unit × Option SavedData :=
    match maybeDb, maybeId with
    | some db, some id => let (r, db') := db.setVariable var id; (liftDb r, some db')
    | some db, none => (.err (.internal updateMissingIdMsg), some db)
    | none, some _ => (.err (.internal updateMissingDbMsg), none)
    | none, none => (.ok (), none)
  (result, vs.insert var.name var.value, maybeDb')

/-- variable.rs 55-74 `VariableStore::touch`. -/
def VariableStore.touch (vs : VariableStore) (name : Str) (maybeId : Option Int)
    (maybeDb : Option SavedData) : StoreRes Unit :=
  match maybeDb, maybeId with
  | some db, some id => let (r, db') := db.touchVariable name id; (liftDb r, vs, some db')
  | some db, none => (.err (.internal touchMissingIdMsg), vs, some db)
  | none, some _ => (.err (.internal touchMissingDbMsg), vs, none)
  | none, none => (.ok (), vs, none)

/-- variable.rs 100-111 `VariableStore::reload`. -/
def VariableStore.reload (vs : VariableStore) (name : Str) (db : SavedData) :
    Outcome RuntimeErr (Option Variable) × VariableStore × SavedData :=
  match db.getVariable name with
  | (.ok (some var), db') => (.ok (some var), vs.insert var.name var.value, db')
  | (.ok none, db') => (.ok none, vs, db')
  | (.err e, db') => (.err (.db e), vs, db')
  | (.panic k, db') => (.panic k, vs, db')
  | (.diverge, db') => (.diverge, vs, db')

/-- variable.rs 78-95 `VariableStore::get`. -/
def VariableStore.get (vs : VariableStore) (name : Str) (maybeDb : Option SavedData) :
    StoreRes (Option Variable) :=
  match vs.lookup name with
  | some value => (.ok (some { name := name, value := value }), vs, maybeDb)
  | none =>
    match maybeDb with
    | some db => let (r, vs', db') := vs.reload name db; (r, vs', some db')
    | none => (.ok none, vs, none)

/-- variable.rs 117-129 `VariableStore::purge`. -/
def VariableStore.purge (vs : VariableStore) (name : Str) (maybeDb : Option SavedData) :
    StoreRes Unit :=
  let vs' : VariableStore := { vars := assocRemove name vs.vars }
  match maybeDb with
  | some db => let (r, db') := db.clearVariable name; (liftDb r, vs', some db')
  | none => (.ok (), vs', none)

end Bcalc
