import Verif.Model.Token

/-!
# Model of src/saved_data.rs

SQLite tables are lists of rows.  A statement that changes rows is followed by SQLite's check of
the immediate foreign-key constraints declared in `open`; a violation fails the statement.  A
public operation either commits or, on any error, leaves the database as it was
(`rusqlite::Transaction` rolls back on drop; single statements are atomic).  Besides the errors
the statements themselves produce, the environment may make any operation fail (I/O error, lock
timeout), and other processes may change the database between any two operations of this one:
`SavedData.env` is the schedule of both.

SQLite checks the constraints of the rows a statement touched; the model checks all rows.  The two
agree on a database in which they all held before the statement, which is every reachable one
(property C46).
-/

namespace Bcalc

/-- A row of `input_history` (saved_data.rs 183-191). -/
structure HistRow where
  id : Int
  input : Str
  next : Option Int
  prev : Option Int
  deriving DecidableEq, Repr

/-- A row of `variable_history` (saved_data.rs 220-228). -/
structure VarRow where
  name : Str
  numer : Str
  denom : Str
  lastUsedBy : Int
  deriving DecidableEq, Repr

/-- The database file: the four tables of saved_data.rs 141-228.  A file that does not exist yet
is the database with empty tables. -/
structure Db where
  metaInt : List (Nat × Int)
  history : List HistRow
  tags : List (Nat × Option Int)
  vars : List VarRow
  deriving DecidableEq, Repr

/-- saved_data.rs 19-21 `MetaInt::Version`. -/
def metaVersion : Nat := 1
/-- saved_data.rs 22-24 `MetaInt::MinimumVersion`. -/
def metaMinimumVersion : Nat := 2
/-- saved_data.rs 25-26 `MetaInt::MaxHistorySize`. -/
def metaMaxHistorySize : Nat := 3
/-- saved_data.rs 31-32 `InputHistoryTag::Front`. -/
def tagFront : Nat := 1
/-- saved_data.rs 33-36 `InputHistoryTag::Back`. -/
def tagBack : Nat := 2
/-- saved_data.rs 11 -/
def currentDbVersion : Int := 1
/-- saved_data.rs 12 -/
def minimumCompatibleDbVersion : Int := 1
/-- saved_data.rs 14 -/
def defaultMaxHistorySize : Int := 100
/-- saved_data.rs 16 -/
def variableStorageRadix : Nat := 10

/-- Errors of database operations (`Box<dyn Error>` in the code). -/
inductive DbError where
  /-- SQLite foreign-key constraint failure -/
  | constraint
  /-- `query_row` found no row -/
  | noRows
  /-- a NULL was read as an integer -/
  | nullValue
  /-- failure injected by the environment (I/O, locking) -/
  | environment
  /-- `CalculatorDatabaseInconsistencyError` (error.rs 70-89) -/
  | inconsistency (message : Str)
  deriving DecidableEq, Repr

/-- SQL statements run inside a transaction. -/
abbrev Tx (α : Type) := Db → Outcome DbError (α × Db)

/-- Sequencing of statements (`?` after each). -/
def Tx.andThen {α β : Type} (t : Tx α) (f : α → Tx β) : Tx β := fun db =>
  match t db with
  | .ok (a, db') => f a db'
  | .err e => .err e
  | .panic k => .panic k
  | .diverge => .diverge

/-- Does `input_history` have a row with this id? -/
def Db.hasId (db : Db) (i : Int) : Bool := db.history.any (fun r => r.id == i)

/-- A nullable reference is fine when NULL or when the row exists. -/
def Db.refOk (db : Db) : Option Int → Bool
  | none => true
  | some i => db.hasId i

/-- The `REFERENCES` constraints of saved_data.rs 187-188, 196, 225. -/
def Db.fkOk (db : Db) : Bool :=
  db.history.all (fun r => db.refOk r.next && db.refOk r.prev) &&
  db.tags.all (fun t => db.refOk t.2) &&
  db.vars.all (fun v => db.hasId v.lastUsedBy)

/-- Execute a data-changing statement: apply it, then check the foreign keys
(`PRAGMA foreign_keys = ON`, saved_data.rs 137). -/
def exec (f : Db → Db) : Tx Unit := fun db =>
  let db' := f db
  if db'.fkOk then .ok ((), db') else .err .constraint

/-- First value stored under a key in a key/value table. -/
def lookupKey {α : Type} (k : Nat) : List (Nat × α) → Option α
  | [] => none
  | (k', v) :: rest => if k' = k then some v else lookupKey k rest

/-- `UPDATE table SET value=... WHERE key=...` -/
def updateKey {α : Type} (k : Nat) (v : α) (t : List (Nat × α)) : List (Nat × α) :=
  t.map fun kv => if kv.1 = k then (kv.1, v) else kv

/-- `INSERT OR IGNORE INTO table (key, value)` -/
def insertOrIgnore {α : Type} (k : Nat) (v : α) (t : List (Nat × α)) : List (Nat × α) :=
  match lookupKey k t with
  | some _ => t
  | none => t ++ [(k, v)]

/-- `INSERT OR REPLACE INTO table (key, value)` -/
def insertOrReplace {α : Type} (k : Nat) (v : α) (t : List (Nat × α)) : List (Nat × α) :=
  t.filter (fun kv => kv.1 ≠ k) ++ [(k, v)]

/-- `SELECT value FROM input_history_tags WHERE key=:key` read as `Option<i64>`
(saved_data.rs 245-251, 212-218). -/
def selectTag (k : Nat) : Tx (Option Int) := fun db =>
  match lookupKey k db.tags with
  | some v => .ok (v, db)
  | none => .err .noRows

/-- The same select read as `i64`: NULL is an error (saved_data.rs 321-327). -/
def selectTagNotNull (k : Nat) : Tx Int := fun db =>
  match lookupKey k db.tags with
  | some (some v) => .ok (v, db)
  | some none => .err .nullValue
  | none => .err .noRows

/-- `SELECT value FROM meta_int WHERE key=:key` (saved_data.rs 155-161, 486-492). -/
def selectMeta (k : Nat) : Tx Int := fun db =>
  match lookupKey k db.metaInt with
  | some v => .ok (v, db)
  | none => .err .noRows

/-- The rowid SQLite gives to a new row of `input_history`: one more than the largest, or 1
(saved_data.rs 254-261; exhaustion of the 64-bit range is not modelled). -/
def Db.nextRowid (db : Db) : Int :=
  match db.history with
  | [] => 1
  | r :: rest => rest.foldl (fun acc r => max acc r.id) r.id + 1

/-- saved_data.rs 254-261: `INSERT INTO input_history ...` and `last_insert_rowid`. -/
def insertHistory (input : Str) (prev : Option Int) : Tx Int := fun db =>
  let id := db.nextRowid
  match exec (fun db => { db with
      history := db.history ++ [{ id := id, input := input, next := none, prev := prev }] }) db with
  | .ok (_, db') => .ok (id, db')
  | .err e => .err e
  | .panic k => .panic k
  | .diverge => .diverge

/-- `UPDATE input_history_tags SET value=:v WHERE key=:k` (saved_data.rs 263-269, 285-291,
341-347). -/
def updateTag (k : Nat) (v : Int) : Tx Unit :=
  exec fun db => { db with tags := updateKey k (some v) db.tags }

/-- `UPDATE input_history SET next=:v WHERE id=:i` (saved_data.rs 274-280). -/
def updateNext (i v : Int) : Tx Unit :=
  exec fun db => { db with
    history := db.history.map fun r => if r.id = i then { r with next := some v } else r }

/-- `UPDATE input_history SET prev=NULL WHERE id=:i` (saved_data.rs 335-340). -/
def clearPrev (i : Int) : Tx Unit :=
  exec fun db => { db with
    history := db.history.map fun r => if r.id = i then { r with prev := none } else r }

/-- `DELETE FROM input_history WHERE id=:i` with `ON DELETE CASCADE` on
`variable_history.last_used_by` (saved_data.rs 348-353, 225). -/
def deleteHistory (i : Int) : Tx Unit :=
  exec fun db => { db with
    history := db.history.filter fun r => r.id ≠ i
    vars := db.vars.filter fun v => v.lastUsedBy ≠ i }

/-- `SELECT next FROM input_history WHERE id=:i` read as `i64` (saved_data.rs 328-334). -/
def selectNext (i : Int) : Tx Int := fun db =>
  match db.history.find? (fun r => r.id == i) with
  | none => .err .noRows
  | some r => match r.next with
    | none => .err .nullValue
    | some n => .ok (n, db)

/-- saved_data.rs 530-535 `validate_max_history_size`. -/
def validateMaxHistorySize (value : Int) : Except Str Unit :=
  if value < 1 then .error "Maximum history size must be at least 1".toList else .ok ()

/-- saved_data.rs 314-354: the eviction loop.  `fuel` bounds the number of iterations; the callers
pass the number of rows plus one, and running out is proved impossible. -/
def enforceLoop (maxSize : Int) : Nat → Tx Unit
  | 0 => fun _ => .diverge
  | fuel + 1 => fun db =>
    if (db.history.length : Int) ≤ maxSize then .ok ((), db)
    else
      ((selectTagNotNull tagBack).andThen fun oldBack =>
       (selectNext oldBack).andThen fun newBack =>
       (clearPrev newBack).andThen fun _ =>
       (updateTag tagBack newBack).andThen fun _ =>
       (deleteHistory oldBack).andThen fun _ =>
       enforceLoop maxSize fuel) db

/-- saved_data.rs 302-357 `enforce_history_size_with_transaction`. -/
def enforceHistorySize : Tx Unit :=
  (selectMeta metaMaxHistorySize).andThen fun maxSize db =>
  match validateMaxHistorySize maxSize with
  | .error _ => .err (.inconsistency "Stored maximum history size is not valid".toList)
  | .ok () => enforceLoop maxSize (db.history.length + 1) db

/-- saved_data.rs 243-300: the transaction of `add_to_input_history`. -/
def addToInputHistoryTx (input : Str) : Tx Int :=
  (selectTag tagFront).andThen fun maybeOrigFront =>
  (insertHistory input maybeOrigFront).andThen fun added =>
  (updateTag tagFront added).andThen fun _ =>
  (match maybeOrigFront with
   | some origFront => updateNext origFront added
   | none => updateTag tagBack added).andThen fun _ =>
  enforceHistorySize.andThen fun _ db => .ok (added, db)

/-- saved_data.rs 515-524: the transaction of `set_max_history_size`. -/
def setMaxHistorySizeTx (size : Int) : Tx Unit :=
  (exec fun db => { db with metaInt := insertOrReplace metaMaxHistorySize size db.metaInt }).andThen
    fun _ => enforceHistorySize

/-- `INSERT OR IGNORE INTO meta_int` (saved_data.rs 147-153, 168-181). -/
def initMeta (k : Nat) (v : Int) : Tx Unit :=
  exec fun db => { db with metaInt := insertOrIgnore k v db.metaInt }

/-- `INSERT OR IGNORE INTO input_history_tags ... NULL` (saved_data.rs 199-210). -/
def initTag (k : Nat) : Tx Unit :=
  exec fun db => { db with tags := insertOrIgnore k none db.tags }

/-- saved_data.rs 139-230: the transaction of `SavedData::open`; returns the front of the history.
`CREATE TABLE IF NOT EXISTS` has no effect on rows. -/
def openTx : Tx (Option Int) :=
  (initMeta metaMinimumVersion minimumCompatibleDbVersion).andThen fun _ =>
  (selectMeta metaMinimumVersion).andThen fun minimumVersion =>
  if minimumVersion > currentDbVersion then
    fun _ => .err (.inconsistency
      "Database version is not compatible with executable version".toList)
  else
    (initMeta metaVersion currentDbVersion).andThen fun _ =>
    (initMeta metaMaxHistorySize defaultMaxHistorySize).andThen fun _ =>
    (initTag tagFront).andThen fun _ =>
    (initTag tagBack).andThen fun _ =>
    selectTag tagFront

/-- variable.rs 5-9 `Variable`. -/
structure Variable where
  name : Str
  value : Rat
  deriving DecidableEq, Repr

/-- saved_data.rs 393-409: the statement of `set_variable` (`PRIMARY KEY ON CONFLICT REPLACE`:
an existing row of that name is replaced).  `to_str_radix(10)` is `intDisplay`. -/
def setVariableTx (var : Variable) (lastUsedBy : Int) : Tx Unit :=
  exec fun db => { db with
    vars := db.vars.filter (fun v => v.name ≠ var.name) ++
      [{ name := var.name, numer := intDisplay var.value.num,
         denom := intDisplay var.value.den, lastUsedBy := lastUsedBy }] }

/-- saved_data.rs 417-423: the statement of `touch_variable`. -/
def touchVariableTx (name : Str) (lastUsedBy : Int) : Tx Unit :=
  exec fun db => { db with
    vars := db.vars.map fun v => if v.name = name then { v with lastUsedBy := lastUsedBy } else v }

/-- saved_data.rs 448-466: parsing of a stored numerator or denominator. -/
def parseStored (what name s : Str) : Outcome DbError Int :=
  parseBigInt s variableStorageRadix >>= fun r =>
  match r with
  | some n => .ok n
  | none => .err (.inconsistency ("Stored ".toList ++ what ++ " (".toList ++ s ++
      ") for variable '".toList ++ name ++ "' cannot be parsed".toList))

/-- saved_data.rs 432-470: the query of `get_variable` and the decoding of its result. -/
def getVariableTx (name : Str) : Tx (Option Variable) := fun db =>
  match db.vars.find? (fun v => v.name == name) with
  | none => .ok (none, db)
  | some row =>
    parseStored "numerator".toList name row.numer >>= fun numer =>
    parseStored "denominator".toList name row.denom >>= fun denom =>
    ratioNew numer denom >>= fun value =>
    .ok (some { name := name, value := value }, db)

/-- saved_data.rs 474-479: the statement of `clear_variable`. -/
def clearVariableTx (name : Str) : Tx Unit :=
  exec fun db => { db with vars := db.vars.filter fun v => v.name ≠ name }

/-- One operation of some other process on the same database: the transactions a session can
commit.  (Reading operations change nothing and need no case.) -/
inductive DbOp where
  | openDb
  | add (input : Str)
  | setVar (var : Variable) (lastUsedBy : Int)
  | touch (name : Str) (lastUsedBy : Int)
  | clear (name : Str)
  | setCap (size : Int)
  deriving DecidableEq, Repr

/-- The database after a transaction: committed on success, rolled back otherwise. -/
def Tx.commit {α : Type} (tx : Tx α) (db : Db) : Db :=
  match tx db with
  | .ok (_, db') => db'
  | _ => db

/-- Effect of an operation of another process (saved_data.rs 115-236, 243-300, 393-409, 412-425,
473-481, 507-527). -/
def DbOp.apply (op : DbOp) (db : Db) : Db :=
  match op with
  | .openDb => openTx.commit db
  | .add input => (addToInputHistoryTx input).commit db
  | .setVar var id => (setVariableTx var id).commit db
  | .touch name id => (touchVariableTx name id).commit db
  | .clear name => (clearVariableTx name).commit db
  | .setCap size =>
    match validateMaxHistorySize size with
    | .error _ => db
    | .ok () => (setMaxHistorySizeTx size).commit db

/-- What the environment does around one operation of this process: the operations other processes
complete just before it, and whether it fails for outside reasons. -/
structure EnvStep where
  others : List DbOp
  fault : Bool
  deriving DecidableEq, Repr

/-- saved_data.rs 108-113 `SavedData`: the connection (here: the database itself), the scrollback
cursor, and two fields that are not in the code: the environment's schedule (`[]`: no other
process, no failure) and a log of the databases this handle has committed so far. -/
structure SavedData where
  db : Db
  position : Option Int
  env : List EnvStep
  commits : List Db
  deriving DecidableEq, Repr

/-- The schedule entry for the next operation. -/
def SavedData.nextEnv (sd : SavedData) : EnvStep := sd.env.head?.getD { others := [], fault := false }

/-- Run a transaction on the connection: commit on success, roll back otherwise. -/
def SavedData.run {α : Type} (sd : SavedData) (tx : Tx α) : Outcome DbError α × SavedData :=
  let e := sd.nextEnv
  let sd' := { sd with env := sd.env.tail, db := e.others.foldl (fun db op => op.apply db) sd.db }
  if e.fault then (.err .environment, sd')
  else match tx sd'.db with
    | .ok (a, db') => (.ok a, { sd' with db := db', commits := sd'.commits ++ [db'] })
    | .err e => (.err e, sd')
    | .panic k => (.panic k, sd')
    | .diverge => (.diverge, sd')

/-- saved_data.rs 115-236 `SavedData::open`, from the point where the environment variable is set
and the directory exists: given the database file, returns the session's handle. -/
def SavedData.openDb (db : Db) (env : List EnvStep) : Outcome DbError SavedData :=
  match (SavedData.run { db := db, position := none, env := env, commits := [] } openTx) with
  | (.ok front, sd) => .ok { sd with position := front }
  | (.err e, _) => .err e
  | (.panic k, _) => .panic k
  | (.diverge, _) => .diverge

/-- saved_data.rs 243-300 `add_to_input_history`. -/
def SavedData.addToInputHistory (sd : SavedData) (input : Str) : Outcome DbError Int × SavedData :=
  sd.run (addToInputHistoryTx input)

/-- saved_data.rs 369-378: the select of `get_prev_input_history`. -/
def selectInputAndPrev (i : Int) : Tx (Option (Str × Option Int)) := fun db =>
  .ok ((db.history.find? (fun r => r.id == i)).map (fun r => (r.input, r.prev)), db)

/-- saved_data.rs 363-390 `get_prev_input_history`. -/
def SavedData.getPrevInputHistory (sd : SavedData) : Outcome DbError (Option Str) × SavedData :=
  match sd.position with
  | none => (.ok none, sd)
  | some nextId =>
    match sd.run (selectInputAndPrev nextId) with
    | (.ok none, sd') => (.ok none, { sd' with position := none })
    | (.ok (some (input, maybePrev)), sd') => (.ok (some input), { sd' with position := maybePrev })
    | (.err e, sd') => (.err e, sd')
    | (.panic k, sd') => (.panic k, sd')
    | (.diverge, sd') => (.diverge, sd')

/-- saved_data.rs 393-409 `set_variable`. -/
def SavedData.setVariable (sd : SavedData) (var : Variable) (lastUsedBy : Int) :
    Outcome DbError Unit × SavedData :=
  sd.run (setVariableTx var lastUsedBy)

/-- saved_data.rs 412-425 `touch_variable`. -/
def SavedData.touchVariable (sd : SavedData) (name : Str) (lastUsedBy : Int) :
    Outcome DbError Unit × SavedData :=
  sd.run (touchVariableTx name lastUsedBy)

/-- saved_data.rs 428-471 `get_variable`. -/
def SavedData.getVariable (sd : SavedData) (name : Str) :
    Outcome DbError (Option Variable) × SavedData :=
  sd.run (getVariableTx name)

/-- saved_data.rs 473-481 `clear_variable`. -/
def SavedData.clearVariable (sd : SavedData) (name : Str) : Outcome DbError Unit × SavedData :=
  sd.run (clearVariableTx name)

/-- saved_data.rs 497-502 `get_max_history_size`. -/
def SavedData.getMaxHistorySize (sd : SavedData) : Outcome DbError Int × SavedData :=
  sd.run (selectMeta metaMaxHistorySize)

/-- saved_data.rs 507-527 `set_max_history_size`. -/
def SavedData.setMaxHistorySize (sd : SavedData) (size : Int) : Outcome DbError Unit × SavedData :=
  match validateMaxHistorySize size with
  | .error _ => (.err (.inconsistency
      "Attempted to set a maximum history size that is not valid".toList), sd)
  | .ok () => sd.run (setMaxHistorySizeTx size)

end Bcalc
