import Verif.Model.Calc

/-!
# Sessions, their variables and the database they share
-/

namespace Bcalc.Spec

/-- The value a variable has in a session. -/
def sessionValue (s : Session) (x : Str) : Option Rat :=
  match s.vars with
  | none => none
  | some vs => vs.lookup x

/-- The variable is stored with the value. -/
def Stored (db : Db) (x : Str) (q : Rat) : Prop :=
  ∃ row ∈ db.vars, row.name = x ∧ row.numer = intDisplay q.num ∧ row.denom = intDisplay q.den

/-- The value the next use of a variable finds, when nobody else changes the database: the one of
the session, or else the stored one. -/
def Visible (s : Session) (x : Str) (q : Rat) : Prop :=
  sessionValue s x = some q ∨
    (sessionValue s x = none ∧ s.vars.isSome ∧ ∃ sd, s.db = some sd ∧ Stored sd.db x q)

/-- The database after some operations. -/
def after (ops : List DbOp) (db : Db) : Db := ops.foldl (fun db op => op.apply db) db

/-- The database gets from `db` to `db'` by operations of the kind. -/
def Evolves (kind : DbOp → Prop) (db db' : Db) : Prop :=
  ∃ ops, (∀ op ∈ ops, kind op) ∧ db' = after ops db

/-- The database a session creates when there is none yet. -/
def newDb : Db := DbOp.openDb.apply ⟨[], [], [], []⟩

/-- The database can come about: by any operations of any sessions, starting with no file (so that the
first operation is to create it). -/
def Reachable (db : Db) : Prop := ∃ ops, db = after ops newDb

/-- The operation stores the variable. -/
def Stores (x : Str) (op : DbOp) : Prop := ∃ v i, op = .setVar ⟨x, v⟩ i

/-- The operation stores or removes the variable. -/
def Changes (x : Str) (op : DbOp) : Prop := Stores x op ∨ op = .clear x

/-- The operation is one that other processes are going to perform. -/
def Scheduled (sd : SavedData) (op : DbOp) : Prop := ∃ e ∈ sd.env, op ∈ e.others

/-- Nobody else uses the database and no operation fails for outside reasons. -/
def Quiet (s : Session) : Prop := ∀ sd, s.db = some sd → sd.env = []

/-- The input assigns to the variable. -/
def Assigns (radix : Nat) (line x : Str) : Prop :=
  ∃ p q ts, tokenize line radix = .ok (.tokens (⟨.variable x, p⟩ :: ⟨.assign, q⟩ :: ts))

/-- The input is a command of the name that lists the variable. -/
def Lists (radix : Nat) (line : Str) (command : String) (x : Str) : Prop :=
  ∃ p arguments ts, tokenize line radix = .ok (.command ⟨command.toList, p⟩ arguments) ∧
    tokenizeVariableList arguments.value = .ok ts ∧ x ∈ ts.map (·.value)

/-- The input may set the variable anew. -/
def Sets (radix : Nat) (line x : Str) : Prop :=
  Assigns radix line x ∨ Lists radix line "reloadvar" x ∨ Lists radix line "purgevar" x

/-- `Later m ce x s s'`: the session gets from `s` to `s'` by any number of inputs that do not set the
variable `x`, in any settings; between the inputs anything may happen to the database, the input
history and the settings, but not to the variables. -/
inductive Later (m : Machine) (ce : CommandExecutor) (x : Str) : Session → Session → Prop
  | now {s} : Later m ce x s s
  | input {s s' line} : Later m ce x s s' → ¬ Sets s'.args.radix line x →
      Later m ce x s (calculate m ce line s').2
  | meanwhile {s s' s''} : Later m ce x s s' → s''.vars = s'.vars → Later m ce x s s''

/-- The variable is unknown: not in the session, not in the database, and nobody else is going to store
it. -/
def Unknown (s : Session) (x : Str) : Prop :=
  sessionValue s x = none ∧ ∀ sd, s.db = some sd →
    (∀ q, ¬ Stored sd.db x q) ∧ ∀ op, Scheduled sd op → ¬ Stores x op

/-- `Unassigned m ce x s s'`: the session gets from `s` to `s'` by any number of inputs that do not
assign to `x`; between the inputs the settings and the input history may change, and the database by
operations that do not store `x`. -/
inductive Unassigned (m : Machine) (ce : CommandExecutor) (x : Str) : Session → Session → Prop
  | now {s} : Unassigned m ce x s s
  | input {s s' line} : Unassigned m ce x s s' → ¬ Assigns s'.args.radix line x →
      Unassigned m ce x s (calculate m ce line s').2
  | meanwhile {s s' s''} : Unassigned m ce x s s' → s''.vars = s'.vars →
      (∀ sd'', s''.db = some sd'' → ∃ sd', s'.db = some sd' ∧
        Evolves (fun op => ¬ Stores x op) sd'.db sd''.db ∧
        ∀ op, Scheduled sd'' op → ¬ Stores x op) → Unassigned m ce x s s''

/-- The order in which a set of names is iterated is some order of its members. -/
def HashOk (m : Machine) : Prop := ∀ l, (m.hashOrder l).Perm l.dedup

end Bcalc.Spec
