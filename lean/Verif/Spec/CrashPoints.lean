import Verif.Spec.Store

/-!
# What a crash leaves

SQLite makes transactions atomic and durable: a process that dies leaves what it committed last.  A
connection keeps a log of all the states it committed.
-/

namespace Bcalc.Spec

/-- Between the states `sd` and `sd'` of its connection a session may die and leave this database (if
nobody else uses it): it was there in the beginning, or the session committed it on the way. -/
def CrashLeaves (sd sd' : SavedData) (db : Db) : Prop :=
  db = sd.db ∨ ∃ new, sd'.commits = sd.commits ++ new ∧ db ∈ new

/-- The variable is stored with the same values, if at all, in both databases. -/
def SameVariable (x : Str) (db db' : Db) : Prop := ∀ q, Stored db x q ↔ Stored db' x q

/-- The database is no mixture: its history is that of `old` or that of `new`, and each variable is as in
`old` or as in `new`. -/
def Partway (old new db : Db) : Prop :=
  (historyOf db = historyOf old ∨ historyOf db = historyOf new) ∧
    ∀ x, SameVariable x db old ∨ SameVariable x db new

end Bcalc.Spec
