import Verif.Spec.Calculator
import Verif.Spec.CommandLine
import Verif.Spec.Conversation
import Verif.Spec.Program

/-!
# From the command line to the screen
-/

namespace Bcalc.Spec

/-- The text that is shown for a reply. -/
def replyText : Outcome Failure Str → Str
  | .ok text => text
  | .err (.input text _) => "Error: ".toList ++ text
  | _ => []

/-- What a conversation looks like: lines, and the texts shown for the replies. -/
def asShown (talk : List (Str × Outcome Failure Str)) : List (Str × Str) := talk.map fun (line, r) => (line, replyText r)

/-- The calculator at the start of the program: it has the settings of the command line and no values; and, if saved data
are wanted and there are any, on a database that nobody else uses, those that all sessions so far have saved. -/
structure Launched (args : Args) (opened : Outcome DbError (Option SavedData)) (c : Calculator) : Prop where
  settings : c.settings = args
  values : ∀ x, c.values x = none
  saved : (args.noDb = true ∧ c.saved = none) ∨ (args.noDb = false ∧ opened = .ok none ∧ c.saved = none) ∨
    ∃ sd ops, args.noDb = false ∧ opened = .ok (some sd) ∧ sd.env = [] ∧ sd.db = after ops newDb ∧
      c.saved = some (storeAfter ops)

end Bcalc.Spec
