import Verif.Spec.Editor

/-!
# Sessions without a database
-/

namespace Bcalc.Spec

/-- A whole run of the interactive program: it is started with the given settings, on a terminal that
answers `t`, next to a database `db` (if one can be opened); then the events come. -/
def interactive (m : Machine) (ce : CommandExecutor) (args : Args) (db : Option SavedData) (t : TermInfo)
    (events : List (Event × TermInfo)) : Outcome RuntimeErr (Drawing × List StepOut × Editor) :=
  Editor.start m args db t >>= fun (d, e) => runEvents m ce e events >>= fun (outs, e') => .ok (d, outs, e')

/-- `Lines m ce args db t lines e`: the program, started like this, waits in the state `e`, and the lines
entered with Enter since the start are `lines`, newest first. -/
inductive Lines (m : Machine) (ce : CommandExecutor) (args : Args) (db : Option SavedData) (t : TermInfo) :
    List Str → Editor → Prop
  | start {d e} : Editor.start m args db t = .ok (d, e) → Lines m ce args db t [] e
  | enter {lines e e' mods t' out line} : Lines m ce args db t lines e → Shows e line →
      step m ce e (.key .enter mods) t' = .ok (out, e') → Lines m ce args db t (line :: lines) e'
  | other {lines e e' ev t' out} : Lines m ce args db t lines e → (∀ mods, ev ≠ .key .enter mods) →
      step m ce e ev t' = .ok (out, e') → out.quit = false → Lines m ce args db t lines e'

end Bcalc.Spec
