import Verif.Spec.Editor
import Verif.Spec.Settings
import Verif.Spec.Store

/-!
# From one session to the next
-/

namespace Bcalc.Spec

/-- `Since m ce P e lines e'`: waiting in the state `e`, the editor got events, and now waits in the state
`e'`; in between the lines `lines` (newest first) were entered with Enter, each of which had the property
`P` in the state in which it was entered. -/
inductive Since (m : Machine) (ce : CommandExecutor) (P : Editor → Str → Prop) (e : Editor) :
    List Str → Editor → Prop
  | now : Since m ce P e [] e
  | enter {lines e' e'' mods t out line} : Since m ce P e lines e' → Shows e' line → P e' line →
      step m ce e' (.key .enter mods) t = .ok (out, e'') → Since m ce P e (line :: lines) e''
  | other {lines e' e'' ev t out} : Since m ce P e lines e' → (∀ mods, ev ≠ .key .enter mods) →
      step m ce e' ev t = .ok (out, e'') → out.quit = false → Since m ce P e lines e''

/-- The line does not change the capacity of the history. -/
def KeepsCapacity (line : Str) : Prop := ∀ arguments, ¬ IsCommand line .histcap arguments

/-- The line, entered in this state, leaves the capacity alone, and neither assigns to the variable nor
removes it. -/
def LeavesAlone (x : Str) (e : Editor) (line : Str) : Prop :=
  KeepsCapacity line ∧ ¬ Assigns e.args.radix line x ∧ ¬ Lists e.args.radix line "purgevar" x

/-- The line, entered in this state, is an expression in which the variable occurs. -/
def Mentions (x : Str) (e : Editor) (line : Str) : Prop :=
  ∃ ts p, tokenize line e.args.radix = .ok (.tokens ts) ∧ ⟨.variable x, p⟩ ∈ ts

/-- The editor works with this database, and nobody else uses it. -/
def WorksOn (e : Editor) (db : Db) : Prop := ∃ sd, e.db = some sd ∧ sd.env = [] ∧ sd.db = db

end Bcalc.Spec
