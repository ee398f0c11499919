import Verif.Spec.Screen

/-!
# A run of the program on a screen

What C83 and C84 take for granted of the terminal while the program runs: the terminal answers truthfully, the window keeps
its size, and no line that is shown has a line feed in it.
-/

namespace Bcalc.Spec

/-- `Watched m ce errorText e s events e' log`: in the state `e`, with the screen `s`, these events come, and the terminal
answers what comes with them; the program handles each of them without quitting or failing, and then is in the state `e'`.
Meanwhile the inputs and outputs `log` have been exchanged. -/
inductive Watched (m : Machine) (ce : CommandExecutor) (errorText : RuntimeErr → Str) :
    Editor → Screen → List (Event × TermInfo) → Editor → List (Str × Str) → Prop
  | over {e s} : Watched m ce errorText e s [] e []
  | event {e s line ev t as a e' line' rest e'' log} : Shows e line → (∀ w, ev ≠ .resize w) →
      stepTrace m ce errorText e ev t = (as, a, .ok (false, e')) → Truthful s (as.map (·.op)) t →
      Shows e' line' → '\n' ∉ line' → Watched m ce errorText e' (s.run (as.map (·.op))) rest e'' log →
      Watched m ce errorText e s ((ev, t) :: rest) e'' (exchange errorText line (step m ce e ev t) ++ log)

/-- The program is started with the settings `args` on the screen `s0`, draws its first prompt, and then these events
come. -/
def ProgramWatched (m : Machine) (ce : CommandExecutor) (errorText : RuntimeErr → Str) (args : Args)
    (opened : Outcome DbError (Option SavedData)) (s0 : Screen) (events : List (Event × TermInfo)) (e : Editor)
    (log : List (Str × Str)) : Prop :=
  ∃ db d e0, (args.noDb = false → opened = .ok db) ∧ (args.noDb = true → db = none) ∧
    Editor.start m args db s0.reports = .ok (d, e0) ∧
    Watched m ce errorText e0 (s0.run ([.queryPosition, .querySize] ++ drawOps e0 d)) events e log

end Bcalc.Spec
