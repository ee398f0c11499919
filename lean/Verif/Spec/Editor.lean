import Verif.Model.Editor

/-!
# The line editor, as a user sees it
-/

namespace Bcalc.Spec

/-- `Awaits m ce e`: after it has started and handled any events (whatever the terminal and the database
answered meanwhile), the editor waits for the next event in the state `e`. -/
inductive Awaits (m : Machine) (ce : CommandExecutor) : Editor → Prop
  | start {args db t d e} : Editor.start m args db t = .ok (d, e) → Awaits m ce e
  | event {e e' ev t out} : Awaits m ce e → step m ce e ev t = .ok (out, e') → out.quit = false →
      Awaits m ce e'

/-- The same, with the last drawing, which is what is on the screen. -/
inductive OnScreen (m : Machine) (ce : CommandExecutor) : Drawing → Editor → Prop
  | start {args db t d e} : Editor.start m args db t = .ok (d, e) → OnScreen m ce d e
  | event {d e e' ev t out} : OnScreen m ce d e → step m ce e ev t = .ok (out, e') → out.quit = false →
      OnScreen m ce (out.drawings.getLast?.getD d) e'

/-- The same, from a state on. -/
inductive Leads (m : Machine) (ce : CommandExecutor) : Editor → Editor → Prop
  | now {e} : Leads m ce e e
  | event {e e' e'' ev t out} : Leads m ce e e' → step m ce e' ev t = .ok (out, e'') →
      Leads m ce e e''

/-- The inputs of the past that have been met so far, newest first: first those of the session, then
those of earlier sessions. -/
def pastInputs (h : InputHistory) : List Str := h.internal.reverse ++ h.dbHistory

/-- The line at a place of the history, with the changes made to it since the last Enter.  Place 0 is the
new line, place `i + 1` has the `i`-th of the past inputs. -/
def lineAt (h : InputHistory) (i : Nat) : Option Str :=
  match h.current[i]? with
  | some (some edited) => some edited
  | _ => if i = 0 then none else (pastInputs h)[i - 1]?

/-- The line the editor shows. -/
def Shows (e : Editor) (line : Str) : Prop := (e.inputs.currentLine : Outcome RuntimeErr Str) = .ok line

/-- How many more parentheses are opened than closed in the text from `a` up to (not including) `b`. -/
def parenLevel (text : Str) (a b : Nat) : Int :=
  (((text.drop a).take (b - a)).count '(' : Int) - (((text.drop a).take (b - a)).count ')' : Int)

/-- The parentheses at `i` and `j` belong together: from `i` through `j` they balance, and not earlier. -/
def Pair (text : Str) (i j : Nat) : Prop :=
  i < j ∧ text[i]? = some '(' ∧ text[j]? = some ')' ∧ parenLevel text i (j + 1) = 0 ∧
    ∀ k, i < k → k ≤ j → 0 < parenLevel text i k

/-- The place Ctrl+N looks at: the cursor, or the last character if the cursor is behind it. -/
def looksAt (text : Str) (cursor : Nat) : Nat := if cursor < text.length then cursor else text.length - 1

/-- Nothing changes but the shown line (and the cursor and the part of the line in view): not the other
lines of the history with their changes, not the recorded inputs, nor anything else. -/
structure OnlyLine (e e' : Editor) : Prop where
  rest : e' = { e with inputs := e'.inputs, cursorPos := e'.cursorPos, scrollOffset := e'.scrollOffset }
  history : e'.inputs = { e.inputs with current := e'.inputs.current }
  others : ∀ i, i ≠ e.inputs.index → lineAt e'.inputs i = lineAt e.inputs i

/-- Nothing changes but the cursor (and the part of the line in view). -/
def OnlyCursor (e e' : Editor) : Prop :=
  e' = { e with cursorPos := e'.cursorPos, scrollOffset := e'.scrollOffset }

/-- All lines are still there, with the changes made to them. -/
def KeepsLines (h h' : InputHistory) : Prop := ∀ i l, lineAt h i = some l → lineAt h' i = some l

/-- The drawing shows the editor in the scrolling view: one row that fits the terminal, with the part of
the line that starts at the scroll offset; what is hidden on the left and on the right is marked; the
cursor is in the row, on the character it is at, if any. -/
def ScrollView (d : Drawing) (e : Editor) (line : Str) : Prop :=
  ∃ opener text col, d.rows = [(opener, text)] ∧
    opener.length + text.length + d.closer.length ≤ e.cols ∧
    (∃ hidden, line = line.take e.scrollOffset ++ text ++ hidden ∧
      ((d.closer = " >".toList ∧ hidden ≠ []) ∨ (d.closer = [] ∧ hidden = []))) ∧
    ((opener = "< ".toList ∧ 0 < e.scrollOffset) ∨ (opener = "# ".toList ∧ e.scrollOffset = 0)) ∧
    d.cursor = some (col, none) ∧ opener.length ≤ col ∧ col ≤ opener.length + text.length ∧ col < e.cols ∧
    e.cursorPos + opener.length = e.scrollOffset + col ∧
    ∀ c, line[e.cursorPos]? = some c → (opener ++ text)[col]? = some c

/-- The drawing shows the editor in the wrapping view: the rows together are the whole line, each fits the
terminal, and the cursor is on the character it is at, if any. -/
def WrapView (d : Drawing) (e : Editor) (line : Str) : Prop :=
  d.closer = [] ∧ (d.rows.map (·.2)).flatten = line ∧
    (∃ first rest, d.rows = first :: rest ∧ first.1 = "# ".toList ∧ ∀ r ∈ rest, r.1 = "  ".toList) ∧
    (∀ r ∈ d.rows, r.1.length + r.2.length ≤ e.cols) ∧
    ∃ col k, d.cursor = some (col, some (e.startRow + k)) ∧ 2 ≤ col ∧ col < e.cols ∧
      k * (e.cols - 2) + (col - 2) = e.cursorPos ∧
      ∀ c, line[e.cursorPos]? = some c → ∃ r, d.rows[k]? = some r ∧ (r.1 ++ r.2)[col]? = some c

/-- The distance of the arrow keys: one character, or 15 with Shift or Control. -/
def arrowDistance : Mods → Nat
  | .none => 1
  | _ => 15

/-- The keys without a meaning. -/
def Meaningless : Event → Prop
  | .key (.char c) .none => 128 ≤ c.toNat
  | .key (.char c) .shift => 128 ≤ c.toNat
  | .key (.char _) .other => True
  | .key (.char c) .control => c ∉ ['c', 'd', 'z', 'n', 'm']
  | .key .left .other => True
  | .key .right .other => True
  | .key .other _ => True
  | .other => True
  | _ => False

end Bcalc.Spec
