import Verif.Spec.Terminal
import Verif.Spec.Editor

/-!
# The screen of a terminal

A terminal as the escape sequences of crossterm address it: a grid of cells of which `height` rows are in view, and
a cursor.  The rows that have scrolled out of view are kept (as the scrollback of the normal screen).  Every character but
the line feed takes one cell, as the printable ASCII characters do; in raw mode a line feed leaves the column alone.
-/

namespace Bcalc.Spec

/-- A screen.  Rows are counted from the beginning of the scrollback. -/
structure Screen where
  width : Nat
  height : Nat
  cell : Nat → Nat → Char
  /-- the first row in view -/
  top : Nat
  row : Nat
  /-- the column of the cursor; `width` when the last column has just been written: then the next character
  goes to the next row -/
  col : Nat

/-- The cursor is in view. -/
structure Screen.Ok (s : Screen) : Prop where
  wide : 0 < s.width
  above : s.top ≤ s.row
  below : s.row < s.top + s.height
  inside : s.col ≤ s.width

/-- The cursor goes to the row below; on the last row the screen scrolls, and a blank row comes up. -/
def Screen.lineFeed (s : Screen) : Screen :=
  if s.row + 1 < s.top + s.height then { s with row := s.row + 1 }
  else { s with row := s.row + 1, top := s.top + 1, cell := fun r c => if r = s.row + 1 then ' ' else s.cell r c }

/-- A character is printed. -/
def Screen.put (s : Screen) (c : Char) : Screen :=
  if c = '\n' then s.lineFeed
  else
    let s := if s.col < s.width then s else { s.lineFeed with col := 0 }
    { s with cell := fun r k => if r = s.row ∧ k = s.col then c else s.cell r k, col := s.col + 1 }

/-- What an operation does to the screen. -/
def Screen.after (s : Screen) : TermOp → Screen
  | .moveTo col row => { s with col := min col (s.width - 1), row := s.top + min row (s.height - 1) }
  | .moveToColumn col => { s with col := min col (s.width - 1) }
  | .moveToNextLine n => { s with col := 0, row := min (s.row + n) (s.top + s.height - 1) }
  | .clearCurrentLine => { s with cell := fun r c => if r = s.row then ' ' else s.cell r c }
  | .clearFromCursorDown =>
    { s with cell := fun r c => if (r = s.row ∧ s.col ≤ c) ∨ s.row < r then ' ' else s.cell r c }
  | .print text => text.foldl Screen.put s
  | _ => s

/-- What several operations do to the screen. -/
def Screen.run (s : Screen) (ops : List TermOp) : Screen := ops.foldl Screen.after s

/-- What the terminal answers when it is asked for the cursor and the size. -/
def Screen.reports (s : Screen) : TermInfo :=
  { startCol := min s.col (s.width - 1), startRow := s.row - s.top, cols := s.width }

/-- The row has this text, from its first column on, and nothing else. -/
def Screen.RowIs (s : Screen) (r : Nat) (text : Str) : Prop :=
  text.length ≤ s.width ∧ ∀ c, c < s.width → s.cell r c = text.getD c ' '

/-- The rows from `r` on have these texts. -/
def Screen.RowsAre (s : Screen) (r : Nat) (texts : List Str) : Prop :=
  ∀ i text, texts[i]? = some text → s.RowIs (r + i) text

/-- The rows from `r` on are blank. -/
def Screen.BlankFrom (s : Screen) (r : Nat) : Prop := ∀ r' c, r ≤ r' → c < s.width → s.cell r' c = ' '

/-- The rows before `r` are the same. -/
def Screen.SameAbove (s s' : Screen) (r : Nat) : Prop := ∀ r' c, r' < r → s'.cell r' c = s.cell r' c

/-- A text cut into pieces of `n` characters (the last may be shorter); an empty text is one empty piece. -/
def pieces (n : Nat) (text : Str) : List Str :=
  if _h : text.length ≤ n ∨ n = 0 then [text] else text.take n :: pieces n (text.drop n)
termination_by text.length
decreasing_by simp only [List.length_drop]; omega

/-- How an input is shown: after the prompt, with the later rows indented. -/
def inputRows (width : Nat) (line : Str) : List Str :=
  match pieces (width - 2) line with
  | [] => []
  | first :: rest => ("# ".toList ++ first) :: rest.map ("  ".toList ++ ·)

/-- How an output is shown: its lines, each on as many rows as it needs. -/
def outputRows (width : Nat) (text : Str) : List Str := ((text.splitOn '\n').map (pieces width)).flatten

/-- The transcript of a session: every input, with its output below. -/
def transcript (width : Nat) (log : List (Str × Str)) : List Str :=
  (log.map fun (line, output) => inputRows width line ++ outputRows width output).flatten

/-- The row in which a line is edited in place: the prompt and the part of the line from `offset` on that fits; text hidden
on the left or the right is marked; the cursor is at `col`, on the character it is at, if any. -/
def EditRow (width : Nat) (line : Str) (offset cursor : Nat) (row : Str) (col : Nat) : Prop :=
  ∃ opener part closer hidden, row = opener ++ part ++ closer ∧ row.length ≤ width ∧
    line = line.take offset ++ part ++ hidden ∧
    ((closer = " >".toList ∧ hidden ≠ []) ∨ (closer = [] ∧ hidden = [])) ∧
    ((opener = "< ".toList ∧ 0 < offset) ∨ (opener = "# ".toList ∧ offset = 0)) ∧
    cursor + 2 = offset + col ∧ 2 ≤ col ∧ col ≤ 2 + part.length ∧ col < width ∧
    ∀ c, line[cursor]? = some c → row[col]? = some c

/-- The terminal answers truthfully: at the time it is asked. -/
def Truthful (s : Screen) (ops : List TermOp) (t : TermInfo) : Prop :=
  ∀ before after, ops = before ++ .queryPosition :: after → t = (s.run before).reports

/-- The text that is shown for an output: a result as it is, complaints marked as such.  (The text of a runtime error comes
from the libraries.) -/
def saidFor (errorText : RuntimeErr → Str) : Shown → Str
  | .result text => text
  | .inputError text => "Error: ".toList ++ text
  | .runtimeError e => "Runtime Error: ".toList ++ errorText e

/-- What has been entered and answered in a step: the line, and the text shown. -/
def exchange (errorText : RuntimeErr → Str) (line : Str) : Outcome RuntimeErr (StepOut × Editor) → List (Str × Str)
  | .ok (⟨_, some output, _⟩, _) => [(line, saidFor errorText output)]
  | _ => []

/-- `Course m ce errorText args s0 e s log`: the program, started with the settings `args` on the screen `s0`, has handled
any events but a change of the window size, and awaits the next in the state `e`; then `s` is the screen, and `log`
has the inputs and the outputs.  None of the lines shown meanwhile has a line feed in it (the terminal sends none). -/
inductive Course (m : Machine) (ce : CommandExecutor) (errorText : RuntimeErr → Str) (args : Args) (s0 : Screen) :
    Editor → Screen → List (Str × Str) → Prop
  | start {db d e} : Editor.start m args db s0.reports = .ok (d, e) →
      Course m ce errorText args s0 e (s0.run ([.queryPosition, .querySize] ++ drawOps e d)) []
  | event {e s log line ev t as a e' line'} : Course m ce errorText args s0 e s log → Shows e line →
      (∀ w, ev ≠ .resize w) → stepTrace m ce errorText e ev t = (as, a, .ok (false, e')) →
      Truthful s (as.map (·.op)) t → Shows e' line' → '\n' ∉ line' →
      Course m ce errorText args s0 e' (s.run (as.map (·.op)))
        (log ++ exchange errorText line (step m ce e ev t))

end Bcalc.Spec
