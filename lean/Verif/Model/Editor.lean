import Verif.Model.Calc

/-! # Model of the interactive line editor, `interactive_calc` (src/main.rs 149-511)

Terminal output is data (`Drawing`); terminal input is a list of events.  Reading or writing the
terminal is assumed not to fail. -/

namespace Bcalc

/-- The modifier keys of a key event (crossterm `KeyModifiers`), as far as the code tells them
apart: none, exactly SHIFT, exactly CONTROL, anything else. -/
inductive Mods where
  | none | shift | control | other
  deriving DecidableEq, Repr

/-- Key codes the code handles (main.rs 305-461). -/
inductive KeyCode where
  | char (c : Char)
  | backspace | delete | up | down | left | right | home | «end» | enter | other
  deriving DecidableEq, Repr

/-- Terminal events (crossterm `Event`), main.rs 303-474. -/
inductive Event where
  | key (code : KeyCode) (mods : Mods)
  | paste
  | resize (width : Nat)
  | other
  deriving DecidableEq, Repr

/-- main.rs 37: `PROMPT_STR`. -/
def promptStr : Str := "# ".toList
/-- main.rs 38: `SCROLL_LEFT_INDICATOR_STR`. -/
def scrollLeftStr : Str := "< ".toList
/-- main.rs 39: `SCROLL_RIGHT_INDICATOR_STR`. -/
def scrollRightStr : Str := " >".toList
/-- main.rs 41: `LARGE_CURSOR_MOVE_DISTANCE`. -/
def largeMove : Nat := 15

/-- main.rs 158-167: the variables of the interactive loop.  `inputs` and `vars` of the session
are always present here. -/
structure Editor where
  args : Args
  db : Option SavedData
  inputs : InputHistory
  vars : VariableStore
  cursorPos : Nat
  scrollOffset : Nat
  /-- row of the prompt, `input_start.1` -/
  startRow : Nat
  /-- column of the prompt, `input_start.0` -/
  startCol : Nat
  cols : Nat
  inputComplete : Bool
  deriving DecidableEq, Repr

/-- The editor's data as `calculate` sees them (main.rs 480-488). -/
def Editor.session (e : Editor) : Session :=
  { args := e.args, db := e.db, inputs := some e.inputs, vars := some e.vars }

/-- What a redraw puts on the terminal. -/
structure Drawing where
  /-- rows of text, each with its opener (prompt, blanks or scroll mark) -/
  rows : List (Str × Str)
  /-- text after the last row (the mark for text hidden on the right) -/
  closer : Str
  /-- where the cursor goes: column, and row in wrapping mode -/
  cursor : Option (Nat × Option Nat)
  deriving DecidableEq, Repr

/-- `&s[a..b]`: panics unless `a <= b <= s.len()`. -/
def strSlice {ε : Type} (s : Str) (a b : Nat) : Outcome ε Str :=
  if a ≤ b ∧ b ≤ s.length then .ok ((s.drop a).take (b - a)) else .panic .index

/-- error.rs 49-68 `CalculatorEnvironmentError::new("Window too narrow")`, and the standard
library's error of `u16::try_from`. -/
def windowTooNarrow : RuntimeErr := .internal "Window too narrow".toList
/-- `TryFromIntError` -/
def intConversionError : RuntimeErr := .internal "out of range integral type conversion attempted".toList

/-- `u16::try_from` on a `usize`. -/
def toU16 (n : Nat) : Outcome RuntimeErr Nat := if n < 65536 then .ok n else .err intConversionError

/-- `a + b` on `u16` (main.rs 182). -/
def u16Add (m : Machine) (a b : Nat) : Outcome RuntimeErr Nat :=
  if a + b < 65536 then .ok (a + b)
  else if m.overflowChecks then .panic .arithmetic
  else .ok ((a + b) % 65536)

/-- main.rs 203-219: the loop printing the remaining rows of the wrapped text; `fuel` bounds the
number of rows. -/
def wrapRows (wrapStr : Str) (available : Nat) (input : Str) : Nat → Nat →
    Outcome RuntimeErr (List (Str × Str))
  | 0, _ => .diverge
  | fuel + 1, currentIndex =>
    if currentIndex < input.length then
      let endIndex := min (currentIndex + available) input.length
      strSlice input currentIndex endIndex >>= fun row =>
      wrapRows wrapStr available input fuel endIndex >>= fun rows => .ok ((wrapStr, row) :: rows)
    else .ok []

/-- main.rs 176-232: the wrapped view.  Division and remainder by `available_cols = 0` panic. -/
def drawWrapped (m : Machine) (e : Editor) (input : Str) : Outcome RuntimeErr Drawing :=
  let wrapStr : Str := List.replicate promptStr.length ' '
  if e.cols < wrapStr.length then .err windowTooNarrow
  else
    let available := e.cols - wrapStr.length
    if available = 0 then .panic .divisionByZero
    else
      toU16 (e.cursorPos / available) >>= fun row =>
      u16Add m row e.startRow >>= fun cursorRow =>
      toU16 (e.cursorPos % available + wrapStr.length) >>= fun cursorCol =>
      let endIndex := min available input.length
      strSlice input 0 endIndex >>= fun first =>
      wrapRows wrapStr available input (input.length + 1) endIndex >>= fun rest =>
      .ok { rows := (promptStr, first) :: rest, closer := [],
            cursor := if e.inputComplete then none else some (cursorCol, some cursorRow) }

/-- main.rs 244-259: keeping the cursor within the scroll window. -/
def newScrollOffset (cursorPos scrollOffset window len : Nat) : Nat :=
  if cursorPos < scrollOffset ∨ cursorPos + 1 > scrollOffset + window then
    if len < window then 0
    else
      let rel := max 1 (min window (window / 3 * 2))
      if cursorPos < rel then 0 else cursorPos - rel
  else scrollOffset

/-- main.rs 233-290: the scrolling view; returns the new scroll offset. -/
def drawScrolled (e : Editor) (input : Str) : Outcome RuntimeErr (Drawing × Nat) :=
  let reserved := scrollLeftStr.length + scrollRightStr.length
  if e.cols ≤ reserved then .err windowTooNarrow
  else
    let window := e.cols - reserved
    let scrollOffset := newScrollOffset e.cursorPos e.scrollOffset window input.length
    let opener := if scrollOffset = 0 then promptStr else scrollLeftStr
    let overflowRight : Bool := input.length > scrollOffset + window
    let closer := if overflowRight then scrollRightStr else []
    let endIndex := if overflowRight then scrollOffset + window else input.length
    usizeSub e.cursorPos scrollOffset >>= fun rel =>
    toU16 (rel + opener.length) >>= fun scrolledCursor =>
    strSlice input scrollOffset endIndex >>= fun text =>
    .ok ({ rows := [(opener, text)], closer := closer, cursor := some (scrolledCursor, none) },
         scrollOffset)

/-- main.rs 175-290: one redraw. -/
def draw (m : Machine) (e : Editor) : Outcome RuntimeErr (Drawing × Editor) :=
  e.inputs.currentLine >>= fun input =>
  if e.args.alternateScreen || e.inputComplete then
    drawWrapped m e input >>= fun d => .ok (d, e)
  else
    drawScrolled e input >>= fun (d, off) => .ok (d, { e with scrollOffset := off })

/-- main.rs 343-367: the scan for the matching parenthesis from `pos`; `none` when the end of the
text is reached.  `fuel` bounds the number of steps (the callers pass the length of the text, which
is enough); `openCount -= 1` on 0 would panic. -/
def parenScan (text : Str) (searchLeft : Bool) (openP closeP : Char) :
    Nat → Nat → Nat → Outcome RuntimeErr (Option Nat)
  | 0, _, _ => .diverge
  | fuel + 1, pos, openCount =>
    vecIndex text pos >>= fun c =>
    (if c = openP then .ok (openCount + 1)
     else if c = closeP then usizeSub openCount 1
     else .ok openCount : Outcome RuntimeErr Nat) >>= fun openCount =>
    if openCount = 0 then .ok (some pos)
    else if searchLeft && pos == 0 then .ok none
    else if !searchLeft && pos + 1 ≥ text.length then .ok none
    else parenScan text searchLeft openP closeP fuel (if searchLeft then pos - 1 else pos + 1)
      openCount

/-- main.rs 318-367: the position Ctrl+N jumps to, if any. -/
def matchingParen (text : Str) (cursorPos : Nat) : Outcome RuntimeErr (Option Nat) :=
  if text.length < 2 then .ok none
  else
    let pos := if cursorPos ≥ text.length then text.length - 1 else cursorPos
    vecIndex text pos >>= fun c =>
    if c = '(' then parenScan text false '(' ')' text.length pos 0
    else if c = ')' then parenScan text true ')' '(' text.length pos 0
    else .ok none

/-- What happens after an event: `continue 'get_event`, `break 'get_event`, or
`break 'calculate`. -/
inductive Action where
  | ignore | redraw | quit
  deriving DecidableEq, Repr

/-- `to_ascii_uppercase` (main.rs 370). -/
def charUpper (c : Char) : Char :=
  if 97 ≤ c.toNat ∧ c.toNat ≤ 122 then Char.ofNat (c.toNat - 32) else c

/-- main.rs 376-378: insertion of a character. -/
def insertAtCursor (e : Editor) (c : Char) : Outcome RuntimeErr (Action × Editor) :=
  e.inputs.insertChar e.cursorPos c >>= fun inputs =>
  .ok (.redraw, { e with inputs := inputs, cursorPos := e.cursorPos + 1 })

/-- main.rs 306-379: a character key. -/
def handleChar (e : Editor) (c : Char) (mods : Mods) : Outcome RuntimeErr (Action × Editor) :=
  if !isAscii c then .ok (.ignore, e)
  else
    match mods with
    | .control =>
      if c = 'd' ∨ c = 'z' ∨ c = 'c' then .ok (.quit, e)
      else if c = 'm' ∨ c = 'n' then
        e.inputs.currentLine >>= fun line =>
        matchingParen line e.cursorPos >>= fun r =>
        match r with
        | some pos => .ok (.redraw, { e with cursorPos := pos })
        | none => .ok (.ignore, e)
      else .ok (.ignore, e)
    | .shift => insertAtCursor e (charUpper c)
    | .none => insertAtCursor e c
    | .other => .ok (.ignore, e)

/-- main.rs 412-420, 429-437: the distance of a Left/Right key. -/
def moveDistance : Mods → Option Nat
  | .none => some 1
  | .control => some largeMove
  | .shift => some largeMove
  | .other => none

/-- main.rs 303-474: one event. -/
def handleEvent (e : Editor) : Event → Outcome RuntimeErr (Action × Editor)
  | .key (.char c) mods => handleChar e c mods
  | .key .backspace _ =>
    if e.cursorPos = 0 then .ok (.ignore, e)
    else
      e.inputs.removeChar (e.cursorPos - 1) >>= fun inputs =>
      .ok (.redraw, { e with inputs := inputs, cursorPos := e.cursorPos - 1 })
  | .key .delete _ =>
    e.inputs.currentLine >>= fun line =>
    if e.cursorPos ≥ line.length then .ok (.ignore, e)
    else
      e.inputs.removeChar e.cursorPos >>= fun inputs => .ok (.redraw, { e with inputs := inputs })
  | .key .up _ =>
    match e.inputs.tryEarlier e.db with
    | (.ok true, inputs, db) =>
      inputs.currentLine >>= fun line =>
      .ok (.redraw, { e with inputs := inputs, db := db, cursorPos := line.length,
                             scrollOffset := 0 })
    | (.ok false, inputs, db) => .ok (.ignore, { e with inputs := inputs, db := db })
    | (.err err, _, _) => .err err
    | (.panic k, _, _) => .panic k
    | (.diverge, _, _) => .diverge
  | .key .down _ =>
    match e.inputs.tryLater with
    | (true, inputs) =>
      inputs.currentLine >>= fun line =>
      .ok (.redraw, { e with inputs := inputs, cursorPos := line.length, scrollOffset := 0 })
    | (false, inputs) => .ok (.ignore, { e with inputs := inputs })
  | .key .left mods =>
    match moveDistance mods with
    | none => .ok (.ignore, e)
    | some distance =>
      .ok (.redraw, { e with
        cursorPos := if distance ≥ e.cursorPos then 0 else e.cursorPos - distance })
  | .key .right mods =>
    match moveDistance mods with
    | none => .ok (.ignore, e)
    | some distance =>
      e.inputs.currentLine >>= fun line =>
      .ok (.redraw, { e with
        cursorPos := if distance ≥ line.length ∨ e.cursorPos ≥ line.length - distance
          then line.length else e.cursorPos + distance })
  | .key .home _ => .ok (.redraw, { e with cursorPos := 0 })
  | .key .end _ =>
    e.inputs.currentLine >>= fun line => .ok (.redraw, { e with cursorPos := line.length })
  | .key .enter _ => .ok (.redraw, { e with inputComplete := true })
  | .key .other _ => .ok (.ignore, e)
  | .paste => .err (.internal "Paste unimplemented!".toList)
  | .resize width => .ok (.redraw, { e with cols := width })
  | .other => .ok (.ignore, e)

/-- The terminal's answers when a new line starts (main.rs 165-166). -/
structure TermInfo where
  startCol : Nat
  startRow : Nat
  cols : Nat
  deriving DecidableEq, Repr

/-- main.rs 162-167: the start of the `'calculate` loop. -/
def Editor.newLine (e : Editor) (t : TermInfo) : Editor :=
  { e with cursorPos := 0, scrollOffset := 0, startRow := t.startRow, startCol := t.startCol,
           cols := t.cols, inputComplete := false }

/-- main.rs 478-493: evaluation of a completed line.  The line is read before `calculate` is
called. -/
def finishLine (m : Machine) (ce : CommandExecutor) (e : Editor) :
    Outcome RuntimeErr (Shown × Editor) :=
  e.inputs.currentLine >>= fun input =>
  match calculate m ce input e.session with
  | (r, s) =>
    shown r >>= fun out =>
    .ok (out, { e with args := s.args, db := s.db, inputs := s.inputs.getD e.inputs,
                       vars := s.vars.getD e.vars })

/-- What one event makes visible. -/
structure StepOut where
  drawings : List Drawing
  output : Option Shown
  quit : Bool
  deriving DecidableEq, Repr

/-- main.rs 169-509: from one event to the point where the next one is awaited.  `t` is what the
terminal reports if a new line starts. -/
def step (m : Machine) (ce : CommandExecutor) (e : Editor) (ev : Event) (t : TermInfo) :
    Outcome RuntimeErr (StepOut × Editor) :=
  handleEvent e ev >>= fun (action, e) =>
  match action with
  | .ignore => .ok ({ drawings := [], output := none, quit := false }, e)
  | .quit => .ok ({ drawings := [], output := none, quit := true }, e)
  | .redraw =>
    draw m e >>= fun (d, e) =>
    if e.inputComplete then
      finishLine m ce e >>= fun (out, e) =>
      draw m (e.newLine t) >>= fun (d', e) =>
      .ok ({ drawings := [d, d'], output := some out, quit := false }, e)
    else .ok ({ drawings := [d], output := none, quit := false }, e)

/-- main.rs 149-175: the state in which the editor awaits its first event (after the first
redraw). -/
def Editor.start (m : Machine) (args : Args) (db : Option SavedData) (t : TermInfo) :
    Outcome RuntimeErr (Drawing × Editor) :=
  draw m { args := args, db := if args.noDb then none else db,
           inputs := InputHistory.new (if args.noDb then none else db).isSome,
           vars := VariableStore.new, cursorPos := 0, scrollOffset := 0,
           startRow := t.startRow, startCol := t.startCol, cols := t.cols, inputComplete := false }

/-- A whole session: the events in turn, until one quits. -/
def runEvents (m : Machine) (ce : CommandExecutor) : Editor → List (Event × TermInfo) →
    Outcome RuntimeErr (List StepOut × Editor)
  | e, [] => .ok ([], e)
  | e, (ev, t) :: rest =>
    step m ce e ev t >>= fun (out, e) =>
    if out.quit then .ok ([out], e)
    else runEvents m ce e rest >>= fun (outs, e) => .ok (out :: outs, e)

end Bcalc
