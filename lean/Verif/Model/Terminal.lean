import Verif.Model.Editor

/-! # Model of the terminal output of src/main.rs

The commands `interactive_calc` sends to the terminal while it runs, and the way `main` sets the
terminal up and restores it.  What a redraw shows is computed in `Verif.Model.Editor` (`Drawing`); here
it becomes the sequence of crossterm commands.  Any of the operations on the terminal may fail. -/

namespace Bcalc

/-- The operations on the terminal (crossterm) that main.rs uses. -/
inductive TermOp where
  /-- `terminal::enable_raw_mode` (main.rs 121) -/
  | enableRaw
  /-- `terminal::disable_raw_mode` (main.rs 124, 134) -/
  | disableRaw
  /-- `EnterAlternateScreen` (main.rs 123) -/
  | enterAlternate
  /-- `LeaveAlternateScreen` (main.rs 132) -/
  | leaveAlternate
  | moveTo (col row : Nat)
  | moveToColumn (col : Nat)
  | moveToNextLine (n : Nat)
  /-- `Clear(CurrentLine)` -/
  | clearCurrentLine
  /-- `Clear(FromCursorDown)` -/
  | clearFromCursorDown
  | print (text : Str)
  /-- `stdout.flush()` -/
  | flush
  /-- `cursor::position()` (main.rs 165) -/
  | queryPosition
  /-- `terminal::size()` (main.rs 166) -/
  | querySize
  /-- `event::read()` (main.rs 304) -/
  | readEvent
  deriving DecidableEq, Repr

/-- main.rs 206-212, 221-227, 499-505: going to the next line. -/
def newLineOps (alternate : Bool) : List TermOp :=
  if alternate then [.moveToNextLine 1] else [.print ['\n'], .moveToColumn 0]

/-- main.rs 198-219: the prompt, the text that fits on the first row, and the rest row by row. -/
def rowOps (alternate : Bool) : List (Str × Str) → List TermOp
  | [] => []
  | [(opener, text)] => [.print opener, .print text]
  | (opener, text) :: rest => [.print opener, .print text] ++ newLineOps alternate ++ rowOps alternate rest

/-- main.rs 186-232: the commands of the wrapped view. -/
def wrappedOps (e : Editor) (d : Drawing) : List TermOp :=
  (if e.args.alternateScreen then [.moveTo e.startCol e.startRow, .clearFromCursorDown]
    else [.moveToColumn 0, .clearCurrentLine]) ++
  rowOps e.args.alternateScreen d.rows ++
  (match d.cursor with
    | some (col, some row) => [.moveTo col row]
    | _ => newLineOps e.args.alternateScreen) ++ [.flush]

/-- main.rs 281-289: the commands of the scrolling view (one row). -/
def scrolledOps (d : Drawing) : List TermOp :=
  [.moveToColumn 0, .clearCurrentLine] ++
  (d.rows.map fun (opener, text) => [TermOp.print opener, TermOp.print text]).flatten ++
  [.print d.closer] ++
  (match d.cursor with
    | some (col, _) => [.moveToColumn col]
    | none => [])

/-- main.rs 175-290: the commands of one redraw. -/
def drawOps (e : Editor) (d : Drawing) : List TermOp :=
  if e.args.alternateScreen || e.inputComplete then wrappedOps e d else scrolledOps d

/-- `str::split('\n')`. -/
def splitLines : Str → List Str
  | [] => [[]]
  | c :: cs =>
    if c = '\n' then [] :: splitLines cs
    else match splitLines cs with
      | [] => [[c]]
      | l :: ls => (c :: l) :: ls

/-- main.rs 489-493: the text shown for the outcome of a calculation.  The text of a runtime error comes from the
libraries and is left open. -/
def Shown.text (errorText : RuntimeErr → Str) : Shown → Str
  | .result text => text
  | .inputError message => "Error: ".toList ++ message
  | .runtimeError e => "Runtime Error: ".toList ++ errorText e

/-- main.rs 495-507: the output, line by line. -/
def outputOps (alternate : Bool) (text : Str) : List TermOp :=
  ((splitLines text).map fun line => [TermOp.print line] ++ newLineOps alternate).flatten ++ [.flush]

/-- An operation, with the settings at that time. -/
structure Act where
  op : TermOp
  args : Args
  deriving DecidableEq, Repr

/-- Operations under the same settings. -/
def acts (args : Args) (ops : List TermOp) : List Act := ops.map (⟨·, args⟩)

/-- What becomes of a part of a session: the operations performed, the settings at the end, and the outcome (whether
the user quit, and the state). -/
abbrev Traced := List Act × Args × Outcome RuntimeErr (Bool × Editor)

/-- main.rs 162-290: a new line starts: the terminal is asked for its state, the prompt is drawn. -/
def newLineTrace (m : Machine) (e : Editor) (t : TermInfo) : Traced :=
  match draw m (e.newLine t) with
  | .ok (d, e') => (acts e.args ([.queryPosition, .querySize] ++ drawOps e' d), e.args, .ok (false, e'))
  | .err err => (acts e.args [.queryPosition, .querySize], e.args, .err err)
  | .panic k => (acts e.args [.queryPosition, .querySize], e.args, .panic k)
  | .diverge => (acts e.args [.queryPosition, .querySize], e.args, .diverge)

/-- main.rs 303-509: from one event to the point where the next one is awaited, as in `step`, with the operations on
the terminal.  (The errors and panics of a redraw come before its first command.) -/
def stepTrace (m : Machine) (ce : CommandExecutor) (errorText : RuntimeErr → Str) (e : Editor) (ev : Event)
    (t : TermInfo) : Traced :=
  match handleEvent e ev with
  | .err err => (acts e.args [.readEvent], e.args, .err err)
  | .panic k => (acts e.args [.readEvent], e.args, .panic k)
  | .diverge => (acts e.args [.readEvent], e.args, .diverge)
  | .ok (.ignore, e1) => (acts e.args [.readEvent], e.args, .ok (false, e1))
  | .ok (.quit, e1) =>
    (acts e.args ([.readEvent] ++ if e.args.alternateScreen then [] else [.print ['\n']]), e.args, .ok (true, e1))
  | .ok (.redraw, e1) =>
    match draw m e1 with
    | .err err => (acts e.args [.readEvent], e.args, .err err)
    | .panic k => (acts e.args [.readEvent], e.args, .panic k)
    | .diverge => (acts e.args [.readEvent], e.args, .diverge)
    | .ok (d, e2) =>
      let before := acts e.args ([.readEvent] ++ drawOps e2 d)
      if e2.inputComplete then
        match finishLine m ce e2 with
        | .err err => (before, e2.args, .err err)
        | .panic k => (before, e2.args, .panic k)
        | .diverge => (before, e2.args, .diverge)
        | .ok (out, e3) =>
          match newLineTrace m e3 t with
          | (after, args, r) =>
            (before ++ acts e3.args (outputOps e3.args.alternateScreen (out.text errorText)) ++ after, args, r)
      else (before, e2.args, .ok (false, e2))

/-- How a session stands or has ended. -/
inductive Ending where
  /-- it awaits an event -/
  | waiting
  /-- the user quit -/
  | done
  /-- `interactive_calc` returned an error -/
  | failed
  /-- a panic -/
  | crashed
  /-- a calculation that does not end -/
  | hung
  deriving DecidableEq, Repr

/-- The ending an outcome stands for. -/
def Ending.of {ε α : Type} : Outcome ε α → Ending
  | .ok _ => .done
  | .err _ => .failed
  | .panic _ => .crashed
  | .diverge => .hung

/-- The loop over the events. -/
def eventsTrace (m : Machine) (ce : CommandExecutor) (errorText : RuntimeErr → Str) :
    Editor → List (Event × TermInfo) → List Act × Args × Ending
  | e, [] => ([], e.args, .waiting)
  | e, (ev, t) :: rest =>
    match stepTrace m ce errorText e ev t with
    | (as, _, .ok (false, e')) =>
      match eventsTrace m ce errorText e' rest with
      | (as', args, r) => (as ++ as', args, r)
    | (as, args, r) => (as, args, Ending.of r)

/-- main.rs 149-511 `interactive_calc`, if no operation on the terminal fails.  `opened` is the result of
`SavedData::open` (main.rs 158), of which nothing is asked with `--no-db`; `t` is what the terminal reports at the
beginning. -/
def interactiveTrace (m : Machine) (ce : CommandExecutor) (errorText : RuntimeErr → Str) (args : Args)
    (opened : Outcome DbError (Option SavedData)) (t : TermInfo) (events : List (Event × TermInfo)) :
    List Act × Args × Ending :=
  match (if args.noDb then .ok none else opened : Outcome DbError (Option SavedData)) with
  | .err _ => ([], args, .failed)
  | .panic _ => ([], args, .crashed)
  | .diverge => ([], args, .hung)
  | .ok db =>
    match Editor.start m args db t with
    | .err _ => (acts args [.queryPosition, .querySize], args, .failed)
    | .panic _ => (acts args [.queryPosition, .querySize], args, .crashed)
    | .diverge => (acts args [.queryPosition, .querySize], args, .hung)
    | .ok (d, e) =>
      match eventsTrace m ce errorText e events with
      | (as, args', r) => (acts args ([.queryPosition, .querySize] ++ drawOps e d) ++ as, args', r)

/-- An operation on the terminal fails: `interactive_calc` returns at once (the `?` after every operation).
`fault` is the number of operations that succeed before; `none`: none fails. -/
def withFault (fault : Option Nat) : List Act × Args × Ending → List Act × Args × Ending
  | (as, args, r) =>
    match fault with
    | none => (as, args, r)
    | some n =>
      match as[n]? with
      | some a => (as.take n, a.args, .failed)
      | none => (as, args, r)

/-- main.rs 96-140: `main` without `--input`: the operations on the terminal, and how it ends.  `rawFails`,
`enterFails`: whether the first two operations fail; the results of the last two are not looked at.  A panic ends the
program where it is. -/
def mainInteractive (m : Machine) (ce : CommandExecutor) (errorText : RuntimeErr → Str) (args : Args)
    (opened : Outcome DbError (Option SavedData)) (rawFails enterFails : Bool) (fault : Option Nat)
    (t : TermInfo) (events : List (Event × TermInfo)) : List TermOp × Ending :=
  if rawFails then ([], .failed)
  else if args.alternateScreen && enterFails then ([.enableRaw, .disableRaw], .failed)
  else
    let setUp := [TermOp.enableRaw] ++ if args.alternateScreen then [TermOp.enterAlternate] else []
    match withFault fault (interactiveTrace m ce errorText args opened t events) with
    | (as, args', r) =>
      let ops := setUp ++ as.map (·.op)
      match r with
      | .done | .failed =>
        (ops ++ (if args'.alternateScreen then [.leaveAlternate] else []) ++ [.disableRaw], r)
      | _ => (ops, r)

end Bcalc
