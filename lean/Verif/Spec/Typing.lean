import Verif.Spec.Editor

/-!
# An ideal line editor, and a conversation without a terminal
-/

namespace Bcalc.Spec

/-- A line of text with a cursor in it: the text before and the text behind the cursor. -/
structure Buffer where
  before : Str
  behind : Str

/-- The whole line. -/
def Buffer.text (b : Buffer) : Str := b.before ++ b.behind

/-- The new line. -/
def Buffer.empty : Buffer := ⟨[], []⟩

/-- What an event makes of the line, if it is one that edits the line (or has no meaning); none for Enter,
Up, Down, quitting, pasting, and the jump to a parenthesis. -/
def Buffer.edit (b : Buffer) : Event → Option Buffer
  | .key (.char c) .none => some (if c.toNat < 128 then ⟨b.before ++ [c], b.behind⟩ else b)
  | .key (.char c) .shift => some (if c.toNat < 128 then ⟨b.before ++ [c.toUpper], b.behind⟩ else b)
  | .key (.char _) .other => some b
  | .key (.char c) .control => if c ∈ ['c', 'd', 'z', 'n', 'm'] then none else some b
  | .key .backspace _ => some ⟨b.before.dropLast, b.behind⟩
  | .key .delete _ => some ⟨b.before, b.behind.tail⟩
  | .key .left .other => some b
  | .key .left mods =>
    some ⟨b.before.take (b.before.length - arrowDistance mods),
      b.before.drop (b.before.length - arrowDistance mods) ++ b.behind⟩
  | .key .right .other => some b
  | .key .right mods =>
    some ⟨b.before ++ b.behind.take (arrowDistance mods), b.behind.drop (arrowDistance mods)⟩
  | .key .home _ => some ⟨[], b.text⟩
  | .key .end _ => some ⟨b.text, []⟩
  | .key .other _ => some b
  | .resize _ => some b
  | .other => some b
  | .key .enter _ | .key .up _ | .key .down _ | .paste => none

/-- What a sequence of editing events makes of the line. -/
def Buffer.edits (b : Buffer) : List Event → Option Buffer
  | [] => some b
  | ev :: evs => match b.edit ev with
    | some b' => b'.edits evs
    | none => none

/-- The editor shows the line with this cursor. -/
def Holds (e : Editor) (b : Buffer) : Prop := Shows e b.text ∧ e.cursorPos = b.before.length

/-- Between two states of the editor only the shown line (with its cursor) and the size of the window may
have changed. -/
structure SameButLine (e e' : Editor) : Prop where
  args : e'.args = e.args
  db : e'.db = e.db
  vars : e'.vars = e.vars
  row : e'.startRow = e.startRow
  history : e'.inputs = { e.inputs with current := e'.inputs.current }
  others : ∀ i, i ≠ e.inputs.index → lineAt e'.inputs i = lineAt e.inputs i

/-- `Keys evs line`: on a new line, these editing events produce the line. -/
def Keys (evs : List Event) (line : Str) : Prop :=
  ∃ b, Buffer.empty.edits evs = some b ∧ b.text = line

/-- `Typed evs lines`: the events consist of editing events producing the first line, Enter, editing events
producing the second line, Enter, and so on (with whatever the terminal reports meanwhile). -/
inductive Typed : List (Event × TermInfo) → List Str → Prop
  | nil : Typed [] []
  | line {evs line mods t rest lines} : Keys (evs.map (·.1)) line → Typed rest lines →
      Typed (evs ++ (.key .enter mods, t) :: rest) (line :: lines)

/-- A session that is about to be given the line. -/
def given (s : Session) (line : Str) : Session :=
  { s with inputs := s.inputs.map fun h => { h with current := [some line], index := 0 } }

/-- A conversation without a terminal: the lines are given to the calculator one after the other; the
answers, and the session afterwards, unless the calculator crashes. -/
def converse (m : Machine) (ce : CommandExecutor) : Session → List Str →
    Outcome RuntimeErr (List Shown × Session)
  | s, [] => .ok ([], s)
  | s, line :: lines =>
    shown (calculate m ce line (given s line)).1 >>= fun answer =>
    converse m ce (calculate m ce line (given s line)).2 lines >>= fun (answers, s') =>
    .ok (answer :: answers, s')

/-- The window is always at least five columns wide (and its size fits the terminal's 16-bit numbers), and a
line of `n` characters would not run out of row numbers. -/
def Roomy (n : Nat) (evs : List (Event × TermInfo)) : Prop :=
  ∀ p ∈ evs, 5 ≤ p.2.cols ∧ p.2.cols < 65536 ∧ n + p.2.startRow < 65536 ∧
    ∀ w, p.1 = .resize w → 5 ≤ w ∧ w < 65536

/-- At a new line: nothing has been typed and no earlier line recalled. -/
def AtPrompt (e : Editor) : Prop :=
  e.inputs.current = [some []] ∧ e.inputs.index = 0 ∧ e.cursorPos = 0

end Bcalc.Spec
