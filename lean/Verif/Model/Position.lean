import Verif.Model.Basic

/-! # Model of src/position.rs -/

namespace Bcalc

/-- position.rs 10-14.  `usize` is modelled by `Nat`: positions never exceed the length of a
string that is held in memory. -/
structure Position where
  start : Nat
  width : Nat
  deriving DecidableEq, Repr

/-- One past the last index of a position (`start + width`). -/
def Position.stop (p : Position) : Nat := p.start + p.width

/-- position.rs 17-24 `Position::from_span`.  The subtraction cannot underflow since
`end >= pos1.start >= start`. -/
def Position.fromSpan (p q : Position) : Position :=
  let start := min p.start q.start
  let stop := max (p.start + p.width) (q.start + q.width)
  { start := start, width := stop - start }

/-- Insert into a sorted list; used to model `sort_unstable` on the four numbers of
`from_between` (position.rs 33). -/
def insertSorted (x : Nat) : List Nat → List Nat
  | [] => [x]
  | y :: ys => if x ≤ y then x :: y :: ys else y :: insertSorted x ys

/-- position.rs 33 `points.sort_unstable()` (on naturals all sorts agree). -/
def sortNat : List Nat → List Nat
  | [] => []
  | x :: xs => insertSorted x (sortNat xs)

/-- position.rs 26-37 `Position::from_between`.  `points` always has four elements, so the
indexing `points[1]`, `points[2]` is in range and the default 0 is never used. -/
def Position.fromBetween (p q : Position) : Position :=
  let points := sortNat [p.start, p.start + p.width, q.start, q.start + q.width]
  let start := points.getD 1 0
  { start := start, width := points.getD 2 0 - start }

/-- position.rs 40-47 `Positioned<T>`. -/
structure Positioned (α : Type) where
  value : α
  position : Position
  deriving DecidableEq, Repr

/-- position.rs 90-95 `Positioned::new_raw`. -/
def Positioned.newRaw {α : Type} (value : α) (start width : Nat) : Positioned α :=
  { value, position := { start, width } }

/-- position.rs 97-102 `Positioned::new_span`. -/
def Positioned.newSpan {α : Type} (value : α) (p q : Position) : Positioned α :=
  { value, position := Position.fromSpan p q }

/-- position.rs 104-109 `Positioned::new_between`. -/
def Positioned.newBetween {α : Type} (value : α) (p q : Position) : Positioned α :=
  { value, position := Position.fromBetween p q }

/-- position.rs 111-120 `Positioned::map`. -/
def Positioned.map {α β : Type} (f : α → β) (p : Positioned α) : Positioned β :=
  { value := f p.value, position := p.position }

/-- Rust's `char::is_ascii_whitespace`: space, tab, line feed, form feed, carriage return. -/
def isAsciiWs (c : Char) : Bool :=
  c == ' ' || c == '\t' || c == '\n' || c == '\x0c' || c == '\r'

/-- position.rs 124-145 `Positioned<String>::trim` (ASCII strings: byte and character indices
agree). -/
def Positioned.trim (p : Positioned Str) : Positioned Str :=
  match p.value.findIdx? (fun c => !isAsciiWs c) with
  | none => { value := [], position := { p.position with width := 0 } }
  | some startTrim =>
    let stopTrim := p.value.length - (p.value.reverse.findIdx (fun c => !isAsciiWs c))
    let v := (p.value.drop startTrim).take (stopTrim - startTrim)
    { value := v, position := { start := p.position.start + startTrim, width := v.length } }

end Bcalc
