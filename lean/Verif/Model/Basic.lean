import Mathlib.Data.Rat.Defs
import Mathlib.Data.Rat.Floor
import Mathlib.Data.Nat.Digits.Defs

/-!
# Conventions shared by every model file

Rust `String`/`&str` values are modelled as `List Char`.  Rust results are modelled by
`Outcome`, which keeps Rust's `Ok`/`Err` apart from the two ways a call may fail to
return at all: a panic, and a loop that does not finish.
-/

namespace Bcalc

/-- Rust `String` / `&str` / ASCII `Vec<u8>` (whole crate). -/
abbrev Str := List Char

/-- The reasons for which a Rust expression of this crate can panic. -/
inductive PanicKind where
  /-- integer overflow / underflow in a build with overflow checks -/
  | arithmetic
  /-- division by zero or a zero denominator (num-bigint, num-rational, std) -/
  | divisionByZero
  /-- slice, `Vec` or `String` index out of range -/
  | index
  /-- `Option::unwrap` / `Result::unwrap` on the wrong variant -/
  | unwrap
  /-- num-bigint's assertion that a radix is within 2..=36 -/
  | radixAssertion
  /-- an explicit `panic!` -/
  | explicit
  deriving DecidableEq, Repr

/-- Result of running Rust code: `Ok`, `Err`, a panic, or a loop that has not finished within
the fuel of the `Machine`. -/
inductive Outcome (ε α : Type) where
  | ok (a : α)
  | err (e : ε)
  | panic (k : PanicKind)
  | diverge
  deriving DecidableEq, Repr

namespace Outcome

/-- Rust's `?` operator. -/
def bind {ε α β : Type} : Outcome ε α → (α → Outcome ε β) → Outcome ε β
  | .ok a, f => f a
  | .err e, _ => .err e
  | .panic k, _ => .panic k
  | .diverge, _ => .diverge

instance {ε : Type} : Monad (Outcome ε) where
  pure := .ok
  bind := bind

@[simp] theorem bind_ok {ε α β : Type} (a : α) (f : α → Outcome ε β) :
    (Outcome.ok a >>= f) = f a := rfl
@[simp] theorem bind_err {ε α β : Type} (e : ε) (f : α → Outcome ε β) :
    ((Outcome.err e : Outcome ε α) >>= f) = .err e := rfl
@[simp] theorem bind_panic {ε α β : Type} (k : PanicKind) (f : α → Outcome ε β) :
    ((Outcome.panic k : Outcome ε α) >>= f) = .panic k := rfl
@[simp] theorem bind_diverge {ε α β : Type} (f : α → Outcome ε β) :
    ((Outcome.diverge : Outcome ε α) >>= f) = .diverge := rfl
@[simp] theorem pure_eq_ok {ε α : Type} (a : α) : (pure a : Outcome ε α) = .ok a := rfl

/-- Rust's `map_err`. -/
def mapErr {ε ε' α : Type} (f : ε → ε') : Outcome ε α → Outcome ε' α
  | .ok a => .ok a
  | .err e => .err (f e)
  | .panic k => .panic k
  | .diverge => .diverge

/-- The run ended in a panic. -/
def isPanic {ε α : Type} : Outcome ε α → Bool
  | .panic _ => true
  | _ => false

end Outcome

/-- The environment a run happens in; everything the Rust source does not determine.
* `overflowChecks`: whether the crate is compiled with integer overflow checks (`cargo build`)
  or without (`cargo build --release`); Cargo.toml (1-12) sets no profile.
* `fuel`: number of iterations Newton's loop (operations.rs 181-188) may take before the model
  gives up with `diverge`; property C26 shows that enough fuel always exists.
* `hashOrder`: the order in which a `HashSet<String>` built from a list of names is iterated
  (std's `RandomState`); an arbitrary permutation. -/
structure Machine where
  overflowChecks : Bool
  fuel : Nat
  hashOrder : List Str → List Str

/-- `a + b` on `u8` (used in syntax_tree.rs 111, 162 and operations.rs 120): panics on overflow
in a checked build, wraps otherwise. -/
def u8Add {ε : Type} (m : Machine) (a b : Nat) : Outcome ε Nat :=
  if a + b < 256 then .ok (a + b)
  else if m.overflowChecks then .panic .arithmetic
  else .ok ((a + b) % 256)

/-- main.rs 46-94: the options that the model uses.  `input` is not a field here, it is passed to
`main` separately.  `u8` fields are naturals below 256 (see `Args.CliValid`). -/
structure Args where
  radix : Nat
  alternateScreen : Bool
  noDb : Bool
  convertToRadix : Option Nat
  precision : Nat
  extraPrecision : Nat
  fractional : Bool
  commas : Bool
  upper : Bool
  deriving DecidableEq, Repr

/-- main.rs 48-94: the value ranges that clap enforces on the command line
(`range(2..=16)`, `range(1..17)`, `u8`). -/
def Args.CliValid (a : Args) : Prop :=
  2 ≤ a.radix ∧ a.radix ≤ 16 ∧
  (∀ r, a.convertToRadix = some r → 1 ≤ r ∧ r < 17) ∧
  a.precision < 256 ∧ a.extraPrecision < 256

/-- main.rs 46-94: the option values when none is given on the command line. -/
def Args.default : Args where
  radix := 10
  alternateScreen := false
  noDb := false
  convertToRadix := none
  precision := 5
  extraPrecision := 10
  fractional := false
  commas := false
  upper := false

end Bcalc
