import Verif.Model.Calc
import Verif.Model.Terminal

/-! # Model of what a run of the program leaves behind: the standard streams and the exit status (src/main.rs 94-140) -/

namespace Bcalc

/-- A finished process: what it wrote to standard output and to standard error, and its exit status.  `none` for
standard error: a text of the Rust runtime (the report of a panic or the `Debug` form of an error), not modelled. -/
structure Finished where
  stdout : Str
  stderr : Option Str
  status : Nat
  deriving DecidableEq, Repr

/-- main.rs 94-118, 140: `main` with `--input`.  `println!` writes the result and a line feed; `eprintln!` writes
"Error: ", the message and a line feed.  Both branches go on to `Ok(())`, exit status 0.  The Rust runtime turns an
error returned from `main` into exit status 1 and a panic into exit status 101.  Simplification: writing to the
streams does not fail. -/
def mainInput (m : Machine) (args : Args) (input : Str) : Outcome Empty Finished :=
  match oneShot m args input with
  | .ok (.result text) => .ok ⟨text ++ ['\n'], some [], 0⟩
  | .ok (.inputError message) => .ok ⟨[], some ("Error: ".toList ++ message ++ ['\n']), 0⟩
  | .ok (.runtimeError _) => .ok ⟨[], none, 1⟩
  | .err _ => .ok ⟨[], none, 1⟩
  | .panic _ => .ok ⟨[], none, 101⟩
  | .diverge => .diverge

/-- main.rs 119-140: the exit status of an interactive session by how it ends; `none`: it has not ended.  `result?`
returns the error of `interactive_calc` from `main`. -/
def exitStatus : Ending → Option Nat
  | .done => some 0
  | .failed => some 1
  | .crashed => some 101
  | .waiting => none
  | .hung => none

end Bcalc
