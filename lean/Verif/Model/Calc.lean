import Verif.Model.Commands

/-! # Model of `calculate` and of the one-shot branch of `main` (src/main.rs) -/

namespace Bcalc

/-- main.rs 523-526: recording the input. -/
def recordInput : Sess (Option Int) := fun s =>
  match s.inputs with
  | none => (.ok none, s)
  | some inputs =>
    match inputs.inputFinished s.db with
    | (r, inputs', db') =>
      (r.mapErr Failure.runtime, { s with inputs := some inputs', db := db' })

/-- One call of `vars.touch` in the loops of main.rs 542-544, 561-563. -/
def touchOne (id : Option Int) (name : Str) : Sess Unit := fun s =>
  match s.vars with
  | none => (.ok (), s)
  | some vars =>
    match vars.touch name id s.db with
    | (r, vars', db') =>
      (r.mapErr Failure.runtime, { s with vars := some vars', db := db' })

/-- main.rs 541-545, 551, 561-563: touching each name in turn, if there is a variable store. -/
def touchAll (id : Option Int) : List Str → Sess Unit
  | [] => fun s => (.ok (), s)
  | name :: rest => (touchOne id name).andThen fun _ => touchAll id rest

/-- main.rs 552-560: the names of the variable tokens. -/
def variableNames (tokens : List PTok) : List Str :=
  tokens.filterMap fun t => match t.value with
    | .variable name => some name
    | _ => none

/-- main.rs 573-587: displaying a result. -/
def displayResult (args : Args) (result : Rat) : Outcome Failure Str :=
  if args.fractional then .ok (ratDisplay result)
  else
    let outputRadix := args.convertToRadix.getD args.radix
    makeDecimalString result outputRadix args.precision args.commas args.upper

/-- Run the syntax tree on the session's variables and database (main.rs 571). -/
def executeTree (m : Machine) (tree : SyntaxTree) (id : Option Int) : Sess Rat := fun s =>
  match tree.execute m s.args id { vars := s.vars, db := s.db } with
  | (r, env) => (r, { s with vars := env.vars, db := env.db })

/-- main.rs 551-587: the part of `calculate` that handles an expression. -/
def calculateTokens (m : Machine) (id : Option Int) (tokens : List PTok) : Sess Str := fun s =>
  ((match s.vars with
    | some _ => touchAll id (m.hashOrder (variableNames tokens))
    | none => fun s => (.ok (), s) : Sess Unit).andThen fun _ =>
   if tokens = [] then fun s => (.ok [], s)
   else
    St.andThen (St.lift ((SyntaxTree.new tokens).mapErr Failure.ofSyntax)) fun tree =>
    (executeTree m tree id).andThen fun result s => (displayResult s.args result, s)) s

/-- main.rs 530-548: the part of `calculate` that handles a command. -/
def calculateCommand (m : Machine) (ce : CommandExecutor) (id : Option Int)
    (name arguments : Positioned Str) : Sess Str :=
  (ce.executeCommand m name arguments).andThen fun (message, touched) s =>
  ((match s.vars with
    | some _ => touchAll id touched
    | none => fun s => (.ok (), s) : Sess Unit).andThen fun _ s => (.ok message, s)) s

/-- main.rs 513-588 `calculate`. -/
def calculate (m : Machine) (ce : CommandExecutor) (input : Str) : Sess Str :=
  recordInput.andThen fun id s =>
  match tokenize input s.args.radix with
  | .err e => (.err (Failure.ofParse e), s)
  | .panic k => (.panic k, s)
  | .diverge => (.diverge, s)
  | .ok (.tokens tokens) => calculateTokens m id tokens s
  | .ok (.command name arguments) => calculateCommand m ce id name arguments s

/-- What the program shows for one input. -/
inductive Shown where
  /-- a result, on standard output -/
  | result (text : Str)
  /-- "Error: " and the message -/
  | inputError (message : Str)
  /-- a runtime error -/
  | runtimeError (e : RuntimeErr)
  deriving DecidableEq, Repr

/-- main.rs 112-116, 489-492: how the outcome of `calculate` is shown. -/
def shown : Outcome Failure Str → Outcome RuntimeErr Shown
  | .ok text => .ok (.result text)
  | .err (.input message _) => .ok (.inputError message)
  | .err (.runtime e) => .ok (.runtimeError e)
  | .panic k => .panic k
  | .diverge => .diverge

/-- main.rs 96-118: `main` with `--input`: no database, no history, no variable store.  A runtime
error ends the program with that error. -/
def oneShot (m : Machine) (args : Args) (input : Str) : Outcome RuntimeErr Shown :=
  match CommandExecutor.new with
  | .ok ce =>
    match calculate m ce input { args := args, db := none, inputs := none, vars := none } with
    | (.err (.runtime e), _) => .err e
    | (r, _) => shown r
  | .panic k => .panic k
  | .err _ => .diverge
  | .diverge => .diverge

end Bcalc
