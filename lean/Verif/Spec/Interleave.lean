import Verif.Spec.Mentions

/-! # Sessions whose operations on the database interleave -/

namespace Bcalc.Spec

/-- The inputs that operations record, in their order.  The n-th input recorded is known as number n. -/
def recordedIn (ops : List DbOp) : List Str :=
  ops.filterMap fun op => match op with
    | .add input => some input
    | _ => none

/-- What has been recorded under the number mentions the variable. -/
def MentionedUnder (before : List DbOp) (i : Int) (x : Str) : Prop :=
  ∃ (k : Nat) (line : Str), i = (k : Int) + 1 ∧ (recordedIn before)[k]? = some line ∧ SpellsOut line x

/-- An operation that comes after those: if it sets or uses a variable on behalf of an input, then the input has been
recorded, and mentions the variable. -/
def Rightful (before : List DbOp) : DbOp → Prop
  | .setVar var i => MentionedUnder before i var.name
  | .touch x i => MentionedUnder before i x
  | _ => True

/-- Each operation is in order, after those before it. -/
def Orderly (ops : List DbOp) : Prop := ∀ before op rest, ops = before ++ op :: rest → Rightful before op

/-- The variable is mentioned by the input that last set or used it, which is in the history. -/
def VariablesMentioned (db : Db) : Prop :=
  ∀ v ∈ db.vars, ∃ r ∈ db.history, r.id = v.lastUsedBy ∧ SpellsOut r.input v.name

/-- The operations of a session (marked) and of others, in the order in which they happen: those of others. -/
def ofOthers (seg : List (Bool × DbOp)) : List DbOp := (seg.filter fun p => !p.1).map (·.2)

/-- Those of the session. -/
def ofItself (seg : List (Bool × DbOp)) : List DbOp := (seg.filter fun p => p.1).map (·.2)

/-- All of them. -/
def allOf (seg : List (Bool × DbOp)) : List DbOp := seg.map (·.2)

/-- The session submits the line, connected to a database on which others work at the same time. -/
structure SubmitsAmid (line : Str) (s : Session) (sd : SavedData) : Prop where
  settings : ValidSettings s.args
  inputs : ∃ h, s.inputs = some h ∧ (h.currentLine : Outcome RuntimeErr Str) = .ok line
  db : s.db = some sd

/-- What happens until the line is recorded: what others do before that is scheduled, and the recording itself, unless
it is scheduled to fail. -/
def recording (line : Str) (env : List EnvStep) : List (Bool × DbOp) :=
  ((env.take 1).flatMap (·.others)).map (fun op => (false, op)) ++
    if (env.take 1).any (·.fault) then [] else [(true, .add line)]

/-- What others have scheduled after the recording. -/
def afterwards (env : List EnvStep) : List DbOp := (env.drop 1).flatMap (·.others)

end Bcalc.Spec
