import Verif.Spec.Laws
import Verif.Spec.Store
import Verif.Spec.Refusal
import Verif.Spec.Help
import Verif.Spec.Written

/-!
# The calculator on one page

A machine whose state is what a user has to keep in mind: the settings, the values of the variables in this
session, and the saved data.  It answers a line at a time.  Nothing in it speaks of databases, tables, hash maps,
syntax trees in memory, cursors or screens.
-/

namespace Bcalc.Spec

/-- What there is to keep in mind. -/
structure Calculator where
  /-- the settings -/
  settings : Args
  /-- the values that variables have in this session -/
  values : Str → Option Rat
  /-- the saved data (inputs, capacity, variables), unless the session does without -/
  saved : Option Store

/-- The value that a use of a variable finds: the one of the session, and else the saved one. -/
def Calculator.finds (c : Calculator) : Valuation := fun x =>
  match c.values x with
  | some q => some q
  | none =>
    match c.saved with
    | some st => (st.vars x).map (·.1)
    | none => none

/-- In the saved data, these variables have now been used by the newest input. -/
def Store.use (st : Store) (names : List Str) : Store :=
  { st with vars := fun x =>
    if x ∈ names then (st.vars x).map (fun v => (v.1, (st.recorded.length : Int))) else st.vars x }

/-- In the saved data, the variable gets the value from the newest input. -/
def Store.assign (st : Store) (name : Str) (v : Rat) : Store :=
  { st with vars := fun x => if x = name then some (v, (st.recorded.length : Int)) else st.vars x }

/-- In the saved data, the variables lose their values. -/
def Store.forget (st : Store) (names : List Str) : Store :=
  { st with vars := fun x => if x ∈ names then none else st.vars x }

/-- The line is recorded; the oldest input may have to go, and the saved variables that it was the last to use. -/
def Calculator.record (c : Calculator) (line : Str) : Calculator :=
  { c with saved := c.saved.map fun st => { st with recorded := st.recorded ++ [line], kept := st.kept + 1 }.trim }

/-- The variables have now been used by the newest input. -/
def Calculator.use (c : Calculator) (names : List Str) : Calculator :=
  { c with saved := c.saved.map (·.use names) }

open Classical in
/-- The values found for these variables are from now on values of the session. -/
noncomputable def Calculator.remember (c : Calculator) (looked : Str → Prop) : Calculator :=
  { c with values := fun x => if looked x then c.finds x else c.values x }

/-- The variable gets the value, in the session and in the saved data. -/
def Calculator.assign (c : Calculator) (name : Str) (v : Rat) : Calculator :=
  { c with
    values := fun x => if x = name then some v else c.values x
    saved := c.saved.map (·.assign name v) }

/-- The variables lose their values, in the session and in the saved data. -/
def Calculator.forget (c : Calculator) (names : List Str) : Calculator :=
  { c with
    values := fun x => if x ∈ names then none else c.values x
    saved := c.saved.map (·.forget names) }

/-- The variables get the values they have in the saved data, if they have any there. -/
def Calculator.reload (c : Calculator) (st : Store) (names : List Str) : Calculator :=
  { c with values := fun x =>
      if x ∈ names then
        match st.vars x with
        | some v => some v.1
        | none => c.values x
      else c.values x }

/-- Another capacity; the oldest inputs may have to go. -/
def Calculator.limit (c : Calculator) (n : Nat) : Calculator :=
  { c with saved := c.saved.map fun st => { st with cap := n }.trim }

/-- The variables that occur among the words. -/
def variablesOf (ts : List PTok) : List Str :=
  ts.filterMap fun t => match t.value with
    | .variable x => some x
    | _ => none

/-- `Looked V n x`: reading the expression from the left, as far as there are values, the variable is looked up. -/
inductive Looked (V : Node → Rat → Prop) : Node → Str → Prop
  | variable {x p} : Looked V (.variable x p) x
  | paren {p q n x} : Looked V n x → Looked V (.paren p q n) x
  | operand {o p n x} : Looked V n x → Looked V (.unary o p n) x
  | left {o p n n' x} : Looked V n x → Looked V (.binary o p n n') x
  | right {o p n n' a x} : V n a → Looked V n' x → Looked V (.binary o p n n') x
  | argument {f p ns n ns' q vs x} : List.Forall₂ V ns vs → Looked V n x → Looked V (.function f p (ns ++ n :: ns') q) x

/-- A way to evaluate expressions, given the settings and the values of variables: an expression has at most one
value; the value is right, up to the tolerance asked for; and an expression with a value is not refused. -/
structure Evaluator where
  /-- the values -/
  val : Args → Valuation → Node → Rat → Prop
  one : ∀ {args ρ n v v'}, val args ρ n v → val args ρ n v' → v = v'
  right : ∀ {args ρ n v}, ValidSettings args → args.precision + args.extraPrecision ≤ 254 → val args ρ n v →
    Value (askedTolerance args) ρ n v
  accepted : ∀ {args ρ n v t p}, ValidSettings args → args.precision + args.extraPrecision ≤ 254 → val args ρ n v →
    ¬ Refused true ρ (val args ρ) n t p

/-- There is an objection to the command in a session with these settings, with a place for variables, and with
saved data or without. -/
def Calculator.Objects (c : Calculator) (line arguments : Str) (cmd : Cmd) (text : Str) (p : Option Position) : Prop :=
  ∃ s : Session, s.args = c.settings ∧ s.vars.isSome ∧ s.db.isSome = c.saved.isSome ∧ Objection s line arguments cmd text p

/-- The command works with the saved data, and there are none. -/
def Calculator.Lacks (c : Calculator) (cmd : Cmd) : Prop := c.saved = none ∧ (cmd = .histcap ∨ cmd = .reloadVar)

/-- What `/reloadvar` says about a variable. -/
def reloadText (st : Store) (x : Str) : Str :=
  match st.vars x with
  | some v => "Set ".toList ++ x ++ " to ".toList ++ fraction v.1
  | none => x ++ " unchanged".toList

/-- The argument text is the list of these variables. -/
def Variables (arguments : Str) (names : List Str) : Prop :=
  ¬ CommandLine arguments ∧ ∃ ts, Lexes 10 0 arguments ts ∧ ts.map (·.value) = names.map Token.variable

/-- What `/help` says: everything about all commands, or about the one that is named. -/
inductive Calculator.Helps (c : Calculator) (arguments : Str) : Str → Prop
  | listing {text entries} : (∀ ch ∈ arguments, Blank ch) → Listing text entries →
      entries.Pairwise (fun a b => a.1 < b.1) →
      (∀ name, (∃ description, (name, description) ∈ entries) ↔ ∃ cmd, name = (fullName cmd).toList) →
      (∀ cmd description, ((fullName cmd).toList, description) ∈ entries → (MarkedUnavailable description ↔ c.Lacks cmd)) →
      c.Helps arguments text
  | topic {name cmd start text} : (name, cmd) ∈ commandNames → Topic arguments name.toList start →
      ("Usage: /" ++ fullName cmd).toList <+: text →
      (∀ other, (other, cmd) ∈ commandNames → other ≠ fullName cmd →
        ("\nAlias: /" ++ other ++ "\n").toList <:+: text) →
      (SaysUnavailable text ↔ c.Lacks cmd) → c.Helps arguments text

/-- `c.Does line arguments cmd text c'`: the calculator `c`, which has just recorded the line, carries out the
command; it prints the text and is then `c'`. -/
inductive Calculator.Does (c : Calculator) (arguments : Str) : Cmd → Str → Calculator → Prop
  | set {cmd a} : Requests arguments c.settings cmd a → c.Does arguments cmd "Done".toList { c with settings := a }
  | show {cmd} : Setting cmd → NoArgument arguments cmd → c.Does arguments cmd (settingText c.settings cmd) c
  | limit {n : Nat} : c.saved.isSome → Integers arguments [(n : Int)] → 1 ≤ n →
      c.Does arguments .histcap "Done".toList (c.limit n)
  | capacity {st} : c.saved = some st → (∀ ch ∈ arguments, Blank ch) → c.Does arguments .histcap (decimal st.cap) c
  | forget {names} : Variables arguments names → c.Does arguments .purgeVar "Done".toList (c.forget names)
  | reload {st names} {order : List Str} : c.saved = some st → Variables arguments names → order.Nodup →
      (∀ x, x ∈ order ↔ x ∈ names) →
      c.Does arguments .reloadVar (List.intercalate ['\n'] (order.map (reloadText st))) ((c.reload st names).use names)
  | help {text} : c.Helps arguments text → c.Does arguments .help text c

/-- `Enters E c line reply c'`: given the line, the calculator `c` replies (with a text, or with a complaint and the
place it is about) and is then `c'`. -/
inductive Enters (E : Evaluator) (c : Calculator) (line : Str) : Outcome Failure Str → Calculator → Prop
  /-- a character that is not ASCII -/
  | character {pre ch rest} : line = pre ++ ch :: rest → Ascii pre → 128 ≤ ch.toNat →
      Enters E c line (.err (.input "Non-ASCII data in input".toList (some ⟨pre.length, 1⟩))) (c.record line)
  /-- a word that means nothing -/
  | word {w start} : Ascii line → ¬ CommandLine line → FirstBadWord c.settings.radix line w start →
      Enters E c line (.err (.input ("Unable to parse number: '".toList ++ w ++ "'".toList) (some ⟨start, w.length⟩)))
        (c.record line)
  /-- nothing -/
  | blank : (∀ ch ∈ line, Blank ch) → Enters E c line (.ok []) (c.record line)
  /-- words that are no expression -/
  | syntax {ts text p} : Ascii line → ¬ CommandLine line → Lexes c.settings.radix 0 line ts → ts ≠ [] →
      Defect ts text p → Enters E c line (.err (.input text (some p))) ((c.record line).use (variablesOf ts))
  /-- an expression without a value -/
  | refused {ts target n text p V} : Ascii line → ¬ CommandLine line → Lexes c.settings.radix 0 line ts →
      Input ts target n → V = E.val c.settings (c.record line).finds → Refused true (c.record line).finds V n text p →
      Enters E c line (.err (.input text (some p))) (((c.record line).use (variablesOf ts)).remember (Looked V n))
  /-- an expression -/
  | value {ts n v text V} : Ascii line → ¬ CommandLine line → Lexes c.settings.radix 0 line ts → Input ts none n →
      V = E.val c.settings (c.record line).finds → V n v → WrittenAs c.settings v text →
      Enters E c line (.ok text) (((c.record line).use (variablesOf ts)).remember (Looked V n))
  /-- an assignment -/
  | assignment {ts x n v text V} : Ascii line → ¬ CommandLine line → Lexes c.settings.radix 0 line ts →
      Input ts (some x) n → V = E.val c.settings (c.record line).finds → V n v → WrittenAs c.settings v text →
      Enters E c line (.ok text) ((((c.record line).use (variablesOf ts)).remember (Looked V n)).assign x.value v)
  /-- a command that does not exist -/
  | unknown {name arguments p} : NamedCommand line name arguments →
      (∀ n cmd, (n, cmd) ∈ commandNames → n.toList ≠ name) → SlashedAt line name p →
      Enters E c line (.err (.input ("No such command: '".toList ++ name ++ "'".toList) (some p))) (c.record line)
  /-- a command that there is an objection to -/
  | objection {cmd arguments text p} : IsCommand line cmd arguments → c.Objects line arguments cmd text p →
      Enters E c line (.err (.input text p)) (c.record line)
  /-- a command -/
  | command {cmd arguments text c'} : IsCommand line cmd arguments → (c.record line).Does arguments cmd text c' →
      Enters E c line (.ok text) c'

/-- The lines, the replies, and what the calculator is in the end. -/
inductive Converses (E : Evaluator) : Calculator → List (Str × Outcome Failure Str) → Calculator → Prop
  | done {c} : Converses E c [] c
  | line {c line r c1 talk c'} : Enters E c line r c1 → Converses E c1 talk c' →
      Converses E c ((line, r) :: talk) c'

/-- The session begins as the calculator: with its settings and values; and without saved data, or on a database that
nobody else uses, after any operations of any sessions, with what these operations have saved. -/
structure StartsAs (s : Session) (c : Calculator) : Prop where
  settings : s.args = c.settings
  store : s.vars.isSome
  values : ∀ x, sessionValue s x = c.values x
  saved : (s.db = none ∧ c.saved = none) ∨
    ∃ sd ops, s.db = some sd ∧ sd.env = [] ∧ sd.db = after ops newDb ∧ c.saved = some (storeAfter ops)

/-- The session looks like the calculator: it has the same settings, the same values, and, if any, saved data with
the same history, the same capacity and the same variables. -/
structure Resembles (s : Session) (c : Calculator) : Prop where
  settings : s.args = c.settings
  values : ∀ x, sessionValue s x = c.values x
  none : s.db = none ↔ c.saved = none
  saved : ∀ sd st, s.db = some sd → c.saved = some st → historyOf sd.db = st.history ∧ CapacityIs sd.db st.cap ∧
    ∀ x q, Stored sd.db x q ↔ ∃ i, st.vars x = some (q, i)

end Bcalc.Spec
