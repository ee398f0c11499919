import Verif.Spec.Answer
import Verif.Spec.Settings
import Verif.Model.Editor

/-!
# Sessions that differ only in how they show numbers
-/

namespace Bcalc.Spec

/-- The settings agree, but for those that say how a number is shown: as a fraction, with commas, in capitals, in which
radix. -/
structure SameButDisplay (a b : Args) : Prop where
  radix : a.radix = b.radix
  precision : a.precision = b.precision
  extra : a.extraPrecision = b.extraPrecision
  screen : a.alternateScreen = b.alternateScreen
  noDb : a.noDb = b.noDb

/-- The sessions agree, but for how numbers are shown. -/
structure SessionButDisplay (s s' : Session) : Prop where
  args : SameButDisplay s.args s'.args
  db : s.db = s'.db
  inputs : s.inputs = s'.inputs
  vars : s.vars = s'.vars

/-- Two outcomes: an answer each, related as said, or the same failure. -/
inductive OutcomeAlike {ε α β : Type} (R : α → β → Prop) : Outcome ε α → Outcome ε β → Prop
  | ok {a b} : R a b → OutcomeAlike R (.ok a) (.ok b)
  | err {e} : OutcomeAlike R (.err e) (.err e)
  | panic {k} : OutcomeAlike R (.panic k) (.panic k)
  | diverge : OutcomeAlike R .diverge .diverge

/-- The texts show the same number, each in its own way. -/
def SameNumberShown (a a' : Args) (t t' : Str) : Prop := ∃ q, Displays a q t ∧ Displays a' q t'

/-- Two replies to the line.  To an expression or assignment: the same number, shown in the two ways.  To a blank line:
nothing.  To a command: the same text, or the two settings, when the command is the one that shows the setting. -/
inductive ReplyAlike (a a' : Args) (line : Str) : Str → Str → Prop
  | number {t t'} : ¬ CommandLine line → SameNumberShown a a' t t' → ReplyAlike a a' line t t'
  | blank : (∀ c ∈ line, Blank c) → ReplyAlike a a' line [] []
  | command {t} : CommandLine line → ReplyAlike a a' line t t
  | setting {cmd arguments} : Setting cmd → IsCommand line cmd arguments →
      ReplyAlike a a' line (settingText a cmd) (settingText a' cmd)

/-- What is seen of one event: the same drawings, and the same output, or replies that are alike in that sense. -/
structure SightButDisplay (o o' : StepOut) : Prop where
  drawings : o.drawings = o'.drawings
  quit : o.quit = o'.quit
  output : o.output = o'.output ∨ ∃ a a' line t t', SameButDisplay a a' ∧ ReplyAlike a a' line t t' ∧
    o.output = some (.result t) ∧ o'.output = some (.result t')

/-- The editors agree, but for how numbers are shown. -/
structure EditorButDisplay (e e' : Editor) : Prop where
  args : SameButDisplay e.args e'.args
  rest : { e with args := e'.args } = e'

end Bcalc.Spec
