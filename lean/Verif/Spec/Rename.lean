import Verif.Spec.Independent
import Verif.Spec.Settings
import Verif.Spec.Commands

/-!
# Lines of the same words, but for the names of variables
-/

namespace Bcalc.Spec

/-- The word, with another name if it is a variable. -/
def renamedToken (σ : Str → Str) : Token → Token
  | .variable x => .variable (σ x)
  | t => t

/-- Different variables get different names. -/
def Renaming (σ : Str → Str) : Prop := ∀ x y, VariableName x → VariableName y → σ x = σ y → x = y

/-- Neither line is a command, and the words `ts'` of the second line are the words `ts` of the first, in the same
order, where variables have the names that `σ` gives them.  Blanks, and how numbers are written, may differ. -/
structure SameWords (radix : Nat) (σ : Str → Str) (line line' : Str) (ts ts' : List PTok) : Prop where
  ascii : Ascii line
  ascii' : Ascii line'
  plain : ¬ CommandLine line
  plain' : ¬ CommandLine line'
  words : Lexes radix 0 line ts
  words' : Lexes radix 0 line' ts'
  same : ts'.map (·.value) = ts.map fun t => renamedToken σ t.value

/-- Where the words begin and end. -/
def edges (ts : List PTok) : List Nat := ts.flatMap fun t => [t.position.start, t.position.start + t.position.width]

/-- The places begin at the same edges of corresponding words, and end at the same edges of corresponding
words. -/
def SamePlace (ts ts' : List PTok) (p p' : Position) : Prop :=
  ∃ i j : Nat, (edges ts)[i]? = some p.start ∧ (edges ts)[j]? = some (p.start + p.width) ∧
    (edges ts')[i]? = some p'.start ∧ (edges ts')[j]? = some (p'.start + p'.width)

/-- The replies are the same, but for the names of variables and for the spelling of the line in which a place is
pointed at. -/
inductive SameReply (σ : Str → Str) (ts ts' : List PTok) : Outcome Failure Str → Outcome Failure Str → Prop
  | ok {text} : SameReply σ ts ts' (.ok text) (.ok text)
  | unknown {x p p'} : SamePlace ts ts' p p' → SameReply σ ts ts' (.err (.input ("Unknown variable: ".toList ++ x) (some p)))
      (.err (.input ("Unknown variable: ".toList ++ σ x) (some p')))
  | refused {text p p'} : SamePlace ts ts' p p' →
      SameReply σ ts ts' (.err (.input text (some p))) (.err (.input text (some p')))
  | noInput : SameReply σ ts ts' (.err (.input "No input".toList (some ⟨0, 0⟩))) (.err (.input "No input".toList (some ⟨0, 0⟩)))
  | panic {k} : SameReply σ ts ts' (.panic k) (.panic k)
  | diverge : SameReply σ ts ts' .diverge .diverge

/-- The second session has the same values as the first, under the names that `σ` gives them. -/
def RenamedValues (σ : Str → Str) (s s' : Session) : Prop := ∀ x, VariableName x → sessionValue s' (σ x) = sessionValue s x

/-- Two sessions, each alone with its database (if it has one) and knowing the variables stored there, with the same
settings, and with the same values, under the names that `σ` gives them. -/
structure Counterparts (σ : Str → Str) (s s' : Session) : Prop where
  left : Undisturbed s
  right : Undisturbed s'
  knows : KnowsAll s
  knows' : KnowsAll s'
  args : s'.args = s.args
  values : RenamedValues σ s s'

end Bcalc.Spec
