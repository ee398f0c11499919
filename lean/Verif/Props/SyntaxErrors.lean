import Verif.Proof.Defect2
import Verif.Props.Lexical

/-! # C75 Syntax errors name a real defect, at its place -/

namespace Bcalc
open Spec

/-- The message of every syntax error names a defect of the words, at the place where it is. -/
theorem C75_named (ts : List PTok)
    (ho : ts.Pairwise fun a b => a.position.start + a.position.width ≤ b.position.start)
    (e : Positioned SyntaxError) (h : SyntaxTree.new ts = .err e) : Defect ts e.value.display e.position :=
  new_defect ho h

/-- Words with a defect are never accepted. -/
theorem C75_real (ts : List PTok) (text : Str) (p : Position) (h : Defect ts text p) (t : SyntaxTree) :
    SyntaxTree.new ts ≠ .ok t := by
  intro ht
  exact defect_real h _ _ ((C10_parser_iff_grammar ts t).1 ht)

/-- Words without a defect are always accepted. -/
theorem C75_iff (ts : List PTok)
    (ho : ts.Pairwise fun a b => a.position.start + a.position.width ≤ b.position.start) :
    (∃ t, SyntaxTree.new ts = .ok t) ↔ ¬ ∃ text p, Defect ts text p := by
  constructor
  · rintro ⟨t, ht⟩ ⟨text, p, h⟩
    exact C75_real ts text p h t ht
  · intro h
    rcases C12_total ts with ht | ⟨e, he⟩
    · exact ht
    · exact absurd ⟨_, _, new_defect ho he⟩ h

/-- The words of every line are in order, so this holds for all lines. -/
theorem C75_line (radix : Nat) (h2 : 2 ≤ radix) (hr : radix ≤ 16) (line : Str) (ts : List PTok)
    (ht : tokenize line radix = .ok (.tokens ts)) (e : Positioned SyntaxError) (h : SyntaxTree.new ts = .err e) :
    Defect ts e.value.display e.position :=
  new_defect (lexes_pairwise ((tokenize_tokens_iff h2 hr line ts).1 ht).2.2) h

/-- `2 * max(1, - )`: the argument after the comma is a sign without an operand. -/
example : errorOf (SyntaxTree.new [⟨.number 2, ⟨0, 1⟩⟩, ⟨.binary .multiply, ⟨2, 1⟩⟩, ⟨.function .max, ⟨4, 3⟩⟩,
      ⟨.openParen, ⟨7, 1⟩⟩, ⟨.number 1, ⟨8, 1⟩⟩, ⟨.comma, ⟨9, 1⟩⟩, ⟨.binary .subtract, ⟨11, 1⟩⟩,
      ⟨.closeParen, ⟨13, 1⟩⟩]) = some ⟨.missingOperand (.binary .subtract), ⟨11, 1⟩⟩ := by decide +kernel

/-- `1 + 2 (3)`: the gap between `2` and `(`. -/
example : errorOf (SyntaxTree.new [⟨.number 1, ⟨0, 1⟩⟩, ⟨.binary .add, ⟨2, 1⟩⟩, ⟨.number 2, ⟨4, 1⟩⟩,
      ⟨.openParen, ⟨6, 1⟩⟩, ⟨.number 3, ⟨7, 1⟩⟩, ⟨.closeParen, ⟨8, 1⟩⟩]) = some ⟨.missingOperator, ⟨5, 1⟩⟩ ∧
    Defect [⟨.number 1, ⟨0, 1⟩⟩, ⟨.binary .add, ⟨2, 1⟩⟩, ⟨.number 2, ⟨4, 1⟩⟩,
      ⟨.openParen, ⟨6, 1⟩⟩, ⟨.number 3, ⟨7, 1⟩⟩, ⟨.closeParen, ⟨8, 1⟩⟩]
      "Missing an operator between two consecutive operands".toList ⟨5, 1⟩ :=
  ⟨by decide +kernel, .gap (pre := [_, _]) rfl rfl rfl rfl rfl⟩

end Bcalc
