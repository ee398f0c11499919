import Verif.Model.Commands

/-! # The commands and their names -/

namespace Bcalc.Spec

/-- The names the documentation gives for the commands, abbreviations included. -/
def commandNames : List (String × Cmd) :=
  [("help", .help), ("h", .help),
   ("reloadvar", .reloadVar),
   ("purgevar", .purgeVar),
   ("histcap", .histcap),
   ("fractional", .fractional), ("f", .fractional),
   ("radix", .radix), ("r", .radix),
   ("converttoradix", .convertToRadix),
   ("upper", .upper),
   ("commas", .commas), ("comma", .commas),
   ("precision", .precision), ("p", .precision)]

end Bcalc.Spec
