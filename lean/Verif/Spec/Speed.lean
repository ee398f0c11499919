import Verif.Spec.Denote

/-! # How many iterations powers may take -/

namespace Bcalc.Spec

/-- The iterations of Newton's method that are enough for a power with this exponent: none for whole exponents,
eleven for square roots, and otherwise a number that depends on the degree of the root and the digits asked for,
and not on the number whose root it is. -/
def iterations (args : Args) (e : Rat) : Nat :=
  if e.den = 1 then 0
  else if e.den = 2 then 11
  else e.den * (e.den - 1 + 4 * (args.precision + args.extraPrecision + 1)) + 2

/-- Evaluating `n` from `env` comes to a power or root with the exponent `e` (one half for `sqrt`). -/
inductive ComesTo (m : Machine) (args : Args) (n : Node) (env : Env) : Rat → Prop
  | power {p a b env' env1 env2 x e} : Reaches m args n env (.binary .exponent p a b) env' →
      a.execute m args env' = (.ok x, env1) → b.execute m args env1 = (.ok e, env2) → ComesTo m args n env e
  | sqrt {p a env' env1 x} : Reaches m args n env (.unary .squareRoot p a) env' →
      a.execute m args env' = (.ok x, env1) → ComesTo m args n env (1 / 2)

end Bcalc.Spec
