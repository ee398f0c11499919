import Verif.Spec.Denote

/-! # Where evaluation may crash -/

namespace Bcalc.Spec

/-- The power `b ^ e` cannot be computed: in a build with overflow checks the sum of the two precision
settings is at least 255; or it is zero to a negative power; or it is a root of a number of
magnitude strictly between 0 and 1. -/
def PowerCrash (m : Machine) (args : Args) (b e : Rat) : Prop :=
  (m.overflowChecks = true ∧ 255 ≤ args.precision + args.extraPrecision) ∨
  (b = 0 ∧ e < 0) ∨
  (e.den ≠ 1 ∧ b ^ e.num ≠ 0 ∧ |b ^ e.num| < 1 ∧ (b ^ e.num < 0 → Odd e.den))

/-- Evaluating the node (and not a part of it) crashes: its operands have values, and it is a
modulus by zero or a power or square root that cannot be computed. -/
inductive CrashPoint (m : Machine) (args : Args) : Node → Env → Prop
  | modulus {p n n' env a env1 env2} : n.execute m args env = (.ok a, env1) →
      n'.execute m args env1 = (.ok 0, env2) → CrashPoint m args (.binary .modulus p n n') env
  | power {p n n' env a b env1 env2} : n.execute m args env = (.ok a, env1) →
      n'.execute m args env1 = (.ok b, env2) → PowerCrash m args a b →
      CrashPoint m args (.binary .exponent p n n') env
  | sqrt {p n env a env1} : n.execute m args env = (.ok a, env1) →
      PowerCrash m args a (1 / 2) → CrashPoint m args (.unary .squareRoot p n) env

end Bcalc.Spec
