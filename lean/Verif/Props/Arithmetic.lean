import Verif.Proof.Eval2
import Verif.Model.Calc

/-! # C19 – C29: arithmetic -/

namespace Bcalc
open Spec

/-- A machine for the examples. -/
def exMachine (checks : Bool) : Machine := ⟨checks, 20, id⟩

/-- A session without database whose variables are as given. -/
def exEnv (vars : List (Str × Rat)) : Env := ⟨some ⟨vars⟩, none⟩

/-! ## C19 Arithmetic is exact -/

/-- What an expression over these operators evaluates to is the number mathematics assigns to it,
under the values the variables have in the session after the evaluation. -/
theorem C19_exact (m : Machine) (args : Args) (h2 : 2 ≤ args.radix) (n : Node) (ha : Arithmetic n)
    (env env' : Env) (v : Rat) (h : n.execute m args env = (.ok v, env')) :
    denote (sessionValues env') n = some v :=
  denote_of_value (execute_value m args h2 n h) ha

/-- If all variables have values in the session and no divisor is zero, the evaluation succeeds with
that number, whatever the settings, and changes nothing. -/
theorem C19_succeeds (m : Machine) (args : Args) (env : Env) (n : Node) (v : Rat)
    (h : denote (sessionValues env) n = some v) : n.execute m args env = (.ok v, env) :=
  execute_of_denote m args env n h

mutual
/-- The outcome (result, error and state) does not depend on any setting. -/
theorem C19_settings (m m' : Machine) (args args' : Args) :
    ∀ (n : Node), Arithmetic n → n.execute m args = n.execute m' args'
  | .number v p, _ => rfl
  | .variable x p, _ => rfl
  | .paren p q n, .paren h => by unfold Node.execute; exact C19_settings m m' args args' n h
  | .unary o p n, .unary ho h => by
    unfold Node.execute
    rw [C19_settings m m' args args' n h]
    cases o <;> first | rfl | exact absurd rfl ho
  | .binary o p n n', .binary h1 h2 h h' => by
    unfold Node.execute
    rw [C19_settings m m' args args' n h, C19_settings m m' args args' n' h']
    cases o <;> first | rfl | exact absurd rfl h1 | exact absurd rfl h2
  | .function f p ns q, .function h => by
    unfold Node.execute
    rw [C19_settingsList m m' args args' ns h]
theorem C19_settingsList (m m' : Machine) (args args' : Args) :
    ∀ (ns : List Node), (∀ n ∈ ns, Arithmetic n) → executeList m args ns = executeList m' args' ns
  | [], _ => rfl
  | n :: ns, h => by
    unfold executeList
    rw [C19_settings m m' args args' n (h n (by simp)),
      C19_settingsList m m' args args' ns fun n hn => h n (by simp [hn])]
end

/-- The whole language: what any expression evaluates to is its value, powers and roots up to the
tolerance. -/
theorem C19_value (m : Machine) (args : Args) (h2 : 2 ≤ args.radix)
    (hp : args.precision + args.extraPrecision ≤ 254) (n : Node) (env env' : Env) (v : Rat)
    (h : n.execute m args env = (.ok v, env')) :
    Value (1 / (args.radix : Rat) ^ (args.precision + args.extraPrecision + 1))
      (sessionValues env') n v := by
  have := execute_value m args h2 n h
  unfold usedTolerance tolerance at this
  rwa [Nat.mod_eq_of_lt (by omega)] at this

/-- `1/3 + 1/6`, and `-(max($x, 2) / 7)` with `$x = 3`. -/
example : denote (fun _ => none) (.binary .add ⟨0, 1⟩
      (.binary .divide ⟨0, 1⟩ (.number 1 ⟨0, 1⟩) (.number 3 ⟨0, 1⟩))
      (.binary .divide ⟨0, 1⟩ (.number 1 ⟨0, 1⟩) (.number 6 ⟨0, 1⟩))) = some (1 / 2) ∧
    denote (sessionValues (exEnv [("$x".toList, 3)]))
      (.unary .negate ⟨0, 1⟩ (.binary .divide ⟨0, 1⟩ (.function .max ⟨0, 1⟩
        [.variable "$x".toList ⟨0, 1⟩, .number 2 ⟨0, 1⟩] ⟨0, 1⟩) (.number 7 ⟨0, 1⟩))) =
      some (-(3 / 7)) := by
  decide +kernel

/-! ## C20 Division by zero -/

theorem C20_zero_divisor (m : Machine) (args : Args) (p : Position) (n n' : Node)
    (env env1 env2 : Env) (a : Rat) (h : n.execute m args env = (.ok a, env1))
    (h' : n'.execute m args env1 = (.ok 0, env2)) :
    (Node.binary .divide p n n').execute m args env =
      (.err (.input "Cannot divide by 0".toList (some p)), env2) := by
  unfold Node.execute
  rw [andThen_of_ok h, andThen_of_ok h']
  simp only [St.lift, applyBinary, Rat.num_zero, if_true]
  rfl

/-- The error of a division that the evaluation comes to is the outcome of the whole calculation,
which then assigns nothing. -/
theorem C20_reported (m : Machine) (args : Args) (t : SyntaxTree) (id : Option Int)
    (p : Position) (n n' : Node) (env env' env1 env2 : Env) (a : Rat)
    (hr : Reaches m args t.root env (.binary .divide p n n') env')
    (h : n.execute m args env' = (.ok a, env1)) (h' : n'.execute m args env1 = (.ok 0, env2)) :
    t.execute m args id env = (.err (.input "Cannot divide by 0".toList (some p)), env2) := by
  have hz := C20_zero_divisor m args p n n' env' env1 env2 a h h'
  rcases reaches_fails' hr hz (.inl ⟨_, rfl⟩) with ⟨e, env3, h1, h3⟩ | ⟨k, env3, h1, h3⟩
  · cases h1
    unfold SyntaxTree.execute
    exact andThen_of_err h3
  · cases h1

theorem C20_nonzero_divisor (m : Machine) (args : Args) (p : Position) (n n' : Node)
    (env env1 env2 : Env) (a b : Rat) (h : n.execute m args env = (.ok a, env1))
    (h' : n'.execute m args env1 = (.ok b, env2)) (hb : b ≠ 0) :
    (Node.binary .divide p n n').execute m args env = (.ok (a / b), env2) := by
  unfold Node.execute
  rw [andThen_of_ok h, andThen_of_ok h']
  simp [St.lift, applyBinary, ratDiv, hb]

/-- `1 + 2/(3-3)` -/
example : oneShot (exMachine true) .default "1 + 2/(3-3)".toList =
    .ok (.inputError "Cannot divide by 0".toList) := by decide +kernel

/-- The division of `1 + 2/(3-3)` is reached. -/
example : ∃ env', Reaches (exMachine true) .default
    (.binary .add ⟨2, 1⟩ (.number 1 ⟨0, 1⟩) (.binary .divide ⟨5, 1⟩ (.number 2 ⟨4, 1⟩)
      (.binary .subtract ⟨8, 1⟩ (.number 3 ⟨7, 1⟩) (.number 3 ⟨9, 1⟩)))) (exEnv [])
    (.binary .divide ⟨5, 1⟩ (.number 2 ⟨4, 1⟩)
      (.binary .subtract ⟨8, 1⟩ (.number 3 ⟨7, 1⟩) (.number 3 ⟨9, 1⟩))) env' :=
  ⟨exEnv [], .right (v := 1) (env1 := exEnv []) (by simp [Node.execute, St.lift]) .here⟩

/-! ## C21 Modulus -/

theorem C21_remainder (m : Machine) (args : Args) (p : Position) (n n' : Node)
    (env env1 env2 : Env) (a b : Rat) (h : n.execute m args env = (.ok a, env1))
    (h' : n'.execute m args env1 = (.ok b, env2)) (hb : b ≠ 0) :
    ∃ v, (Node.binary .modulus p n n').execute m args env = (.ok v, env2) ∧
      (∃ z : Int, a = b * z + v) ∧ |v| < |b| ∧ 0 ≤ a * v := by
  obtain ⟨v, hv, hr⟩ := ratRem_spec (ε := Failure) a b hb
  refine ⟨v, ?_, hr⟩
  unfold Node.execute
  rw [andThen_of_ok h, andThen_of_ok h']
  simp [St.lift, applyBinary, hv]

/-- Rounding toward zero. -/
def truncated (q : Rat) : Int := if 0 ≤ q then ⌊q⌋ else ⌈q⌉

theorem truncated_remainder (a b : Rat) (hb : b ≠ 0) :
    Remainder a b (a - b * (truncated (a / b) : Rat)) := by
  have key : a - b * (truncated (a / b) : Rat) = b * (a / b - (truncated (a / b) : Rat)) := by
    field_simp
  refine ⟨⟨truncated (a / b), by ring⟩, ?_, ?_⟩
  · rw [key, abs_mul]
    have : |a / b - (truncated (a / b) : Rat)| < 1 := by
      unfold truncated
      split
      · rw [abs_lt]
        have h1 := Int.floor_le (a / b)
        have h3 := Int.lt_floor_add_one (a / b)
        constructor <;> linarith
      · rw [abs_lt]
        have h1 := Int.le_ceil (a / b)
        have h3 := Int.ceil_lt_add_one (a / b)
        constructor <;> linarith
    have hb' : 0 < |b| := abs_pos.2 hb
    nlinarith
  · rw [key]
    have hab : a = b * (a / b) := by field_simp
    have : 0 ≤ (a / b) * (a / b - (truncated (a / b) : Rat)) := by
      unfold truncated
      split
      · rename_i h
        have h1 := Int.floor_le (a / b)
        exact mul_nonneg h (by linarith)
      · rename_i h
        have h1 := Int.le_ceil (a / b)
        exact mul_nonneg_of_nonpos_of_nonpos (by linarith) (by linarith)
    have h2 : a * (b * (a / b - (truncated (a / b) : Rat))) =
        b ^ 2 * ((a / b) * (a / b - (truncated (a / b) : Rat))) := by
      field_simp
    rw [h2]
    exact mul_nonneg (sq_nonneg b) this

/-- The closed formula. -/
theorem C21_formula (m : Machine) (args : Args) (p : Position) (n n' : Node)
    (env env1 env2 : Env) (a b : Rat) (h : n.execute m args env = (.ok a, env1))
    (h' : n'.execute m args env1 = (.ok b, env2)) (hb : b ≠ 0) :
    (Node.binary .modulus p n n').execute m args env =
      (.ok (a - b * (truncated (a / b) : Rat)), env2) := by
  obtain ⟨v, hv, hr⟩ := C21_remainder m args p n n' env env1 env2 a b h h' hb
  rw [hv, remainder_unique hr (truncated_remainder a b hb)]

/-- These three conditions determine the number. -/
theorem C21_unique (a b v w : Rat)
    (hv : (∃ z : Int, a = b * z + v) ∧ |v| < |b| ∧ 0 ≤ a * v)
    (hw : (∃ z : Int, a = b * z + w) ∧ |w| < |b| ∧ 0 ≤ a * w) : v = w :=
  remainder_unique hv hw

/-- The crash on a zero divisor. -/
theorem C21_zero_divisor_panics (m : Machine) (args : Args) (p : Position) (n n' : Node)
    (env env1 env2 : Env) (a : Rat) (h : n.execute m args env = (.ok a, env1))
    (h' : n'.execute m args env1 = (.ok 0, env2)) :
    (Node.binary .modulus p n n').execute m args env = (.panic .divisionByZero, env2) := by
  unfold Node.execute
  rw [andThen_of_ok h, andThen_of_ok h']
  simp [St.lift, applyBinary, ratRem_zero]

/-- The same from the text. -/
theorem C21_violation : oneShot (exMachine true) .default "1 % 0".toList = .panic .divisionByZero := by
  decide +kernel

example : oneShot (exMachine true) .default "-7.5 % 2".toList = .ok (.result "-1.5".toList) := by
  decide +kernel

/-! ## C22 Integer powers -/

/-- No overflow of the precision sum. -/
def PrecisionFits (m : Machine) (args : Args) : Prop :=
  m.overflowChecks = true → args.precision + args.extraPrecision ≤ 254

theorem u8Add_of_fits {m : Machine} {args : Args} (h : PrecisionFits m args) :
    ∃ t, (u8Add m args.precision args.extraPrecision : Outcome Failure Nat) = .ok t ∧
      t = (args.precision + args.extraPrecision) % 256 ∧ (m.overflowChecks = true → t < 255) := by
  unfold u8Add
  by_cases hlt : args.precision + args.extraPrecision < 256
  · rw [if_pos hlt]
    exact ⟨_, rfl, (Nat.mod_eq_of_lt hlt).symm, fun hc => by have := h hc; omega⟩
  · rw [if_neg hlt]
    cases hc : m.overflowChecks with
    | true => have := h hc; omega
    | false => exact ⟨_, rfl, rfl, by simp⟩

/-- The power as the root part. -/
theorem power_eq {m : Machine} {args : Args} (h2 : 2 ≤ args.radix) (hp : PrecisionFits m args)
    (p : Position) {b e : Rat} (hdef : b ≠ 0 ∨ 0 ≤ e) :
    (u8Add m args.precision args.extraPrecision >>= fun totalPrecision =>
      liftMath p (exponentiate m b e totalPrecision args.radix)) =
    liftMath p (rootPart m.fuel (b ^ e.num) e.den (usedTolerance args)) := by
  obtain ⟨t, ht, hmod, hlt⟩ := u8Add_of_fits hp
  rw [ht]
  simp only [Outcome.bind_ok]
  rcases exponentiate_cases m b e t args.radix h2 with ⟨h1, h3, hx⟩ | ⟨_, h1, h3, hx⟩ | ⟨_, _, hx⟩
  · rcases hdef with h | h
    · exact absurd h1 h
    · exact absurd h3 (not_lt.2 h)
  · have := hlt h1; omega
  · rw [hx, hmod, Nat.mod_add_mod]; rfl

theorem executePower {m : Machine} {args : Args} {p : Position} {n n' : Node}
    {env env1 env2 : Env} {b e : Rat} (h : n.execute m args env = (.ok b, env1))
    (h' : n'.execute m args env1 = (.ok e, env2)) :
    (Node.binary .exponent p n n').execute m args env =
      (u8Add m args.precision args.extraPrecision >>= fun totalPrecision =>
        liftMath p (exponentiate m b e totalPrecision args.radix), env2) := by
  unfold Node.execute
  rw [andThen_of_ok h, andThen_of_ok h']
  rfl

theorem executeSqrt {m : Machine} {args : Args} {p : Position} {n : Node}
    {env env1 : Env} {b : Rat} (h : n.execute m args env = (.ok b, env1)) :
    (Node.unary .squareRoot p n).execute m args env =
      (u8Add m args.precision args.extraPrecision >>= fun totalPrecision =>
        liftMath p (exponentiate m b (1 / 2) totalPrecision args.radix), env1) := by
  unfold Node.execute
  rw [andThen_of_ok h]
  rfl

theorem C22_integer_power (m : Machine) (args : Args) (h2 : 2 ≤ args.radix)
    (hp : m.overflowChecks = true → args.precision + args.extraPrecision ≤ 254)
    (p : Position) (n n' : Node) (env env1 env2 : Env) (b : Rat) (k : Int)
    (h : n.execute m args env = (.ok b, env1)) (h' : n'.execute m args env1 = (.ok (k : Rat), env2))
    (hdef : b ≠ 0 ∨ 0 ≤ k) :
    (Node.binary .exponent p n n').execute m args env = (.ok (b ^ k), env2) := by
  have hpf : PrecisionFits m args := hp
  rw [executePower h h', power_eq h2 hpf p (hdef.imp_right fun h => by exact_mod_cast h)]
  simp [rootPart, liftMath, Outcome.mapErr]

/-- Spelled out for natural exponents: repeated multiplication, its reciprocal, and `b ^ 0 = 1`. -/
theorem C22_natural_power (m : Machine) (args : Args) (h2 : 2 ≤ args.radix)
    (hp : m.overflowChecks = true → args.precision + args.extraPrecision ≤ 254)
    (p : Position) (n n' : Node) (env env1 env2 : Env) (b : Rat) (k : Nat)
    (h : n.execute m args env = (.ok b, env1)) :
    (n'.execute m args env1 = (.ok (k : Rat), env2) →
      (Node.binary .exponent p n n').execute m args env =
        (.ok ((List.replicate k b).prod), env2)) ∧
    (n'.execute m args env1 = (.ok (-(k : Rat)), env2) → b ≠ 0 →
      (Node.binary .exponent p n n').execute m args env =
        (.ok (1 / (List.replicate k b).prod), env2)) := by
  refine ⟨fun h' => ?_, fun h' hb => ?_⟩
  · rw [C22_integer_power m args h2 hp p n n' env env1 env2 b (k : Int) h (by simpa using h')
      (.inr (by omega))]
    simp
  · rw [C22_integer_power m args h2 hp p n n' env env1 env2 b (-(k : Int)) h (by simpa using h')
      (.inl hb)]
    simp

theorem C22_zero_to_negative_panics (m : Machine) (args : Args) (h2 : 2 ≤ args.radix)
    (hf : 0 < m.fuel) (p : Position) (n n' : Node) (env env1 env2 : Env) (e : Rat)
    (h : n.execute m args env = (.ok 0, env1)) (h' : n'.execute m args env1 = (.ok e, env2))
    (he : e < 0) :
    ∃ k, (Node.binary .exponent p n n').execute m args env = (.panic k, env2) := by
  rw [executePower h h']
  obtain ⟨k, hk⟩ := (power_crash h2 hf p 0 e).2 (.inr (.inl ⟨rfl, he⟩))
  exact ⟨k, by rw [hk]⟩

theorem C22_violation : oneShot (exMachine true) .default "0 ^ -1".toList = .panic .divisionByZero := by
  decide +kernel

example : oneShot (exMachine true) .default "1.5 ^ -3".toList = .ok (.result "0.29630".toList) ∧
    oneShot (exMachine true) .default "0 ^ 0".toList = .ok (.result "1".toList) := by
  decide +kernel

/-! ## C23 No real root, no number -/

/-- The message. -/
def imaginaryMsg : Str :=
  "Unable to take the root of a negative number except unless the degree is an odd integer".toList

/-- Even root of a negative number: an error at the operator. -/
theorem C23_even_root_of_negative (m : Machine) (args : Args) (h2 : 2 ≤ args.radix)
    (hp : m.overflowChecks = true → args.precision + args.extraPrecision ≤ 254)
    (p : Position) (n n' : Node) (env env1 env2 : Env) (b e : Rat)
    (h : n.execute m args env = (.ok b, env1)) (h' : n'.execute m args env1 = (.ok e, env2))
    (hb : b < 0) (he : Even e.den) :
    (Node.binary .exponent p n n').execute m args env =
      (.err (.input imaginaryMsg (some p)), env2) := by
  have hodd : Odd e.num := by
    rcases Int.even_or_odd e.num with h | h
    · exfalso
      have h1 : 2 ∣ e.num.natAbs := Int.natAbs_even.2 h |>.two_dvd
      have h3 := Nat.dvd_gcd h1 he.two_dvd
      rw [e.reduced] at h3
      omega
    · exact h
  have hr : b ^ e.num < 0 := hodd.zpow_neg hb
  rw [executePower h h', power_eq h2 hp p (.inl hb.ne), rootPart_imaginary hr he]
  rfl

theorem half_den : ((1 : Rat) / 2).den = 2 := by decide +kernel
theorem half_num : ((1 : Rat) / 2).num = 1 := by decide +kernel

theorem C23_sqrt_of_negative (m : Machine) (args : Args) (h2 : 2 ≤ args.radix)
    (hp : m.overflowChecks = true → args.precision + args.extraPrecision ≤ 254)
    (p : Position) (n : Node) (env env1 : Env) (b : Rat)
    (h : n.execute m args env = (.ok b, env1)) (hb : b < 0) :
    (Node.unary .squareRoot p n).execute m args env =
      (.err (.input imaginaryMsg (some p)), env1) := by
  rw [executeSqrt h, power_eq h2 hp p (.inl hb.ne), half_den, half_num, zpow_one,
    rootPart_imaginary hb (by decide)]
  rfl

/-- A number is never returned for an even root of a negative number, in no build, under no
settings; and the sign of a returned root is that of the radicand. -/
theorem C23_number_implies_real (m : Machine) (args : Args) (h2 : 2 ≤ args.radix)
    (p : Position) (n n' : Node) (env env1 env2 env3 : Env) (b e v : Rat)
    (h : n.execute m args env = (.ok b, env1)) (h' : n'.execute m args env1 = (.ok e, env2))
    (hv : (Node.binary .exponent p n n').execute m args env = (.ok v, env3)) :
    (b < 0 → Odd e.den) ∧ (b < 0 → Odd e.num → v < 0) ∧ (b < 0 → Even e.num → 0 < v) ∧
      (0 < b → 0 < v) := by
  rw [executePower h h'] at hv
  have hpv := power_ok h2 (Prod.mk.inj hv).1
  refine ⟨?_, ?_, ?_, ?_⟩
  · intro hb
    by_contra hc
    have he : Even e.den := Nat.not_odd_iff_even.1 hc
    have hodd : Odd e.num := by
      rcases Int.even_or_odd e.num with h | h
      · exfalso
        have h1 : 2 ∣ e.num.natAbs := Int.natAbs_even.2 h |>.two_dvd
        have h3 := Nat.dvd_gcd h1 he.two_dvd
        rw [e.reduced] at h3
        omega
      · exact h
    exact hc (hpv.real (hodd.zpow_neg hb))
  · intro hb ho
    exact hpv.sign_neg (ho.zpow_neg hb)
  · intro hb he
    exact hpv.sign_pos (he.zpow_pos hb.ne)
  · intro hb
    exact hpv.sign_pos (zpow_pos hb _)

example : oneShot (exMachine true) .default "(0-8)^(1/3)".toList = .ok (.result "-2".toList) ∧
    oneShot (exMachine true) .default "sqrt(0-4)".toList = .ok (.inputError
      imaginaryMsg) := by
  decide +kernel

/-! ## C24 Perfect powers have exact roots -/

theorem rootPart_exact {f : Nat} {r : Rat} {d : Nat} {ε : Rat} (hd : d ≠ 0) {k : Int}
    (hk : (k : Rat) ^ d = r) (hs : Even d → 0 ≤ k) : rootPart f r d ε = .ok (k : Rat) := by
  unfold rootPart
  by_cases h1 : d = 1
  · rw [if_pos h1, ← hk, h1, pow_one]
  rw [if_neg h1]
  have hnn : ¬ (r < 0 ∧ d % 2 = 0) := by
    rintro ⟨ha, hb⟩
    have : (0 : Rat) ≤ (k : Rat) ^ d := (Nat.even_iff.2 hb).pow_nonneg _
    linarith
  rw [if_neg hnn]
  have hki : (k : Rat) ^ d = ((k ^ d : Int) : Rat) := by push_cast; rfl
  have hmag : |k| ≤ |k ^ d| := by
    rw [abs_pow]
    rcases eq_or_ne k 0 with h0 | h0
    · rw [h0]; simp
    · exact le_self_pow₀ (Int.one_le_abs h0) hd
  have htr : ratTrunc r = k ^ d := by
    unfold ratTrunc
    rw [← hk, hki]
    simp
  have hf : fMagnitude r d k = 0 := by unfold fMagnitude; rw [hk]; simp
  have hbis : bisect r d (if r < 0 then ratTrunc r else 0) (if r < 0 then 0 else ratTrunc r) = k := by
    by_cases hr : r < 0
    · rw [if_pos hr, if_pos hr, htr]
      have hodd : Odd d := by
        rcases Nat.even_or_odd d with h | h
        · exact absurd ⟨hr, Nat.even_iff.1 h⟩ hnn
        · exact h
      have hkd : k ^ d < 0 := by rw [← hk, hki] at hr; exact_mod_cast hr
      have hk0 : k < 0 := hodd.pow_neg_iff.1 hkd
      rw [abs_of_neg hkd, abs_of_neg hk0] at hmag
      exact bisect_exact hd (by omega) (by omega) (.inr hodd) hk
    · rw [if_neg hr, if_neg hr, htr]
      have hkd : 0 ≤ k ^ d := by rw [← hk, hki] at hr; exact_mod_cast not_lt.1 hr
      have hk0 : 0 ≤ k := by
        rcases Nat.even_or_odd d with h | h
        · exact hs h
        · exact h.pow_nonneg_iff.1 hkd
      rw [abs_of_nonneg hkd, abs_of_nonneg hk0] at hmag
      exact bisect_exact hd (by omega) (by omega) (.inl le_rfl) hk
  simp only [hbis, hf, if_true]

/-- `b ^ (n/d) = k` exactly if `k ^ d = b ^ n`, at any precision, in one step of the search. -/
theorem C24_exact_root (m : Machine) (args : Args) (h2 : 2 ≤ args.radix)
    (hp : m.overflowChecks = true → args.precision + args.extraPrecision ≤ 254)
    (p : Position) (n n' : Node) (env env1 env2 : Env) (b e : Rat) (k : Int)
    (h : n.execute m args env = (.ok b, env1)) (h' : n'.execute m args env1 = (.ok e, env2))
    (hdef : b ≠ 0 ∨ 0 ≤ e) (hk : b ^ e.num = (k : Rat) ^ e.den) (hs : Even e.den → 0 ≤ k) :
    (Node.binary .exponent p n n').execute m args env = (.ok (k : Rat), env2) := by
  rw [executePower h h', power_eq h2 hp p hdef, rootPart_exact e.den_nz hk.symm hs]
  rfl

/-- The square root of a perfect square. -/
theorem C24_sqrt_of_square (m : Machine) (args : Args) (h2 : 2 ≤ args.radix)
    (hp : m.overflowChecks = true → args.precision + args.extraPrecision ≤ 254)
    (p : Position) (n : Node) (env env1 : Env) (k : Nat)
    (h : n.execute m args env = (.ok ((k : Rat) * k), env1)) :
    (Node.unary .squareRoot p n).execute m args env = (.ok (k : Rat), env1) := by
  rw [executeSqrt h, power_eq h2 hp p (.inr (by norm_num)), half_den, half_num, zpow_one,
    rootPart_exact (by omega) (k := (k : Int)) (by push_cast; ring) (fun _ => by omega)]
  simp [liftMath, Outcome.mapErr]

example : oneShot (exMachine false) .default "sqrt 144 + 27^(2/3)".toList =
    .ok (.result "21".toList) := by decide +kernel

/-! ## C25 Accuracy of roots -/

/-- What is guaranteed for every root: `d - 1` times the tolerance. -/
theorem C25_accuracy (m : Machine) (args : Args) (h2 : 2 ≤ args.radix)
    (hp : args.precision + args.extraPrecision ≤ 254)
    (p : Position) (n n' : Node) (env env1 env2 env3 : Env) (b e v : Rat)
    (h : n.execute m args env = (.ok b, env1)) (h' : n'.execute m args env1 = (.ok e, env2))
    (hv : (Node.binary .exponent p n n').execute m args env = (.ok v, env3))
    (ρ : ℝ) (hρ : ρ ^ e.den = ((b ^ e.num : Rat) : ℝ)) (hs : 0 ≤ b ^ e.num → 0 ≤ ρ) :
    |(v : ℝ) - ρ| ≤
      ((e.den : ℝ) - 1) * (1 / (args.radix : ℝ) ^ (args.precision + args.extraPrecision + 1)) := by
  rw [executePower h h'] at hv
  have hpv := power_ok h2 (Prod.mk.inj hv).1
  have := (hpv.accurate ρ ⟨hρ, hs⟩).linear
  unfold usedTolerance tolerance at this
  rw [Nat.mod_eq_of_lt (by omega)] at this
  push_cast at this
  exact this

/-- Square roots meet the tolerance. -/
theorem C25_sqrt_accuracy (m : Machine) (args : Args) (h2 : 2 ≤ args.radix)
    (hp : args.precision + args.extraPrecision ≤ 254)
    (p : Position) (n : Node) (env env1 env2 : Env) (b v : Rat)
    (h : n.execute m args env = (.ok b, env1))
    (hv : (Node.unary .squareRoot p n).execute m args env = (.ok v, env2))
    (ρ : ℝ) (hρ : ρ * ρ = (b : ℝ)) (hs : 0 ≤ ρ) :
    |(v : ℝ) - ρ| ≤ 1 / (args.radix : ℝ) ^ (args.precision + args.extraPrecision + 1) := by
  rw [executeSqrt h] at hv
  have hpv := power_ok h2 (Prod.mk.inj hv).1
  have := (hpv.accurate ρ
    ⟨by rw [half_den, half_num, zpow_one]; rw [sq]; exact hρ, fun _ => hs⟩).linear
  unfold usedTolerance tolerance at this
  rw [Nat.mod_eq_of_lt (by omega), half_den] at this
  push_cast at this
  linarith

/-- Roots meet the tolerance whatever their degree `d`, as long as `d * d * (d - 1)` is at most twice
the reciprocal of the tolerance. -/
theorem C25_tolerance (m : Machine) (args : Args) (h2 : 2 ≤ args.radix)
    (hp : args.precision + args.extraPrecision ≤ 254)
    (p : Position) (n n' : Node) (env env1 env2 env3 : Env) (b e v : Rat)
    (h : n.execute m args env = (.ok b, env1)) (h' : n'.execute m args env1 = (.ok e, env2))
    (hv : (Node.binary .exponent p n n').execute m args env = (.ok v, env3))
    (hd : e.den * e.den * (e.den - 1) ≤
      2 * args.radix ^ (args.precision + args.extraPrecision + 1))
    (ρ : ℝ) (hρ : ρ ^ e.den = ((b ^ e.num : Rat) : ℝ)) (hs : 0 ≤ b ^ e.num → 0 ≤ ρ) :
    |(v : ℝ) - ρ| ≤ 1 / (args.radix : ℝ) ^ (args.precision + args.extraPrecision + 1) := by
  rw [executePower h h'] at hv
  have hpv := power_ok h2 (Prod.mk.inj hv).1
  have := (hpv.accurate ρ ⟨hρ, hs⟩).quadratic
  unfold usedTolerance tolerance at this
  rw [Nat.mod_eq_of_lt (by omega)] at this
  push_cast at this
  rcases this with h | h
  · exact h
  · have hr : (0 : ℝ) < (args.radix : ℝ) ^ (args.precision + args.extraPrecision + 1) := by
      have : (0 : ℝ) < (args.radix : ℝ) := by exact_mod_cast (by omega : 0 < args.radix)
      positivity
    have hpos : 1 ≤ e.den := e.den_pos
    have hd' : (e.den : ℝ) * e.den * ((e.den : ℝ) - 1) ≤
        2 * (args.radix : ℝ) ^ (args.precision + args.extraPrecision + 1) := by
      have h1 : ((e.den * e.den * (e.den - 1) : Nat) : ℝ) ≤
        ((2 * args.radix ^ (args.precision + args.extraPrecision + 1) : Nat) : ℝ) := by
        exact_mod_cast hd
      push_cast [Nat.cast_sub hpos] at h1
      exact h1
    generalize (args.radix : ℝ) ^ (args.precision + args.extraPrecision + 1) = R at *
    have e1 : ((e.den : ℝ) - 1) * ((e.den : ℝ) * (1 / R)) ^ 2 =
        ((e.den : ℝ) * e.den * ((e.den : ℝ) - 1)) * (1 / R) * (1 / R) := by ring
    rw [e1] at h
    have h3 : ((e.den : ℝ) * e.den * ((e.den : ℝ) - 1)) * (1 / R) * (1 / R) ≤
        2 * R * (1 / R) * (1 / R) := by
      have : 0 ≤ 1 / R := by positivity
      gcongr
    have h4 : 2 * R * (1 / R) * (1 / R) = 2 * (1 / R) := by field_simp
    linarith

/-- A root is never nearer to zero than the true root. -/
theorem C25_never_small (m : Machine) (args : Args) (h2 : 2 ≤ args.radix)
    (p : Position) (n n' : Node) (env env1 env2 env3 : Env) (b e v : Rat)
    (h : n.execute m args env = (.ok b, env1)) (h' : n'.execute m args env1 = (.ok e, env2))
    (hv : (Node.binary .exponent p n n').execute m args env = (.ok v, env3))
    (ρ : ℝ) (hρ : ρ ^ e.den = ((b ^ e.num : Rat) : ℝ)) (hs : 0 ≤ b ^ e.num → 0 ≤ ρ) :
    |ρ| ≤ |(v : ℝ)| := by
  rw [executePower h h'] at hv
  have hpv := power_ok h2 (Prod.mk.inj hv).1
  exact (hpv.accurate ρ ⟨hρ, hs⟩).away

/-- The power of degree `d` of a root is near the radicand. -/
theorem C25_taken_back (m : Machine) (args : Args) (h2 : 2 ≤ args.radix)
    (hp : args.precision + args.extraPrecision ≤ 254)
    (p : Position) (n n' : Node) (env env1 env2 env3 : Env) (b e v : Rat)
    (h : n.execute m args env = (.ok b, env1)) (h' : n'.execute m args env1 = (.ok e, env2))
    (hv : (Node.binary .exponent p n n').execute m args env = (.ok v, env3)) :
    |v ^ e.den - b ^ e.num| ≤ (e.den : Rat) * ((e.den : Rat) - 1) / 2 *
      (|v| + 1 / (args.radix : Rat) ^ (args.precision + args.extraPrecision + 1)) ^ (e.den - 2) *
      (1 / (args.radix : Rat) ^ (args.precision + args.extraPrecision + 1)) ^ 2 := by
  rw [executePower h h'] at hv
  have hpv := power_ok h2 (Prod.mk.inj hv).1
  unfold usedTolerance tolerance at hpv
  rw [Nat.mod_eq_of_lt (by omega)] at hpv
  exact hpv.residual

/-- Such roots are found: with enough iterations, every power whose radicand is zero or of magnitude
at least one, and not negative under an even root, gets a value. -/
theorem C25_found (args : Args) (h2 : 2 ≤ args.radix) (b e : Rat) (hdef : b ≠ 0 ∨ 0 ≤ e)
    (hr : b ^ e.num = 0 ∨ 1 ≤ |b ^ e.num|) (ho : b ^ e.num < 0 → Odd e.den) :
    ∃ F v, ∀ (m : Machine) (p : Position) (n n' : Node) (env env1 env2 : Env),
      (m.overflowChecks = true → args.precision + args.extraPrecision ≤ 254) → F ≤ m.fuel →
      n.execute m args env = (.ok b, env1) → n'.execute m args env1 = (.ok e, env2) →
      (Node.binary .exponent p n n').execute m args env = (.ok v, env2) := by
  rcases rootPart_cases (b ^ e.num) e.den (usedTolerance args) e.den_nz (tolerance_pos h2) with
    ⟨hd, hf⟩ | ⟨_, hn, hev, _⟩ | ⟨_, ⟨hs0, hs1, _⟩, _⟩ | ⟨_, _, _, F, v, hv, hf⟩
  · refine ⟨0, b ^ e.num, fun m p n n' env env1 env2 hp _ h h' => ?_⟩
    rw [executePower h h', power_eq h2 hp p hdef, hf]; rfl
  · exact absurd hev (Nat.not_even_iff_odd.2 (ho hn))
  · rcases hr with h | h
    · exact absurd h hs0
    · exact absurd hs1 (not_lt.2 h)
  · refine ⟨F, v, fun m p n n' env env1 env2 hp hF h h' => ?_⟩
    rw [executePower h h', power_eq h2 hp p hdef, hf _ hF]; rfl

/-- The tolerance itself is not met for larger degrees: with precision 0 and no extra digits (so
tolerance 1/10), `21^(1/20)` gives more than 1.89, although the real root is below 1.2.  The
program prints 2. -/
theorem C25_violation :
    ∃ v, (Node.binary .exponent ⟨2, 1⟩ (.number 21 ⟨0, 2⟩) (.number (1 / 20) ⟨3, 4⟩)).execute
        (exMachine true) { Args.default with precision := 0, extraPrecision := 0 } (exEnv []) =
        (.ok v, exEnv []) ∧
      ∀ ρ : ℝ, ρ ^ 20 = 21 → 0 ≤ ρ → (1 : ℝ) / 10 ^ (0 + 0 + 1) < |(v : ℝ) - ρ| := by
  refine ⟨19 / 10 + 21 / (20 * 2 ^ 19), by decide +kernel, ?_⟩
  intro ρ hρ h0
  have hlt : ρ < 12 / 10 := by
    by_contra hc
    have := pow_le_pow_left₀ (by norm_num) (not_lt.1 hc) 20
    rw [hρ] at this
    norm_num at this
  have : (1 : ℝ) / 10 ^ (0 + 0 + 1) < ((19 / 10 + 21 / (20 * 2 ^ 19) : Rat) : ℝ) - ρ := by
    push_cast
    norm_num
    linarith
  exact lt_of_lt_of_le this (le_abs_self _)

example : oneShot (exMachine true) { Args.default with precision := 0, extraPrecision := 0 }
    "21^(1/20)".toList = .ok (.result "2".toList) := by decide +kernel

example : oneShot (exMachine true) .default "sqrt 2".toList = .ok (.result "1.41421".toList) := by
  decide +kernel

example : (∃ v, (Node.binary .exponent ⟨1, 1⟩ (.number 2 ⟨0, 1⟩) (.number (1 / 3) ⟨2, 3⟩)).execute
      (exMachine true) .default (exEnv []) = (.ok v, exEnv [])) ∧
    (1 / 3 : Rat).den * (1 / 3 : Rat).den * ((1 / 3 : Rat).den - 1) ≤
      2 * Args.default.radix ^ (Args.default.precision + Args.default.extraPrecision + 1) :=
  ⟨⟨9777776702509962569665636074706080652698622229790650047057260065933744830719822135770133215614729711041973070406862678591868066237173481116825587123621288590539903532 /
    7760626511737233594333750775052018914621277325082379755346385089234308240831948363298639089868728122042922950482752179164598134782512383413488870556724171937603586569,
    by decide +kernel⟩, by decide +kernel⟩

example : oneShot (exMachine true) .default "2^(1/3)".toList = .ok (.result "1.25992".toList) := by
  decide +kernel

/-! ## C26 Every calculation terminates -/

/-- From some number of iterations on, the outcome is fixed and is no divergence. -/
theorem C26_expression_terminates (checks : Bool) (args : Args) (h2 : 2 ≤ args.radix) (n : Node)
    (env : Env) : ∃ (F : Nat) (r : Outcome Failure Rat × Env), r.1 ≠ .diverge ∧
      ∀ m : Machine, m.overflowChecks = checks → F ≤ m.fuel → n.execute m args env = r :=
  execute_finishes checks args h2 n env

theorem setVariableTx_ne_diverge (var : Variable) (id : Int) (db : Db) :
    setVariableTx var id db ≠ .diverge := by
  unfold setVariableTx exec
  simp only
  split <;> simp

theorem setVariable_ne_diverge (sd : SavedData) (var : Variable) (id : Int) :
    (sd.setVariable var id).1 ≠ .diverge := by
  unfold SavedData.setVariable
  rcases run_cases sd (setVariableTx var id) with ⟨_, h⟩ | ⟨_, h⟩
  · rw [h]; simp
  · rw [h]
    have := setVariableTx_ne_diverge var id sd.seen
    cases hx : setVariableTx var id sd.seen with
    | diverge => exact absurd hx this
    | _ => simp

theorem update_ne_diverge (vs : VariableStore) (var : Variable) (id : Option Int)
    (db : Option SavedData) : (vs.update var id db).1 ≠ .diverge := by
  unfold VariableStore.update
  cases db with
  | none => cases id <;> simp
  | some sd =>
    cases id with
    | none => simp
    | some i =>
      have := setVariable_ne_diverge sd var i
      simp only [liftDb]
      rcases hx : sd.setVariable var i with ⟨o, sd'⟩
      rw [hx] at this
      cases o <;> simp [Outcome.mapErr] at this ⊢

/-- The same for a whole input line, with its assignment. -/
theorem C26_calculation_terminates (checks : Bool) (args : Args) (h2 : 2 ≤ args.radix)
    (t : SyntaxTree) (id : Option Int) (env : Env) :
    ∃ (F : Nat) (r : Outcome Failure Rat × Env), r.1 ≠ .diverge ∧
      ∀ m : Machine, m.overflowChecks = checks → F ≤ m.fuel → t.execute m args id env = r := by
  unfold SyntaxTree.execute
  refine (execute_finishes checks args h2 t.root env).andThen fun a env' => ?_
  refine ⟨0, _, ?_, fun _ _ _ => rfl⟩
  simp only
  split
  · simp
  · split
    · simp
    · rename_i vars hvars
      have := update_ne_diverge vars ⟨‹Positioned Str›.value, a⟩ id env'.db
      rcases hx : vars.update ⟨‹Positioned Str›.value, a⟩ id env'.db with ⟨o, vs', db'⟩
      rw [hx] at this
      cases o with
      | diverge => exact absurd rfl this
      | _ => simp [hx]

/-- `sqrt 2` takes more than two iterations at the default precision. -/
example :
    ((Node.unary .squareRoot ⟨0, 4⟩ (.number 2 ⟨5, 1⟩)).execute ⟨true, 2, id⟩ .default (exEnv [])).1 =
      .diverge ∧
    ((Node.unary .squareRoot ⟨0, 4⟩ (.number 2 ⟨5, 1⟩)).execute ⟨true, 20, id⟩ .default (exEnv [])).1 ≠
      .diverge := by decide +kernel

/-! ## C27 Crashes -/

/-- Evaluation crashes exactly when it comes to a modulus by zero, a power of zero to a negative
exponent, a root of a number of magnitude strictly between 0 and 1 (not an even root of a negative
number), or, in a build with overflow checks and precision settings adding to 255 or more, any power
or square root. -/
theorem C27_crashes_iff (m : Machine) (hf : 0 < m.fuel) (args : Args) (h2 : 2 ≤ args.radix)
    (n : Node) (env : Env) (hok : ∀ sd, env.db = some sd → VarsOk sd.db) :
    (∃ k, (n.execute m args env).1 = .panic k) ↔
      ∃ s env', Reaches m args n env s env' ∧ CrashPoint m args s env' := by
  constructor
  · rintro ⟨k, hk⟩
    exact panic_reaches m args h2 hf n hok hk
  · rintro ⟨s, env', hr, hc⟩
    obtain ⟨k, hk⟩ := crashPoint_panics h2 hf hc
    rcases reaches_fails hr (.inr ⟨k, hk⟩) with ⟨e, env3, h1, h3⟩ | ⟨k', env3, h1, h3⟩
    · rw [h1] at hk; cases hk
    · exact ⟨k', by rw [h3]⟩

/-- An expression without modulus, powers and roots never crashes. -/
theorem C27_arithmetic_never_crashes (m : Machine) (args : Args) (h2 : 2 ≤ args.radix) (n : Node)
    (ha : Arithmetic n) (env : Env) (hok : ∀ sd, env.db = some sd → VarsOk sd.db) (k : PanicKind) :
    (n.execute m args env).1 ≠ .panic k := by
  intro hk
  rw [C19_settings m ⟨m.overflowChecks, 1, m.hashOrder⟩ args args n ha] at hk
  obtain ⟨s, env', hr, hc⟩ := (C27_crashes_iff _ (by simp) args h2 n env hok).1 ⟨k, hk⟩
  have hs : Arithmetic s := by
    clear hk hc hok
    induction hr with
    | here => exact ha
    | paren _ ih => cases ha with | paren h => exact ih h
    | unary _ ih => cases ha with | unary _ h => exact ih h
    | left _ ih => cases ha with | binary _ _ h _ => exact ih h
    | right _ _ ih => cases ha with | binary _ _ _ h => exact ih h
    | argument _ _ ih => cases ha with | function h => exact ih (h _ (by simp))
  cases hc with
  | modulus => cases hs with | binary h _ _ _ => exact h rfl
  | power => cases hs with | binary _ h _ _ => exact h rfl
  | sqrt => cases hs with | unary h _ => exact h rfl

/-- The crashes, from the text. -/
theorem C27_violation_modulus :
    oneShot (exMachine true) .default "5 % (2 - 2)".toList = .panic .divisionByZero := by decide +kernel
theorem C27_violation_power :
    oneShot (exMachine true) .default "0 ^ -2".toList = .panic .divisionByZero := by decide +kernel
theorem C27_violation_root :
    oneShot (exMachine true) .default "sqrt .5".toList = .panic .divisionByZero := by decide +kernel
theorem C27_violation_overflow :
    oneShot (exMachine true) { Args.default with precision := 250, extraPrecision := 5 }
      "sqrt 4".toList = .panic .arithmetic := by decide +kernel
theorem C27_violation_overflow_sum :
    oneShot (exMachine true) { Args.default with precision := 250, extraPrecision := 10 }
      "2 ^ 2".toList = .panic .arithmetic := by decide +kernel

/-! ## C28 max and min -/

/-- The arguments are evaluated and the largest or smallest is returned. -/
theorem C28_max_min (m : Machine) (args : Args) (f : FnName) (p q : Position) (ns : List Node)
    (env env' : Env) (vs : List Rat) (h : executeList m args ns env = (.ok vs, env'))
    (hne : ns ≠ []) :
    ∃ v ∈ vs, (Node.function f p ns q).execute m args env = (.ok v, env') ∧
      ∀ w ∈ vs, match f with | .max => w ≤ v | .min => v ≤ w := by
  have hvs : vs ≠ [] := by
    cases ns with
    | nil => exact absurd rfl hne
    | cons n ns =>
      unfold executeList at h
      obtain ⟨v, env1, h1, h⟩ := andThen_ok h
      obtain ⟨ws, env2, h3, h⟩ := andThen_ok h
      simp [St.lift] at h
      rw [← h.1]; simp
  cases vs with
  | nil => exact absurd rfl hvs
  | cons a vs =>
    unfold Node.execute
    rw [andThen_of_ok h]
    cases f with
    | max => exact ⟨_, (foldl_max_spec vs a).1, rfl, (foldl_max_spec vs a).2⟩
    | min => exact ⟨_, (foldl_min_spec vs a).1, rfl, (foldl_min_spec vs a).2⟩

/-- The list evaluated is that of the arguments, from left to right. -/
theorem C28_arguments (m : Machine) (args : Args) (ns : List Node) (env env' : Env) (vs : List Rat)
    (h : executeList m args ns env = (.ok vs, env')) :
    List.Forall₂ (fun n v => ∃ e e', n.execute m args e = (.ok v, e')) ns vs := by
  induction ns generalizing env vs with
  | nil => simp [executeList, St.lift] at h; rw [h.1]; exact .nil
  | cons n ns ih =>
    unfold executeList at h
    obtain ⟨v, env1, h1, h⟩ := andThen_ok h
    obtain ⟨ws, env2, h3, h⟩ := andThen_ok h
    simp [St.lift] at h
    obtain ⟨rfl, rfl⟩ := h
    exact .cons ⟨env, env1, h1⟩ (ih _ _ h3)

theorem C28_no_arguments (m : Machine) (args : Args) (f : FnName) (p q : Position) (env : Env) :
    (Node.function f p [] q).execute m args env =
      (.err (.input ((match f with | .max => "Max Function" | .min => "Min Function" : String).toList ++
        " has no arguments but requires them".toList) (some p)), env) := by
  unfold Node.execute executeList
  cases f <;> rfl

example : oneShot (exMachine true) .default "max(1, 5/2, 2) - min(3, 2)".toList =
      .ok (.result "0.5".toList) ∧
    oneShot (exMachine true) .default "max()".toList =
      .ok (.inputError "Max Function has no arguments but requires them".toList) := by decide +kernel

/-! ## C29 The precision at its limits -/

/-- For sums up to 254 the tolerance in use is `radix ^ -(precision + extra + 1)`: it bounds the
distance of two consecutive iterates where the iteration stops, and hence the errors of C25. -/
theorem C29_tolerance (m : Machine) (args : Args) (h2 : 2 ≤ args.radix)
    (hp : args.precision + args.extraPrecision ≤ 254) (p : Position) (b e : Rat)
    (hdef : b ≠ 0 ∨ 0 ≤ e) :
    applyBinary m args .exponent p b e = liftMath p (rootPart m.fuel (b ^ e.num) e.den
      (1 / (args.radix : Rat) ^ (args.precision + args.extraPrecision + 1))) := by
  have := power_eq h2 (m := m) (args := args) (fun _ => hp) p hdef
  unfold usedTolerance tolerance at this
  rw [Nat.mod_eq_of_lt (by omega)] at this
  exact this

/-- In terms of results: what a power evaluates to is the value of the power at that tolerance. -/
theorem C29_result (m : Machine) (args : Args) (h2 : 2 ≤ args.radix)
    (hp : args.precision + args.extraPrecision ≤ 254) (p : Position) (n n' : Node)
    (env env1 env2 env3 : Env) (b e v : Rat) (h : n.execute m args env = (.ok b, env1))
    (h' : n'.execute m args env1 = (.ok e, env2))
    (hv : (Node.binary .exponent p n n').execute m args env = (.ok v, env3)) :
    PowerValue (1 / (args.radix : Rat) ^ (args.precision + args.extraPrecision + 1)) b e v := by
  rw [executePower h h'] at hv
  have hpv := power_ok h2 (Prod.mk.inj hv).1
  unfold usedTolerance tolerance at hpv
  rwa [Nat.mod_eq_of_lt (by omega)] at hpv

/-- At 255 a checked build crashes and an unchecked one uses the tolerance 1 instead: `sqrt 2` is
3/2, and shown with 255 zeros after `1.5`. -/
theorem C29_violation :
    (applyUnary (exMachine true) { Args.default with precision := 255, extraPrecision := 0 }
      .squareRoot ⟨0, 4⟩ 2 = .panic .arithmetic) ∧
    (applyUnary (exMachine false) { Args.default with precision := 255, extraPrecision := 0 }
      .squareRoot ⟨0, 4⟩ 2 = .ok (3 / 2)) ∧
    (Args.CliValid { Args.default with precision := 255, extraPrecision := 0 }) := by
  refine ⟨by decide +kernel, by decide +kernel, ?_⟩
  simp [Args.CliValid, Args.default]

/-- Beyond 255 the tolerance of an unchecked build is that of the sum modulo 256. -/
theorem C29_violation_wraps (m : Machine) (hc : m.overflowChecks = false) (args : Args)
    (h2 : 2 ≤ args.radix) (p : Position) (b e : Rat) (hdef : b ≠ 0 ∨ 0 ≤ e) :
    applyBinary m args .exponent p b e = liftMath p (rootPart m.fuel (b ^ e.num) e.den
      (1 / (args.radix : Rat) ^ ((args.precision + args.extraPrecision + 1) % 256))) :=
  power_eq h2 (fun h => by rw [hc] at h; cases h) p hdef

end Bcalc
