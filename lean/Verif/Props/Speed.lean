import Verif.Proof.Speed
import Verif.Spec.Speed
import Verif.Props.Robust

/-! # C97: roots take few iterations -/

namespace Bcalc
open Spec

/-- At most this many digits are used. -/
theorem tolerance_bound {args : Args} (hv : ValidSettings args) {t j : Nat} (hj : t ≤ j) :
    1 ≤ tolerance args.radix t * 2 ^ (4 * j) := by
  unfold tolerance
  have h0 : (0 : Rat) < args.radix := by exact_mod_cast (by have := hv.radix.1; omega : 0 < args.radix)
  have h1 : (args.radix : Rat) ≤ 2 ^ 4 := by
    have : (args.radix : Rat) ≤ (16 : Nat) := by exact_mod_cast hv.radix.2
    norm_num at this ⊢; exact this
  rw [one_div, inv_mul_eq_div, one_le_div (by positivity), pow_mul]
  exact le_trans (pow_le_pow_left₀ h0.le h1 _) (pow_le_pow_right₀ (by norm_num) hj)

/-- Enough iterations for the root part. -/
theorem rootPart_enough {args : Args} (hv : ValidSettings args) {r e : Rat} (ho : r < 0 → Odd e.den)
    (hr : r = 0 ∨ 1 ≤ |r|) {f : Nat} (hf : iterations args e ≤ f) : 
    ∃ v, rootPart f r e.den (usedTolerance args) = .ok v := by
  by_cases h1 : e.den = 1
  · exact ⟨r, by unfold rootPart; rw [if_pos h1]⟩
  have hd : 2 ≤ e.den := by have := e.den_pos; omega
  unfold iterations at hf
  rw [if_neg h1] at hf
  have hm : (args.precision + args.extraPrecision + 1) % 256 ≤ 255 := by omega
  by_cases h2 : e.den = 2
  · rw [if_pos h2] at hf
    rw [h2] at ho ⊢
    have hr' : r = 0 ∨ 1 ≤ r := by
      refine hr.imp_right fun h => ?_
      have : 0 ≤ r := by
        by_contra hc
        exact absurd (ho (not_le.1 hc)) (by decide)
      rwa [abs_of_nonneg this] at h
    refine rootPart_square hr' 9 ?_ f hf
    have := tolerance_bound hv hm
    unfold usedTolerance
    have e1 : (2 : Rat) ^ (2 ^ (9 + 1)) = 2 ^ (4 * 255) * 16 := by
      rw [show (2 : Nat) ^ (9 + 1) = 4 * 255 + 4 by norm_num, pow_add]; norm_num only
    rw [e1]
    linarith
  · rw [if_neg h2] at hf
    refine rootPart_fast hd ho hr _ ?_ f hf
    have := tolerance_bound hv (Nat.mod_le (args.precision + args.extraPrecision + 1) 256)
    unfold usedTolerance
    rw [pow_add]
    have hp : (0 : Rat) < 2 ^ (e.den - 1) := by positivity
    nlinarith

/-- With enough iterations a power does not go on for ever. -/
theorem power_enough {m : Machine} {args : Args} (hv : ValidSettings args) (p : Position) {b e : Rat}
    (hf : iterations args e ≤ m.fuel) :
    (u8Add m args.precision args.extraPrecision >>= fun totalPrecision =>
      liftMath p (exponentiate m b e totalPrecision args.radix)) ≠ .diverge := by
  have hu : (u8Add m args.precision args.extraPrecision : Outcome Failure Nat) = .ok (args.precision + args.extraPrecision) := by
    unfold u8Add
    rw [if_pos (by have := hv.precision; omega)]
  rw [hu]
  simp only [Outcome.bind_ok]
  have key : exponentiate m b e (args.precision + args.extraPrecision) args.radix ≠ .diverge := by
    rcases exponentiate_cases m b e (args.precision + args.extraPrecision) args.radix hv.radix.1 with
      ⟨_, _, hx⟩ | ⟨_, _, _, hx⟩ | ⟨_, _, hx⟩
    · rw [hx]; simp
    · rw [hx]; simp
    · rw [hx]
      rcases rootPart_cases (b ^ e.num) e.den (usedTolerance args) e.den_nz (tolerance_pos hv.radix.1) with
        ⟨_, h⟩ | ⟨_, _, _, h⟩ | ⟨hd, _, h, _⟩ | ⟨_, hr, ho, _⟩
      · show rootPart _ _ _ (usedTolerance args) ≠ _
        rw [h]; simp
      · show rootPart _ _ _ (usedTolerance args) ≠ _
        rw [h]; simp
      · show rootPart _ _ _ (usedTolerance args) ≠ _
        rw [h]
        · simp
        · refine lt_of_lt_of_le ?_ hf
          unfold iterations
          split_ifs <;> omega
      · show rootPart _ _ _ (usedTolerance args) ≠ _
        obtain ⟨v, hv⟩ := rootPart_enough hv ho hr hf
        rw [hv]; simp
  unfold liftMath
  cases h : exponentiate m b e (args.precision + args.extraPrecision) args.radix with
  | diverge => exact absurd h key
  | _ => simp [Outcome.mapErr]

theorem andThen_diverge {σ α β : Type} {t : St σ α} {f : α → St σ β} {s : σ} (h : (t.andThen f s).1 = .diverge) :
    (t s).1 = .diverge ∨ ∃ a s1, t s = (.ok a, s1) ∧ (f a s1).1 = .diverge := by
  unfold St.andThen at h
  rcases ht : t s with ⟨o, s1⟩
  rw [ht] at h
  cases o with
  | ok a => exact .inr ⟨a, s1, rfl, h⟩
  | err e => simp at h
  | panic k' => simp at h
  | diverge => exact .inl rfl

theorem _root_.Bcalc.Spec.ComesTo.of_reaches {m : Machine} {args : Args} {n s : Node} {env env' : Env} {e : Rat}
    (hr : ∀ t env'', Reaches m args s env' t env'' → Reaches m args n env t env'') (h : ComesTo m args s env' e) :
    ComesTo m args n env e := by
  cases h with
  | power h1 h2 h3 => exact .power (hr _ _ h1) h2 h3
  | sqrt h1 h2 => exact .sqrt (hr _ _ h1) h2

mutual
/-- Evaluation that goes on for ever comes to a power that takes more iterations. -/
theorem diverge_reaches (m : Machine) (args : Args) (hv : ValidSettings args) :
    ∀ (n : Node) {env : Env}, (n.execute m args env).1 = .diverge → ∃ e, ComesTo m args n env e ∧ m.fuel < iterations args e
  | .number v p, env, h => by simp [Node.execute, St.lift] at h
  | .variable x p, env, h => by
    unfold Node.execute at h
    exact absurd h (execVariable_ne_diverge x p env)
  | .paren p q n, env, h => by
    unfold Node.execute at h
    obtain ⟨e, h1, h2⟩ := diverge_reaches m args hv n h
    exact ⟨e, h1.of_reaches fun _ _ => .paren, h2⟩
  | .unary o p n, env, h => by
    unfold Node.execute at h
    rcases andThen_diverge h with h | ⟨a, env1, h1, h⟩
    · obtain ⟨e, h1, h2⟩ := diverge_reaches m args hv n h
      exact ⟨e, h1.of_reaches fun _ _ => .unary, h2⟩
    · simp only [St.lift] at h
      cases o with
      | squareRoot =>
        refine ⟨1 / 2, .sqrt .here h1, ?_⟩
        by_contra hc
        exact power_enough hv p (not_lt.1 hc) h
      | negate => simp [applyUnary] at h
      | absoluteValue => simp [applyUnary] at h
  | .binary o p n n', env, h => by
    unfold Node.execute at h
    rcases andThen_diverge h with h | ⟨a, env1, h1, h⟩
    · obtain ⟨e, h1, h2⟩ := diverge_reaches m args hv n h
      exact ⟨e, h1.of_reaches fun _ _ => .left, h2⟩
    · rcases andThen_diverge h with h | ⟨b, env2, h4, h⟩
      · obtain ⟨e, h5, h2⟩ := diverge_reaches m args hv n' h
        exact ⟨e, h5.of_reaches fun _ _ => .right h1, h2⟩
      · simp only [St.lift] at h
        cases o with
        | exponent =>
          refine ⟨b, .power .here h1 h4, ?_⟩
          by_contra hc
          exact power_enough hv p (not_lt.1 hc) h
        | modulus => exact absurd h (ratRem_ne_diverge a b)
        | divide =>
          exfalso
          by_cases hb : b = 0
          · simp [applyBinary, hb] at h
          · simp [applyBinary, hb, ratDiv] at h
        | _ => simp [applyBinary] at h
  | .function f p ns q, env, h => by
    unfold Node.execute at h
    rcases andThen_diverge h with h | ⟨vs, env1, h1, h⟩
    · obtain ⟨pre, n, post, vs, env1, e, rfl, h1, h3, h4⟩ := diverge_reachesList m args hv ns h
      exact ⟨e, h3.of_reaches fun _ _ => .argument h1, h4⟩
    · exact absurd h (applyFunction_ne_diverge f p vs)
theorem diverge_reachesList (m : Machine) (args : Args) (hv : ValidSettings args) :
    ∀ (ns : List Node) {env : Env}, (executeList m args ns env).1 = .diverge →
      ∃ pre n post vs env1 e, ns = pre ++ n :: post ∧ executeList m args pre env = (.ok vs, env1) ∧
        ComesTo m args n env1 e ∧ m.fuel < iterations args e
  | [], env, h => by simp [executeList, St.lift] at h
  | n :: ns, env, h => by
    unfold executeList at h
    rcases andThen_diverge h with h | ⟨a, env1, h1, h⟩
    · obtain ⟨e, h3, h4⟩ := diverge_reaches m args hv n h
      exact ⟨[], n, ns, [], env, e, rfl, by simp [executeList, St.lift], h3, h4⟩
    · rcases andThen_diverge h with h | ⟨vs, env2, h4, h⟩
      · obtain ⟨pre, n', post, vs, env2, e, rfl, h5, h6, h7⟩ := diverge_reachesList m args hv ns h
        refine ⟨n :: pre, n', post, a :: vs, env2, e, rfl, ?_, h6, h7⟩
        unfold executeList
        rw [andThen_of_ok h1, andThen_of_ok h5]
        rfl
      · simp [St.lift] at h
end

/-! ## C97 Roots take few iterations -/

/-- A square root of a number that is zero or at least one is found within eleven iterations, however large the number
and however many digits are asked for. -/
theorem C97_square_root (m : Machine) (args : Args) (hv : ValidSettings args)
    (hp : m.overflowChecks = true → args.precision + args.extraPrecision ≤ 254) (hf : 11 ≤ m.fuel) (p : Position)
    (n : Node) (env env1 : Env) (b : Rat) (hb : b = 0 ∨ 1 ≤ b) (h : n.execute m args env = (.ok b, env1)) :
    ∃ v, (Node.unary .squareRoot p n).execute m args env = (.ok v, env1) ∧
      PowerValue (usedTolerance args) b (1 / 2) v := by
  have hb0 : 0 ≤ b := by rcases hb with rfl | hb <;> linarith
  have hn : ((1 / 2 : Rat)).num = 1 := by decide +kernel
  have hd : ((1 / 2 : Rat)).den = 2 := by decide +kernel
  have hr : b ^ (1 / 2 : Rat).num = b := by rw [hn, zpow_one]
  obtain ⟨v, hv'⟩ := rootPart_enough hv (r := b ^ (1 / 2 : Rat).num) (e := 1 / 2) (f := m.fuel)
    (by rw [hr]; intro h; linarith) (by rw [hr]; exact hb.imp_right fun h => le_trans h (le_abs_self _)) (by
      unfold iterations; rw [hd]; exact hf)
  have he : (Node.unary .squareRoot p n).execute m args env = (.ok v, env1) := by
    rw [executeSqrt h, power_eq hv.radix.1 hp p (.inr (by norm_num)), hv']
    rfl
  refine ⟨v, he, ?_⟩
  rw [executeSqrt h, Prod.mk.injEq] at he
  exact power_ok hv.radix.1 he.1

/-- The same for other powers: how many iterations are enough depends on the degree of the root and the digits asked
for, and not on the number whose root it is. -/
theorem C97_power (m : Machine) (args : Args) (hv : ValidSettings args)
    (hp : m.overflowChecks = true → args.precision + args.extraPrecision ≤ 254) (p : Position)
    (n n' : Node) (env env1 env2 : Env) (b e : Rat) (hf : iterations args e ≤ m.fuel) (hdef : b ≠ 0 ∨ 0 ≤ e)
    (hr : b ^ e.num = 0 ∨ 1 ≤ |b ^ e.num|) (ho : b ^ e.num < 0 → Odd e.den)
    (h : n.execute m args env = (.ok b, env1)) (h' : n'.execute m args env1 = (.ok e, env2)) :
    ∃ v, (Node.binary .exponent p n n').execute m args env = (.ok v, env2) ∧ PowerValue (usedTolerance args) b e v := by
  obtain ⟨v, hv'⟩ := rootPart_enough hv ho hr hf
  have he : (Node.binary .exponent p n n').execute m args env = (.ok v, env2) := by
    rw [executePower h h', power_eq hv.radix.1 hp p hdef, hv']
    rfl
  refine ⟨v, he, ?_⟩
  rw [executePower h h', Prod.mk.injEq] at he
  exact power_ok hv.radix.1 he.1

/-- The search for where to start: the loop is left after at most as many rounds as the whole part of the number has
binary digits. -/
theorem C97_search (r : Rat) (d k : Nat) (lower upper : Int)
    (hl : lower = if r < 0 then ratTrunc r else 0) (hu : upper = if r < 0 then 0 else ratTrunc r) (hk : |r| < 2 ^ k) :
    (fun b : Int × Int => if b.2 - b.1 > 0 then bisectStep r d b.1 b.2 else b)^[k] (lower, upper) =
      (bisect r d lower upper, bisect r d lower upper) := by
  by_cases h : r < 0
  · rw [if_pos h] at hl hu
    subst hl hu
    rw [abs_of_neg h] at hk
    rw [ratTrunc_of_nonpos h.le]
    refine bisect_rounds r d k _ _ (Int.ceil_le.2 (by simpa using h.le)) ?_
    have h1 : (-(2 ^ k) : Int) < ⌈r⌉ := by
      rw [Int.lt_ceil]; push_cast; linarith
    omega
  · rw [if_neg h] at hl hu
    subst hl hu
    rw [abs_of_nonneg (not_lt.1 h)] at hk
    rw [ratTrunc_of_nonneg (not_lt.1 h)]
    refine bisect_rounds r d k _ _ (Int.floor_nonneg.2 (not_lt.1 h)) ?_
    have h1 : ⌊r⌋ < (2 ^ k : Int) := by
      rw [Int.floor_lt]; push_cast; exact hk
    omega

/-- An evaluation ends if that many iterations are allowed for every power it comes to. -/
theorem C97_expression (m : Machine) (args : Args) (hv : ValidSettings args) (n : Node) (env : Env)
    (h : ∀ e, ComesTo m args n env e → iterations args e ≤ m.fuel) : (n.execute m args env).1 ≠ .diverge := by
  intro hd
  obtain ⟨e, h1, h2⟩ := diverge_reaches m args hv n hd
  exact absurd (h e h1) (not_le.2 h2)

/-- The same for a line. -/
theorem C97_line (m : Machine) (ce : CommandExecutor) (line : Str) (s : Session) (hs : Submitted s line)
    (h : ∀ n env e, Evaluating m line s n env → ComesTo m s.args n env e → iterations s.args e ≤ m.fuel) :
    (calculate m ce line s).1 ≠ .diverge := by
  intro hd
  rcases calculate_end m ce hs with ⟨he, _⟩ | ⟨n, env, hev, _, he⟩
  · exact ends_ne_diverge he hd
  · rcases he with ⟨he, _⟩ | ⟨k, he, _⟩ | ⟨_, he⟩
    · exact ends_ne_diverge he hd
    · rw [hd] at he; cases he
    · exact C97_expression m s.args hs.settings n env (fun e => h n env e hev) he

/-- Two iterations are not enough for the square root of two, with the settings the program starts with. -/
example : ((Node.unary .squareRoot ⟨0, 4⟩ (.number 2 ⟨4, 1⟩)).execute ⟨true, 2, id⟩ .default (exEnv [])).1 = .diverge := by
  decide +kernel

/-- Numbers whose magnitude is between zero and one are excluded for a reason: the program crashes (C27). -/
example : ((Node.unary .squareRoot ⟨0, 4⟩ (.number (1 / 2) ⟨4, 1⟩)).execute ⟨true, 11, id⟩ .default (exEnv [])).1 =
    .panic .divisionByZero := by decide +kernel

/-- Sixteen digits to the place, as many places as there can be: the theorem applies. -/
example : ∃ v, (Node.unary .squareRoot ⟨0, 4⟩ (.number 1000001 ⟨4, 7⟩)).execute ⟨true, 11, id⟩
      { Args.default with radix := 16, precision := 200, extraPrecision := 54 } (exEnv []) = (.ok v, exEnv []) ∧
    PowerValue (usedTolerance { Args.default with radix := 16, precision := 200, extraPrecision := 54 }) 1000001 (1 / 2) v :=
  C97_square_root _ _ ⟨by decide, (by intro r h; cases h), by decide⟩ (by decide) (by decide) _ _ _ _ 1000001
    (.inr (by norm_num)) rfl

example : iterations .default (1 / 3) = 200 := by decide +kernel

/-- What the hypothesis of `C97_expression` says of `2^0.5`. -/
example : ((Node.binary .exponent ⟨1, 1⟩ (.number 2 ⟨0, 1⟩) (.number (1 / 2) ⟨2, 3⟩)).execute ⟨true, 11, id⟩ .default
    (exEnv [])).1 ≠ .diverge := by
  refine C97_expression _ _ ⟨by decide, (by intro r h; cases h), by decide⟩ _ _ fun e h => ?_
  cases h with
  | power h1 h2 h3 =>
    cases h1 with
    | here =>
      unfold Node.execute at h3
      simp only [St.lift, Prod.mk.injEq, Outcome.ok.injEq] at h3
      obtain ⟨rfl, _⟩ := h3
      decide +kernel
    | left h => cases h
    | right _ h => cases h
  | sqrt h1 h2 =>
    cases h1 with
    | left h => cases h
    | right _ h => cases h

/-- Twenty rounds for a million. -/
example : (fun b : Int × Int => if b.2 - b.1 > 0 then bisectStep 1000001 2 b.1 b.2 else b)^[20] (0, 1000001) =
    (1000, 1000) := by decide +kernel

end Bcalc
