import Verif.Proof.Size
import Verif.Spec.Growth
import Verif.Props.Speed

/-! # Proofs about how large numbers get -/

namespace Bcalc
open Spec

theorem atMost_int {B : Nat} {g : Int} (hB : 1 ≤ B) (h : g.natAbs ≤ B) : AtMost B (g : Rat) :=
  ⟨by rw [Rat.num_intCast]; exact h, by rw [Rat.den_intCast]; exact hB⟩

theorem atMost_pow {B : Nat} {a : Rat} (h : AtMost B a) (k : Nat) : AtMost (B ^ k) (a ^ k) :=
  ⟨by rw [Rat.num_pow, Int.natAbs_pow]; exact Nat.pow_le_pow_left h.1 k,
   by rw [Rat.den_pow]; exact Nat.pow_le_pow_left h.2 k⟩

theorem atMost_inv {B : Nat} {a : Rat} (ha : AtMost B a) (h0 : a ≠ 0) : AtMost B a⁻¹ := by
  have h1 : AtMost 1 (1 : Rat) := ⟨by decide, by decide⟩
  have := atMost_quot h1 ha h0
  rwa [Nat.one_mul, one_div] at this

theorem atMost_zpow {B : Nat} {a : Rat} (h : AtMost B a) (k : Int) (h0 : a ≠ 0 ∨ 0 ≤ k) : AtMost (B ^ k.natAbs) (a ^ k) := by
  rcases Int.natAbs_eq k with hk | hk
  · rw [hk, zpow_natCast, Int.natAbs_natCast]; exact atMost_pow h _
  · rw [hk, zpow_neg, zpow_natCast, Int.natAbs_neg, Int.natAbs_natCast]
    by_cases hz : k = 0
    · rw [hz]; simp only [Int.natAbs_zero, pow_zero, inv_one]; exact ⟨by decide, by decide⟩
    · have ha : a ≠ 0 := by
        rcases h0 with h0 | h0
        · exact h0
        · omega
      exact atMost_inv (atMost_pow h _) (pow_ne_zero _ ha)

/-- One iteration. -/
theorem atMost_step {R M : Nat} {r x : Rat} {d : Nat} (hr : AtMost R r) (hx : AtMost M x) (hd : 1 ≤ d) (h0 : x ≠ 0) :
    AtMost (d * R * M ^ d) (newtonStep r d x) := by
  have hn : (x.num : Rat) ≠ 0 := by exact_mod_cast Rat.num_ne_zero.2 h0
  have hxd := den_ne x
  have hrd := den_ne r
  have hdd : (d : Rat) ≠ 0 := by exact_mod_cast (by omega : d ≠ 0)
  obtain ⟨k, rfl⟩ : ∃ k, d = k + 1 := ⟨d - 1, by omega⟩
  have e : newtonStep r (k + 1) x =
      ((r.num * (x.den : Int) ^ (k + 1) + (k : Int) * (r.den : Int) * x.num ^ (k + 1) : Int) : Rat) /
        (((k + 1 : Nat) : Int) * (r.den : Int) * (x.den : Int) * x.num ^ k : Int) := by
    unfold newtonStep
    rw [show k + 1 - 1 = k by omega]
    conv_lhs => rw [eq_num_den r, eq_num_den x]
    push_cast at hdd ⊢
    rw [div_pow, div_pow]
    field_simp
    ring
  have hx1 := hx.one_le
  have hr1 := hr.one_le
  rw [e]
  refine atMost_div ?_ ?_ ?_
  · have : x.num ≠ 0 := Rat.num_ne_zero.2 h0
    have h2 := x.den_nz
    have h3 := r.den_nz
    have : x.num ^ k ≠ 0 := pow_ne_zero _ this
    refine mul_ne_zero (mul_ne_zero (mul_ne_zero ?_ ?_) ?_) this
    · exact_mod_cast (by omega : k + 1 ≠ 0)
    · exact_mod_cast h3
    · exact_mod_cast h2
  · refine (Int.natAbs_add_le _ _).trans ?_
    rw [Int.natAbs_mul, Int.natAbs_mul, Int.natAbs_mul, Int.natAbs_pow, Int.natAbs_pow, Int.natAbs_natCast, Int.natAbs_natCast, Int.natAbs_natCast]
    have h1 : r.num.natAbs * x.den ^ (k + 1) ≤ R * M ^ (k + 1) := Nat.mul_le_mul hr.1 (Nat.pow_le_pow_left hx.2 _)
    have h2 : k * r.den * x.num.natAbs ^ (k + 1) ≤ k * R * M ^ (k + 1) :=
      Nat.mul_le_mul (Nat.mul_le_mul_left _ hr.2) (Nat.pow_le_pow_left hx.1 _)
    calc _ ≤ R * M ^ (k + 1) + k * R * M ^ (k + 1) := Nat.add_le_add h1 h2
      _ = _ := by ring
  · rw [Int.natAbs_mul, Int.natAbs_mul, Int.natAbs_mul, Int.natAbs_pow, Int.natAbs_natCast, Int.natAbs_natCast, Int.natAbs_natCast]
    calc _ ≤ (k + 1) * R * M * M ^ k :=
          Nat.mul_le_mul (Nat.mul_le_mul (Nat.mul_le_mul_left _ hr.2) hx.2) (Nat.pow_le_pow_left hx.1 _)
      _ = _ := by ring

/-- All iterations. -/
theorem newton_size {R d : Nat} {r ε : Rat} (hr : AtMost R r) (hd : 2 ≤ d) : ∀ (f j : Nat) (x v : Rat),
    AtMost ((d * R) ^ (2 * d ^ j - 1)) x → newton r d ε f x = .ok v → AtMost ((d * R) ^ (2 * d ^ (j + f) - 1)) v := by
  have hR := hr.one_le
  have hdR : 1 ≤ d * R := Nat.mul_le_mul (by omega : 1 ≤ d) hR
  have grow : ∀ i k : Nat, i ≤ k → (d * R) ^ (2 * d ^ i - 1) ≤ (d * R) ^ (2 * d ^ k - 1) := fun i k h =>
    Nat.pow_le_pow_right hdR (by have := Nat.pow_le_pow_right (show 0 < d by omega) h; omega)
  intro f
  induction f with
  | zero => intro j x v _ h; simp [newton] at h
  | succ f ih =>
    intro j x v hx h
    unfold newton at h
    by_cases h0 : x = 0
    · exfalso
      rw [h0] at h
      unfold nextX ratDiv at h
      rw [zero_pow (by omega : d - 1 ≠ 0), mul_zero] at h
      simp at h
    · rw [nextX_eq (by omega) h0] at h
      simp only [Outcome.bind_ok] at h
      have hstep : AtMost ((d * R) ^ (2 * d ^ (j + 1) - 1)) (newtonStep r d x) := by
        refine (atMost_step hr hx (by omega) h0).mono ?_
        rw [← pow_mul, ← pow_succ']
        refine Nat.pow_le_pow_right hdR ?_
        have h1 : 1 ≤ d ^ j := Nat.one_le_pow _ _ (by omega)
        rw [pow_succ, Nat.sub_mul, Nat.one_mul, Nat.mul_assoc]
        have h3 : d ≤ 2 * (d ^ j * d) := by nlinarith
        omega
      split at h
      · cases h
        exact hstep.mono (grow _ _ (by omega))
      · have := ih (j + 1) _ v hstep h
        rwa [show j + 1 + f = j + (f + 1) by omega] at this

theorem trunc_size {R : Nat} {r : Rat} (hr : AtMost R r) : (ratTrunc r).natAbs ≤ R := by
  unfold ratTrunc
  rw [Int.natAbs_tdiv]
  exact (Nat.div_le_self _ _).trans hr.1

theorem bisect_size {R : Nat} {r : Rat} (d : Nat) (hr : AtMost R r) :
    (bisect r d (if r < 0 then ratTrunc r else 0) (if r < 0 then 0 else ratTrunc r)).natAbs ≤ R := by
  have ht := trunc_size hr
  by_cases h : r < 0
  · have h1 : ratTrunc r ≤ 0 := by
      rw [ratTrunc_of_nonpos h.le, Int.ceil_le]; push_cast; exact h.le
    rw [if_pos h, if_pos h]
    obtain ⟨h2, h3, _⟩ := bisect_spec r d (ratTrunc r) 0 h1
    omega
  · have h1 : 0 ≤ ratTrunc r := by
      rw [ratTrunc_of_nonneg (not_lt.1 h), Int.le_floor]; push_cast; exact not_lt.1 h
    rw [if_neg h, if_neg h]
    obtain ⟨h2, h3, _⟩ := bisect_spec r d 0 (ratTrunc r) h1
    omega

theorem rootPart_size {args : Args} (hv : ValidSettings args) {R f : Nat} {r e v : Rat} (hr : AtMost R r)
    (h : rootPart f r e.den (usedTolerance args) = .ok v) :
    AtMost (if e.den = 1 then R else (e.den * R) ^ (2 * e.den ^ iterations args e)) v := by
  by_cases h1 : e.den = 1
  · rw [if_pos h1]
    unfold rootPart at h
    rw [if_pos h1] at h
    cases h; exact hr
  rw [if_neg h1]
  have hd : 2 ≤ e.den := by have := e.den_pos; omega
  have hR := hr.one_le
  have hdR : 1 ≤ e.den * R := Nat.mul_le_mul (by omega : 1 ≤ e.den) hR
  have hp : 1 ≤ e.den ^ iterations args e := Nat.one_le_pow _ _ (by omega)
  have hcond : (r = 0 ∨ 1 ≤ |r|) ∧ (r < 0 → Odd e.den) := by
    rcases rootPart_cases r e.den (usedTolerance args) e.den_nz (tolerance_pos hv.radix.1) with
        ⟨hc, _⟩ | ⟨_, _, _, hc⟩ | ⟨_, _, hc, hc'⟩ | ⟨_, hr, ho, _⟩
    · exact absurd hc h1
    · rw [hc] at h; cases h
    · cases f with
      | zero => rw [hc'] at h; cases h
      | succ f => rw [hc _ (by omega)] at h; cases h
    · exact ⟨hr, ho⟩
  obtain ⟨f', hf', h'⟩ : ∃ f' ≤ iterations args e, rootPart f' r e.den (usedTolerance args) = .ok v := by
    rcases Nat.le_total f (iterations args e) with hf | hf
    · exact ⟨f, hf, h⟩
    · refine ⟨_, le_refl _, ?_⟩
      obtain ⟨w, hw⟩ := rootPart_enough hv hcond.2 hcond.1 (le_refl (iterations args e))
      have := rootPart_mono r e.den (usedTolerance args) _ f hf (by rw [hw]; simp)
      rw [hw, h] at this
      rw [hw, this]
  unfold rootPart at h'
  rw [if_neg h1] at h'
  split at h'
  · cases h'
  simp only at h'
  have hg := atMost_int (B := R) hR (bisect_size e.den hr)
  generalize bisect r e.den (if r < 0 then ratTrunc r else 0) (if r < 0 then 0 else ratTrunc r) = g at h' hg
  have hstart : R ≤ (e.den * R) ^ (2 * e.den ^ 0 - 1) := by
    rw [pow_zero]
    show R ≤ (e.den * R) ^ 1
    rw [pow_one]
    exact Nat.le_mul_of_pos_left _ (by omega)
  split at h'
  · cases h'
    refine hg.mono (hstart.trans (Nat.pow_le_pow_right hdR ?_))
    rw [pow_zero]; omega
  · refine (newton_size hr hd f' 0 _ v (hg.mono hstart) h').mono (Nat.pow_le_pow_right hdR ?_)
    rw [Nat.zero_add]
    have := Nat.pow_le_pow_right (show 0 < e.den by omega) hf'
    omega

/-- A power. -/
theorem power_size {m : Machine} {args : Args} (hv : ValidSettings args) {p : Position} {b e v : Rat} {B : Nat}
    (hb : AtMost B b)
    (h : (u8Add m args.precision args.extraPrecision >>= fun totalPrecision =>
      liftMath p (exponentiate m b e totalPrecision args.radix)) = .ok v) : AtMost (powerSize args e B) v := by
  have hu : (u8Add m args.precision args.extraPrecision : Outcome Failure Nat) = .ok (args.precision + args.extraPrecision) := by
    unfold u8Add
    rw [if_pos (by have := hv.precision; omega)]
  rw [hu] at h
  simp only [Outcome.bind_ok] at h
  have h : exponentiate m b e (args.precision + args.extraPrecision) args.radix = .ok v := by
    unfold liftMath at h
    cases hx : exponentiate m b e (args.precision + args.extraPrecision) args.radix with
    | ok w => rw [hx] at h; simp [Outcome.mapErr] at h; rw [h]
    | _ => rw [hx] at h; simp [Outcome.mapErr] at h
  rcases exponentiate_cases m b e (args.precision + args.extraPrecision) args.radix hv.radix.1 with
      ⟨_, _, hx⟩ | ⟨_, _, _, hx⟩ | ⟨h0, _, hx⟩
  · rw [hx] at h; cases h
  · rw [hx] at h; cases h
  · rw [hx] at h
    have hr := atMost_zpow hb e.num (h0.imp_right Rat.num_nonneg.2)
    exact rootPart_size hv hr h

theorem powerSize_mono {args : Args} (e : Rat) {A B : Nat} (h : A ≤ B) : powerSize args e A ≤ powerSize args e B := by
  unfold powerSize
  split
  · exact Nat.pow_le_pow_left h _
  · exact Nat.pow_le_pow_left (Nat.mul_le_mul_left _ (Nat.pow_le_pow_left h _)) _

/-- What is asked of the variables and the exponents an evaluation comes to. -/
def Meets (m : Machine) (args : Args) (B : Nat) (exponents : Node → Rat) (n : Node) (env : Env) : Prop :=
  (∀ x p env' q env'', Reaches m args n env (.variable x p) env' →
    (Node.variable x p).execute m args env' = (.ok q, env'') → AtMost B q) ∧
  (∀ p a b env' env1 x e env2, Reaches m args n env (.binary .exponent p a b) env' →
    a.execute m args env' = (.ok x, env1) → b.execute m args env1 = (.ok e, env2) → e = exponents b)

theorem Meets.of {m : Machine} {args : Args} {B : Nat} {exponents : Node → Rat} {n s : Node} {env env' : Env}
    (h : Meets m args B exponents n env)
    (hr : ∀ t env'', Reaches m args s env' t env'' → Reaches m args n env t env'') : Meets m args B exponents s env' :=
  ⟨fun x p _ q _ h1 h2 => h.1 x p _ q _ (hr _ _ h1) h2, fun p a b _ _ x e _ h1 => h.2 p a b _ _ x e _ (hr _ _ h1)⟩

mutual
theorem execute_size (m : Machine) (args : Args) (hv : ValidSettings args) (B : Nat) (exponents : Node → Rat) :
    ∀ (n : Node) {env env' : Env} {v : Rat}, Meets m args B exponents n env → n.execute m args env = (.ok v, env') →
      AtMost (sizeWithin args B exponents n) v
  | .number w p, env, env', v, _, h => by
    simp [Node.execute, St.lift] at h
    rw [← h.1, sizeWithin]; exact ⟨le_max_left _ _, le_max_right _ _⟩
  | .variable x p, env, env', v, hm, h => by rw [sizeWithin]; exact hm.1 _ _ _ _ _ .here h
  | .paren p q n, env, env', v, hm, h => by
    rw [sizeWithin]
    unfold Node.execute at h
    exact execute_size m args hv B exponents n (hm.of fun _ _ => .paren) h
  | .unary o p n, env, env', v, hm, h => by
    unfold Node.execute at h
    obtain ⟨a, env1, h1, h3⟩ := andThen_ok h
    have ih := execute_size m args hv B exponents n (hm.of fun _ _ => .unary) h1
    simp only [St.lift, Prod.mk.injEq] at h3
    obtain ⟨h3, rfl⟩ := h3
    cases o with
    | squareRoot => rw [sizeWithin]; exact power_size hv ih h3
    | negate => simp [applyUnary] at h3; rw [← h3, sizeWithin.eq_def]; exact atMost_neg ih
    | absoluteValue => simp [applyUnary] at h3; rw [← h3, sizeWithin.eq_def]; exact atMost_abs ih
  | .binary o p n n', env, env', v, hm, h => by
    unfold Node.execute at h
    obtain ⟨a, env1, h1, h⟩ := andThen_ok h
    obtain ⟨b, env2, h4, h3⟩ := andThen_ok h
    have ih := execute_size m args hv B exponents n (hm.of fun _ _ => .left) h1
    have ih' := execute_size m args hv B exponents n' (hm.of fun _ _ => .right h1) h4
    simp only [St.lift, Prod.mk.injEq] at h3
    obtain ⟨h3, rfl⟩ := h3
    rw [sizeWithin.eq_def]
    cases o with
    | add => simp [applyBinary] at h3; rw [← h3]; exact atMost_add ih ih'
    | subtract => simp [applyBinary] at h3; rw [← h3]; exact atMost_sub ih ih'
    | multiply => simp [applyBinary] at h3; rw [← h3]; exact atMost_mul ih ih'
    | divide =>
      simp only [applyBinary] at h3
      split at h3
      · cases h3
      · rename_i hb
        have hb' : b ≠ 0 := by intro h0; exact hb (by rw [h0]; rfl)
        simp [ratDiv, hb'] at h3
        rw [← h3]; exact atMost_quot ih ih' hb'
    | modulus =>
      simp only [applyBinary] at h3
      by_cases hb : b = 0
      · subst hb; rw [ratRem_zero] at h3; cases h3
      · obtain ⟨w, hw, hrem⟩ := ratRem_spec (ε := Failure) a b hb
        rw [hw] at h3
        simp at h3
        rw [← h3]
        exact (atMost_rem ih ih' hrem).mono (by
          show _ ≤ 2 * sizeWithin args B exponents n * sizeWithin args B exponents n'
          rw [Nat.mul_assoc]; omega)
    | exponent =>
      simp only
      rw [← hm.2 _ _ _ _ _ _ _ _ .here h1 h4]
      exact power_size hv ih h3
  | .function f p ns q, env, env', v, hm, h => by
    unfold Node.execute at h
    obtain ⟨vs, env1, h1, h3⟩ := andThen_ok h
    have ih := executeList_size m args hv B exponents ns (env := env)
      (fun pre n post vs env1 e hx => hm.of (s := n) (env' := env1) fun t env'' hr => by rw [e]; exact .argument hx hr) h1
    simp only [St.lift, Prod.mk.injEq] at h3
    obtain ⟨h3, rfl⟩ := h3
    rw [sizeWithin]
    unfold applyFunction at h3
    cases vs with
    | nil => simp at h3
    | cons a vs =>
      cases f with
      | max =>
        simp at h3; rw [← h3]
        exact ih _ (foldl_max_spec vs a).1
      | min =>
        simp at h3; rw [← h3]
        exact ih _ (foldl_min_spec vs a).1
theorem executeList_size (m : Machine) (args : Args) (hv : ValidSettings args) (B : Nat) (exponents : Node → Rat) :
    ∀ (ns : List Node) {env env' : Env} {vs : List Rat},
      (∀ pre n post ws env1, ns = pre ++ n :: post → executeList m args pre env = (.ok ws, env1) →
        Meets m args B exponents n env1) →
      executeList m args ns env = (.ok vs, env') → ∀ v ∈ vs, AtMost (sizeWithinAll args B exponents ns) v
  | [], env, env', vs, _, h, v, hw => by
    simp [executeList, St.lift] at h
    rw [h.1] at hw
    cases hw
  | n :: ns, env, env', vs, hm, h, v, hw => by
    unfold executeList at h
    obtain ⟨a, env1, h1, h⟩ := andThen_ok h
    obtain ⟨ws, env2, h3, h⟩ := andThen_ok h
    simp [St.lift] at h
    obtain ⟨rfl, rfl⟩ := h
    rw [sizeWithinAll]
    rcases List.mem_cons.1 hw with rfl | hw
    · exact (execute_size m args hv B exponents n (hm [] n ns [] env rfl (by simp [executeList, St.lift])) h1).mono
        (le_max_left _ _)
    · refine (executeList_size m args hv B exponents ns (env := env1) (fun pre k post us env3 e hx => ?_) h3 v hw).mono
        (le_max_right _ _)
      refine hm (n :: pre) k post (a :: us) env3 (by rw [e]; rfl) ?_
      unfold executeList
      rw [andThen_of_ok h1, andThen_of_ok hx]
      rfl
end

/-! ## Lines with square roots only -/

theorem powerSize_half (args : Args) (B : Nat) : powerSize args (1 / 2) B = (2 * B) ^ 4096 := by
  have h1 : ((1 / 2 : Rat)).den = 2 := by decide +kernel
  have h2 : ((1 / 2 : Rat)).num = 1 := by decide +kernel
  unfold powerSize iterations
  rw [h1, h2]
  norm_num

theorem powerSize_pos {args : Args} (e : Rat) {B : Nat} (hB : 1 ≤ B) : 1 ≤ powerSize args e B := by
  unfold powerSize
  split
  · exact Nat.one_le_pow _ _ hB
  · exact Nat.one_le_pow _ _ (Nat.mul_le_mul e.den_pos (Nat.one_le_pow _ _ hB))

mutual
theorem sizeWithin_pos {args : Args} {B : Nat} {exponents : Node → Rat} (hB : 1 ≤ B) :
    ∀ n : Node, 1 ≤ sizeWithin args B exponents n
  | .number v _ => by rw [sizeWithin]; exact le_trans v.den_pos (le_max_right _ _)
  | .variable _ _ => by rw [sizeWithin]; exact hB
  | .paren _ _ n => by rw [sizeWithin]; exact sizeWithin_pos hB n
  | .unary o _ n => by
    have := sizeWithin_pos (args := args) (exponents := exponents) hB n
    cases o <;> rw [sizeWithin.eq_def]
    case squareRoot => exact powerSize_pos _ this
    all_goals exact this
  | .binary o _ n n' => by
    have h1 := sizeWithin_pos (args := args) (exponents := exponents) hB n
    have h2 := sizeWithin_pos (args := args) (exponents := exponents) hB n'
    have h3 := Nat.mul_le_mul h1 h2
    have h4 : 1 ≤ 2 * sizeWithin args B exponents n * sizeWithin args B exponents n' := by rw [Nat.mul_assoc]; omega
    cases o <;> rw [sizeWithin.eq_def]
    case exponent => exact powerSize_pos _ h1
    case multiply => exact h3
    case divide => exact h3
    all_goals exact h4
  | .function _ _ ns _ => by rw [sizeWithin]; exact sizeWithinAll_pos hB ns
theorem sizeWithinAll_pos {args : Args} {B : Nat} {exponents : Node → Rat} (hB : 1 ≤ B) :
    ∀ ns : List Node, 1 ≤ sizeWithinAll args B exponents ns
  | [] => by rw [sizeWithinAll]
  | n :: ns => by rw [sizeWithinAll]; exact (sizeWithin_pos hB n).trans (le_max_left _ _)
end

theorem sizeWithinAll_mem {args : Args} {B : Nat} {exponents : Node → Rat} {n : Node} : ∀ {ns : List Node}, n ∈ ns →
    sizeWithin args B exponents n ≤ sizeWithinAll args B exponents ns
  | [], h => by simp at h
  | k :: ns, h => by
    rw [sizeWithinAll]
    rcases List.mem_cons.1 h with rfl | h
    · exact le_max_left _ _
    · exact (sizeWithinAll_mem h).trans (le_max_right _ _)

/-- Parts are smaller, if there are no powers. -/
theorem size_part {args : Args} {B : Nat} {exponents : Node → Rat} (hB : 1 ≤ B) {s n : Node} (h : Part s n)
    (hn : ∀ p a b, ¬ Part (.binary .exponent p a b) n) : sizeWithin args B exponents s ≤ sizeWithin args B exponents n := by
  induction h with
  | here => exact le_refl _
  | paren _ ih => rw [sizeWithin.eq_def args B exponents (.paren ..)]; exact ih fun p a b h => hn p a b (.paren h)
  | @unary o p n _ ih =>
    have ih := ih fun p a b h => hn p a b (.unary h)
    refine ih.trans ?_
    rw [sizeWithin.eq_def args B exponents (.unary ..)]
    have := sizeWithin_pos (args := args) (exponents := exponents) hB n
    cases o with
    | squareRoot =>
      show _ ≤ powerSize args (1 / 2) _
      rw [powerSize_half]
      refine le_trans (by rw [pow_one]; omega : _ ≤ (2 * sizeWithin args B exponents n) ^ 1) (Nat.pow_le_pow_right (by omega) (by norm_num))
    | negate => exact le_refl _
    | absoluteValue => exact le_refl _
  | @left o p n n' _ ih =>
    have ih := ih fun p a b h => hn p a b (.left h)
    refine ih.trans ?_
    rw [sizeWithin.eq_def args B exponents (.binary ..)]
    have h2 := sizeWithin_pos (args := args) (exponents := exponents) hB n'
    have h3 : sizeWithin args B exponents n ≤ sizeWithin args B exponents n * sizeWithin args B exponents n' :=
      Nat.le_mul_of_pos_right _ h2
    have h4 : sizeWithin args B exponents n ≤ 2 * sizeWithin args B exponents n * sizeWithin args B exponents n' := by
      rw [Nat.mul_assoc]; omega
    cases o with
    | exponent => exact absurd .here (hn _ _ _)
    | multiply => exact h3
    | divide => exact h3
    | _ => exact h4
  | @right o p n n' _ ih =>
    have ih := ih fun p a b h => hn p a b (.right h)
    refine ih.trans ?_
    rw [sizeWithin.eq_def args B exponents (.binary ..)]
    have h2 := sizeWithin_pos (args := args) (exponents := exponents) hB n
    have h3 : sizeWithin args B exponents n' ≤ sizeWithin args B exponents n * sizeWithin args B exponents n' :=
      Nat.le_mul_of_pos_left _ h2
    have h4 : sizeWithin args B exponents n' ≤ 2 * sizeWithin args B exponents n * sizeWithin args B exponents n' := by
      rw [Nat.mul_assoc]; omega
    cases o with
    | exponent => exact absurd .here (hn _ _ _)
    | multiply => exact h3
    | divide => exact h3
    | _ => exact h4
  | argument hm _ ih =>
    rw [sizeWithin.eq_def args B exponents (.function ..)]
    exact (ih fun p a b h => hn p a b (.argument hm h)).trans (sizeWithinAll_mem hm)

theorem reaches_part {m : Machine} {args : Args} {n s : Node} {env env' : Env} (h : Reaches m args n env s env') : Part s n := by
  induction h with
  | here => exact .here
  | paren _ ih => exact .paren ih
  | unary _ ih => exact .unary ih
  | left _ ih => exact .left ih
  | right _ _ ih => exact .right ih
  | argument _ _ ih => exact .argument (by simp) ih

theorem tokenWeight_pos {B : Nat} (hB : 1 ≤ B) (t : Token) : 1 ≤ tokenWeight B t := by
  cases t <;> simp only [tokenWeight] <;> first | exact height_pos _ | omega

theorem tokensWeight_pos {B : Nat} (hB : 1 ≤ B) : ∀ ts : List PTok, 1 ≤ tokensWeight B ts
  | [] => le_refl _
  | t :: ts => by
    rw [tokensWeight_cons]
    exact Nat.mul_le_mul (tokenWeight_pos hB t.value) (tokensWeight_pos hB ts)

/-- The bound, for tokens. -/
def rootsWeight (B : Nat) (ts : List PTok) : Nat := (2 ^ roots ts * tokensWeight B ts) ^ 4096 ^ roots ts

theorem rootsWeight_pos {B : Nat} (hB : 1 ≤ B) (ts : List PTok) : 1 ≤ rootsWeight B ts :=
  Nat.one_le_pow _ _ (Nat.mul_le_mul (Nat.one_le_two_pow) (tokensWeight_pos hB ts))

theorem roots_append (ts us : List PTok) : roots (ts ++ us) = roots ts + roots us := by
  unfold roots; rw [List.countP_append]

theorem pow_mul_pow_le {X Y a b c : Nat} (hX : 1 ≤ X) (hY : 1 ≤ Y) (ha : a ≤ c) (hb : b ≤ c) : X ^ a * Y ^ b ≤ (X * Y) ^ c := by
  rw [Nat.mul_pow]
  exact Nat.mul_le_mul (Nat.pow_le_pow_right hX ha) (Nat.pow_le_pow_right hY hb)

theorem rootsWeight_append {B : Nat} (hB : 1 ≤ B) (ts us : List PTok) :
    rootsWeight B ts * rootsWeight B us ≤ rootsWeight B (ts ++ us) := by
  unfold rootsWeight
  rw [roots_append, tokensWeight_append]
  refine (pow_mul_pow_le (c := 4096 ^ (roots ts + roots us)) (Nat.mul_le_mul (Nat.one_le_two_pow) (tokensWeight_pos hB ts))
    (Nat.mul_le_mul (Nat.one_le_two_pow) (tokensWeight_pos hB us)) (Nat.pow_le_pow_right (by norm_num) (by omega))
    (Nat.pow_le_pow_right (by norm_num) (by omega))).trans (le_of_eq ?_)
  congr 1
  rw [pow_add]
  ring

theorem rootsWeight_other {B : Nat} (hB : 1 ≤ B) (t : PTok) (ts : List PTok) :
    tokenWeight B t.value * rootsWeight B ts ≤ rootsWeight B (t :: ts) := by
  refine le_trans (Nat.mul_le_mul_right _ ?_) (rootsWeight_append hB [t] ts)
  unfold rootsWeight
  have h1 : tokensWeight B [t] = tokenWeight B t.value := by rw [tokensWeight_cons, tokensWeight_nil, Nat.mul_one]
  rw [h1]
  have h2 := tokenWeight_pos hB t.value
  calc tokenWeight B t.value ≤ 2 ^ roots [t] * tokenWeight B t.value := Nat.le_mul_of_pos_left _ (by positivity)
    _ = (2 ^ roots [t] * tokenWeight B t.value) ^ 1 := (pow_one _).symm
    _ ≤ _ := Nat.pow_le_pow_right (Nat.mul_le_mul (Nat.one_le_two_pow) h2) (Nat.one_le_pow _ _ (by norm_num))

theorem rootsWeight_tail {B : Nat} (hB : 1 ≤ B) (t : PTok) (ts : List PTok) : rootsWeight B ts ≤ rootsWeight B (t :: ts) :=
  (Nat.le_mul_of_pos_left _ (tokenWeight_pos hB t.value)).trans (rootsWeight_other hB t ts)

theorem rootsWeight_left {B : Nat} (hB : 1 ≤ B) (ts us : List PTok) : rootsWeight B ts ≤ rootsWeight B (ts ++ us) :=
  (Nat.le_mul_of_pos_right _ (rootsWeight_pos hB us)).trans (rootsWeight_append hB ts us)

theorem rootsWeight_right {B : Nat} (hB : 1 ≤ B) (ts us : List PTok) : rootsWeight B us ≤ rootsWeight B (ts ++ us) :=
  (Nat.le_mul_of_pos_left _ (rootsWeight_pos hB ts)).trans (rootsWeight_append hB ts us)

theorem rootsWeight_sqrt {B : Nat} (p : Position) (ts : List PTok) :
    (2 * rootsWeight B ts) ^ 4096 ≤ rootsWeight B (⟨.unary .squareRoot, p⟩ :: ts) := by
  have hr : roots (⟨.unary .squareRoot, p⟩ :: ts) = roots ts + 1 := by simp [roots]
  unfold rootsWeight
  rw [hr, tokensWeight_cons]
  simp only [tokenWeight, Nat.one_mul]
  generalize tokensWeight B ts = W
  generalize roots ts = k
  rw [pow_succ 4096 k, pow_mul]
  refine Nat.pow_le_pow_left ?_ _
  rw [show 2 ^ (k + 1) * W = 2 * (2 ^ k * W) by ring, Nat.mul_pow 2]
  refine Nat.mul_le_mul_right _ ?_
  calc 2 = 2 ^ 1 := rfl
    _ ≤ _ := Nat.pow_le_pow_right (by norm_num) (Nat.one_le_pow _ _ (by norm_num))

theorem noExponents_append {ts us : List PTok} (h : NoExponents (ts ++ us)) : NoExponents ts ∧ NoExponents us :=
  ⟨fun t ht => h t (by simp [ht]), fun t ht => h t (by simp [ht])⟩

theorem noExponents_tail {t : PTok} {us : List PTok} (h : NoExponents (t :: us)) : NoExponents us :=
  fun t ht => h t (by simp [ht])

section
variable {args : Args} {B : Nat} {exponents : Node → Rat}

mutual
theorem expr_size (hB : 1 ≤ B) : ∀ {k ts n}, Expr k ts n → NoExponents ts → sizeWithin args B exponents n ≤ rootsWeight B ts
  | _, _, _, .signed h, hn => signed_size hB h hn
  | _, _, _, .lift h, hn => expr_size hB h hn
  | _, _, _, .op (ts := ts) (us := us) (o := o) (p := p) (a := n) (b := n') h _ h', hn => by
    have ih := expr_size hB h (noExponents_append hn).1
    have ih' := expr_size hB h' (noExponents_tail (noExponents_append hn).2)
    have key : 2 * sizeWithin args B exponents n * sizeWithin args B exponents n' ≤ rootsWeight B (ts ++ ⟨.binary o, p⟩ :: us) := by
      refine le_trans ?_ (rootsWeight_append hB ts _)
      have := rootsWeight_other hB ⟨.binary o, p⟩ us
      simp only [tokenWeight] at this
      calc _ = sizeWithin args B exponents n * (2 * sizeWithin args B exponents n') := by ring
        _ ≤ _ := Nat.mul_le_mul ih ((Nat.mul_le_mul_left _ ih').trans this)
    rw [sizeWithin.eq_def]
    cases o with
    | exponent => exact absurd rfl (hn ⟨.binary .exponent, p⟩ (by simp))
    | multiply => refine le_trans ?_ key; show _ * _ ≤ _; rw [Nat.mul_assoc]; omega
    | divide => refine le_trans ?_ key; show _ * _ ≤ _; rw [Nat.mul_assoc]; omega
    | _ => exact key
theorem signed_size (hB : 1 ≤ B) : ∀ {ts n}, Signed ts n → NoExponents ts → sizeWithin args B exponents n ≤ rootsWeight B ts
  | _, _, .minus h, hn => by
    rw [sizeWithin.eq_def]
    exact (signed_size hB h (noExponents_tail hn)).trans (rootsWeight_tail hB _ _)
  | _, _, .atom h, hn => atom_size hB h hn
theorem atom_size (hB : 1 ≤ B) : ∀ {ts n}, Atom ts n → NoExponents ts → sizeWithin args B exponents n ≤ rootsWeight B ts
  | _, _, .number (v := v) (p := p), hn => by
    rw [sizeWithin]
    have := rootsWeight_other hB ⟨.number v, p⟩ []
    refine le_trans ?_ this
    exact Nat.le_mul_of_pos_right _ (rootsWeight_pos hB [])
  | _, _, .variable (x := x) (p := p), hn => by
    rw [sizeWithin]
    have := rootsWeight_other hB ⟨.variable x, p⟩ []
    refine le_trans ?_ this
    exact Nat.le_mul_of_pos_right _ (rootsWeight_pos hB [])
  | _, _, .paren h, hn => by
    rw [sizeWithin]
    exact (expr_size hB h (noExponents_append (noExponents_tail hn)).1).trans
      ((rootsWeight_left hB _ _).trans (rootsWeight_tail hB _ _))
  | _, _, .unary (o := o) h, hn => by
    have ih := signed_size hB h (noExponents_tail hn)
    cases o with
    | squareRoot =>
      rw [sizeWithin, powerSize_half]
      exact (Nat.pow_le_pow_left (Nat.mul_le_mul_left _ ih) _).trans (rootsWeight_sqrt _ _)
    | negate => rw [sizeWithin.eq_def]; exact ih.trans (rootsWeight_tail hB _ _)
    | absoluteValue => rw [sizeWithin.eq_def]; exact ih.trans (rootsWeight_tail hB _ _)
  | _, _, .functionBare h _, hn => by
    rw [sizeWithin, sizeWithinAll, sizeWithinAll]
    exact max_le ((signed_size hB h (noExponents_tail hn)).trans (rootsWeight_tail hB _ _)) (rootsWeight_pos hB _)
  | _, _, .functionEmpty, hn => by
    rw [sizeWithin, sizeWithinAll]
    exact rootsWeight_pos hB _
  | _, _, .function h, hn => by
    rw [sizeWithin]
    exact (arguments_size hB h (noExponents_append (noExponents_tail (noExponents_tail hn))).1).trans
      ((rootsWeight_left hB _ _).trans ((rootsWeight_tail hB _ _).trans (rootsWeight_tail hB _ _)))
theorem arguments_size (hB : 1 ≤ B) : ∀ {ts ns}, Arguments ts ns → NoExponents ts →
    sizeWithinAll args B exponents ns ≤ rootsWeight B ts
  | _, _, .one h, hn => by
    rw [sizeWithinAll, sizeWithinAll]; exact max_le (expr_size hB h hn) (rootsWeight_pos hB _)
  | _, _, .more h h', hn => by
    rw [sizeWithinAll]
    refine max_le ((expr_size hB h (noExponents_append hn).1).trans (rootsWeight_left hB _ _)) ?_
    exact ((arguments_size hB h' (noExponents_tail (noExponents_append hn).2)).trans (rootsWeight_tail hB _ _)).trans
      (rootsWeight_right hB _ _)
end

end

/-- The characters of `sqrt` make up for the factor. -/
theorem lexes_roots {radix : Nat} (h2 : 2 ≤ radix) {B : Nat} {pos : Nat} {line : Str} {ts : List PTok}
    (h : Lexes radix pos line ts) : 2 ^ roots ts * tokensWeight B ts ≤ B ^ uses ts * radix ^ line.length := by
  have hone : ∀ k, 1 ≤ radix ^ k := fun k => Nat.one_le_pow _ _ (by omega)
  induction h with
  | done => simp [tokensWeight, uses, roots]
  | @blank pos c rest ts _ _ ih =>
    rw [List.length_cons, pow_succ]
    refine ih.trans (Nat.mul_le_mul_left _ (Nat.le_mul_of_pos_right _ (by omega)))
  | @symbol pos c t rest ts hs _ ih =>
    rw [tokensWeight_cons, List.length_cons, pow_succ]
    have hw : tokenWeight B t ≤ radix := by
      cases hs <;> simp only [tokenWeight] <;> omega
    have hu : uses (⟨t, ⟨pos, 1⟩⟩ :: ts) = uses ts := by
      cases hs <;> simp [uses]
    have hr : roots (⟨t, ⟨pos, 1⟩⟩ :: ts) = roots ts := by
      cases hs <;> simp [roots]
    rw [hu, hr]
    calc _ = tokenWeight B t * (2 ^ roots ts * tokensWeight B ts) := by ring
      _ ≤ radix * (B ^ uses ts * radix ^ rest.length) := Nat.mul_le_mul hw ih
      _ = _ := by ring
  | @word pos w t rest ts hne hall hb hw _ ih =>
    rw [tokensWeight_cons, List.length_append, pow_add]
    have key : 2 ^ roots [(⟨t, ⟨pos, w.length⟩⟩ : PTok)] * tokenWeight B t * B ^ uses ts ≤
        B ^ uses (⟨t, ⟨pos, w.length⟩⟩ :: ts) * radix ^ w.length := by
      have hw2 : 2 ≤ radix ^ w.length := by
        refine h2.trans ?_
        calc radix = radix ^ 1 := (pow_one _).symm
          _ ≤ _ := Nat.pow_le_pow_right (by omega) (List.length_pos_iff.2 hne)
      cases hw with
      | «variable» he =>
        have : uses (⟨.variable w, ⟨pos, w.length⟩⟩ :: ts) = uses ts + 1 := by simp [uses]
        rw [this, pow_succ]
        simp only [tokenWeight, roots, List.countP_cons, List.countP_nil]
        calc _ = B ^ uses ts * B := by simp; ring
          _ ≤ _ := Nat.le_mul_of_pos_right _ (hone _)
      | number hn =>
        have : ∀ v, uses (⟨.number v, ⟨pos, w.length⟩⟩ :: ts) = uses ts := by simp [uses]
        rw [this]
        simp only [tokenWeight, roots, List.countP_cons, List.countP_nil]
        simp only [Bool.false_eq_true, if_false, Nat.add_zero, pow_zero, Nat.one_mul]
        rw [Nat.mul_comm]
        exact Nat.mul_le_mul_left _ (numeral_height h2 hn)
      | _ =>
        simp only [tokenWeight, Nat.mul_one]
        have : ∀ t : Token, (∀ x, t ≠ .variable x) → ∀ p, uses (⟨t, p⟩ :: ts) = uses ts := by
          intro t ht p
          cases t <;> simp [uses] at *
        rw [this _ (by intro x h; cases h), Nat.mul_comm]
        refine Nat.mul_le_mul_left _ (le_trans ?_ hw2)
        simp [roots]
    have hr : roots (⟨t, ⟨pos, w.length⟩⟩ :: ts) = roots [(⟨t, ⟨pos, w.length⟩⟩ : PTok)] + roots ts :=
      roots_append [_] ts
    rw [hr, pow_add]
    calc _ = 2 ^ roots [(⟨t, ⟨pos, w.length⟩⟩ : PTok)] * tokenWeight B t * (2 ^ roots ts * tokensWeight B ts) := by ring
      _ ≤ 2 ^ roots [(⟨t, ⟨pos, w.length⟩⟩ : PTok)] * tokenWeight B t * (B ^ uses ts * radix ^ rest.length) := Nat.mul_le_mul_left _ ih
      _ = (2 ^ roots [(⟨t, ⟨pos, w.length⟩⟩ : PTok)] * tokenWeight B t * B ^ uses ts) * radix ^ rest.length := by ring
      _ ≤ _ := Nat.mul_le_mul_right _ key
      _ = _ := by ring

end Bcalc
