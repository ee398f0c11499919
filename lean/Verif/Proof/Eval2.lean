import Verif.Proof.Eval
import Verif.Spec.Crash

/-! # Evaluation: exactness, failures, termination, crashes -/

namespace Bcalc
open Spec

/-! ## Exactness -/

mutual
theorem denote_of_value {ε : Rat} {ρ : Valuation} :
    ∀ {n v}, Value ε ρ n v → Arithmetic n → denote ρ n = some v
  | _, _, .number, _ => rfl
  | _, _, .variable h, _ => h
  | _, _, .paren h, .paren k => by unfold denote; exact denote_of_value h k
  | _, _, .negate h, .unary _ k => by unfold denote; rw [denote_of_value h k]
  | _, _, .abs h, .unary _ k => by unfold denote; rw [denote_of_value h k]
  | _, _, .sqrt _ _, .unary k _ => absurd rfl k
  | _, _, .add h h', .binary _ _ k k' => by
    unfold denote; rw [denote_of_value h k, denote_of_value h' k']
  | _, _, .subtract h h', .binary _ _ k k' => by
    unfold denote; rw [denote_of_value h k, denote_of_value h' k']
  | _, _, .multiply h h', .binary _ _ k k' => by
    unfold denote; rw [denote_of_value h k, denote_of_value h' k']
  | _, _, .divide h h' hb, .binary _ _ k k' => by
    unfold denote; rw [denote_of_value h k, denote_of_value h' k']; simp [hb]
  | _, _, .modulus _ _ _ _, .binary k _ _ _ => absurd rfl k
  | _, _, .power _ _ _, .binary _ k _ _ => absurd rfl k
  | _, _, .max h h1 h2, .function k => by
    unfold denote; rw [denoteAll_of_values h k]
    exact List.max?_eq_some_iff.2 ⟨h1, h2⟩
  | _, _, .min h h1 h2, .function k => by
    unfold denote; rw [denoteAll_of_values h k]
    exact List.min?_eq_some_iff.2 ⟨h1, h2⟩
theorem denoteAll_of_values {ε : Rat} {ρ : Valuation} :
    ∀ {ns vs}, Values ε ρ ns vs → (∀ n ∈ ns, Arithmetic n) → denoteAll ρ ns = some vs
  | _, _, .nil, _ => rfl
  | _, _, .cons h h', k => by
    unfold denoteAll
    rw [denote_of_value h (k _ (by simp)), denoteAll_of_values h' fun n hn => k n (by simp [hn])]
end

mutual
/-- An expression that has a value is evaluated to it without touching anything. -/
theorem execute_of_denote (m : Machine) (args : Args) (env : Env) :
    ∀ (n : Node) {v}, denote (sessionValues env) n = some v → n.execute m args env = (.ok v, env)
  | .number w p, v, h => by
    simp [denote] at h; simp [Node.execute, St.lift, h]
  | .variable x p, v, h => by
    unfold denote at h
    unfold Node.execute execVariable
    obtain ⟨vars, db⟩ := env
    cases vars with
    | none => simp [sessionValues] at h
    | some vs =>
      simp only [sessionValues] at h
      simp only [VariableStore.get, h]
  | .paren p q n, v, h => by
    unfold denote at h; unfold Node.execute; exact execute_of_denote m args env n h
  | .unary o p n, v, h => by
    unfold denote at h; unfold Node.execute
    cases hd : denote (sessionValues env) n with
    | none => rw [hd] at h; cases o <;> simp at h
    | some a =>
      rw [hd] at h
      rw [andThen_of_ok (execute_of_denote m args env n hd)]
      cases o <;> simp at h <;> simp [St.lift, applyUnary, h]
  | .binary o p n n', v, h => by
    unfold denote at h; unfold Node.execute
    cases hd : denote (sessionValues env) n with
    | none => rw [hd] at h; cases o <;> simp at h
    | some a =>
      cases hd' : denote (sessionValues env) n' with
      | none => rw [hd, hd'] at h; cases o <;> simp at h
      | some b =>
        rw [hd, hd'] at h
        rw [andThen_of_ok (execute_of_denote m args env n hd),
          andThen_of_ok (execute_of_denote m args env n' hd')]
        cases o with
        | divide =>
          by_cases hb : b = 0
          · simp [hb] at h
          · simp [hb] at h
            simp [St.lift, applyBinary, hb, ratDiv, h]
        | _ => simp at h <;> simp [St.lift, applyBinary, h]
  | .function f p ns q, v, h => by
    unfold denote at h; unfold Node.execute
    cases hd : denoteAll (sessionValues env) ns with
    | none => rw [hd] at h; cases f <;> simp at h
    | some vs =>
      rw [hd] at h
      rw [andThen_of_ok (executeList_of_denote m args env ns hd)]
      cases vs with
      | nil => cases f <;> simp at h
      | cons a vs =>
        cases f <;> simp only at h <;> simp only [St.lift, applyFunction]
        · have := List.max?_eq_some_iff.2 (foldl_max_spec vs a)
          rw [this] at h; simp at h; rw [h]
        · have := List.min?_eq_some_iff.2 (foldl_min_spec vs a)
          rw [this] at h; simp at h; rw [h]
theorem executeList_of_denote (m : Machine) (args : Args) (env : Env) :
    ∀ (ns : List Node) {vs}, denoteAll (sessionValues env) ns = some vs →
      executeList m args ns env = (.ok vs, env)
  | [], vs, h => by simp [denoteAll] at h; simp [executeList, St.lift, h]
  | n :: ns, vs, h => by
    unfold denoteAll at h; unfold executeList
    cases hd : denote (sessionValues env) n with
    | none => rw [hd] at h; simp at h
    | some a =>
      cases hd' : denoteAll (sessionValues env) ns with
      | none => rw [hd, hd'] at h; simp at h
      | some bs =>
        rw [hd, hd'] at h
        simp at h
        rw [andThen_of_ok (execute_of_denote m args env n hd),
          andThen_of_ok (executeList_of_denote m args env ns hd')]
        simp [St.lift, h]
end

/-! ## Failures of parts -/

theorem andThen_failure {σ α β : Type} {t : St σ α} {f : α → St σ β} {s s1 : σ}
    {o : Outcome Failure α} (h : t s = (o, s1)) :
    (∀ e, o = .err e → t.andThen f s = (.err e, s1)) ∧
    (∀ k, o = .panic k → t.andThen f s = (.panic k, s1)) :=
  ⟨fun _ he => andThen_of_err (by rw [h, he]), fun _ he => andThen_of_panic (by rw [h, he])⟩

/-- A failure: an error or a crash. -/
def Fails {α β : Type} (r : Outcome Failure α × Env) (r' : Outcome Failure β × Env) : Prop :=
  (∃ e env, r = (.err e, env) ∧ r' = (.err e, env)) ∨
  (∃ k env, r = (.panic k, env) ∧ r' = (.panic k, env))

theorem Fails.andThen {α β γ : Type} {r : Outcome Failure γ × Env} {t : Exec α} {f : α → Exec β}
    {s : Env} (h : Fails r (t s)) : Fails r (t.andThen f s) := by
  rcases h with ⟨e, env, h1, h2⟩ | ⟨k, env, h1, h2⟩
  · exact .inl ⟨e, env, h1, andThen_of_err h2⟩
  · exact .inr ⟨k, env, h1, andThen_of_panic h2⟩

theorem fails_self {r : Outcome Failure Rat × Env}
    (h : (∃ e, r.1 = .err e) ∨ (∃ k, r.1 = .panic k)) : Fails r r := by
  obtain ⟨o, env⟩ := r
  rcases h with ⟨e, h⟩ | ⟨k, h⟩
  · exact .inl ⟨e, env, by rw [← h], by rw [← h]⟩
  · exact .inr ⟨k, env, by rw [← h], by rw [← h]⟩

theorem fails_executeList {m : Machine} {args : Args} {r : Outcome Failure Rat × Env} :
    ∀ (ns : List Node) {n ns' vs env env1}, executeList m args ns env = (.ok vs, env1) →
      Fails r (n.execute m args env1) → Fails r (executeList m args (ns ++ n :: ns') env)
  | [], n, ns', vs, env, env1, h, hf => by
    simp [executeList, St.lift] at h
    rw [← h.2] at hf
    simp only [List.nil_append]
    unfold executeList
    exact hf.andThen
  | n0 :: ns, n, ns', vs, env, env1, h, hf => by
    unfold executeList at h
    obtain ⟨v, env2, h1, h⟩ := andThen_ok h
    obtain ⟨ws, env3, h2, h⟩ := andThen_ok h
    simp [St.lift] at h
    obtain ⟨_, rfl⟩ := h
    rw [List.cons_append]
    unfold executeList
    rw [andThen_of_ok h1]
    exact (fails_executeList ns h2 hf).andThen

/-- The failure of a part that is reached is the failure of the whole. -/
theorem reaches_fails' {m : Machine} {args : Args} {n s : Node} {env env' : Env}
    {r : Outcome Failure Rat × Env} (hr : Reaches m args n env s env') :
    s.execute m args env' = r → (∃ e, r.1 = .err e) ∨ (∃ k, r.1 = .panic k) →
    Fails r (n.execute m args env) := by
  induction hr with
  | here => intro hs h; rw [hs]; exact fails_self h
  | paren _ ih => intro hs h; unfold Node.execute; exact ih hs h
  | unary _ ih => intro hs h; unfold Node.execute; exact (ih hs h).andThen
  | left _ ih => intro hs h; unfold Node.execute; exact (ih hs h).andThen
  | right h1 _ ih =>
    intro hs h
    unfold Node.execute
    rw [andThen_of_ok h1]
    exact (ih hs h).andThen
  | argument h1 _ ih =>
    intro hs h
    unfold Node.execute
    exact (fails_executeList _ h1 (ih hs h)).andThen

theorem reaches_fails {m : Machine} {args : Args} {n s : Node} {env env' : Env}
    (hr : Reaches m args n env s env')
    (h : (∃ e, (s.execute m args env').1 = .err e) ∨ (∃ k, (s.execute m args env').1 = .panic k)) :
    Fails (s.execute m args env') (n.execute m args env) :=
  reaches_fails' hr rfl h

/-! ## Powers: termination and crashes -/

theorem power_crash {m : Machine} {args : Args} (h2 : 2 ≤ args.radix) (hf : 0 < m.fuel)
    (p : Position) (b e : Rat) :
    (∃ k, (u8Add m args.precision args.extraPrecision >>= fun totalPrecision =>
      liftMath p (exponentiate m b e totalPrecision args.radix)) = .panic k) ↔
    PowerCrash m args b e := by
  have hcase : ∀ t, (∃ k, liftMath p (exponentiate m b e t args.radix) = .panic k) ↔
      ((b = 0 ∧ e < 0) ∨ (m.overflowChecks = true ∧ 255 ≤ t) ∨
        (e.den ≠ 1 ∧ SmallRadicand (b ^ e.num) e.den)) := by
    intro t
    rcases exponentiate_cases m b e t args.radix h2 with ⟨h1, h3, hx⟩ | ⟨hdef, h1, h3, hx⟩ |
      ⟨hdef, h1, hx⟩
    · rw [hx]; simp [liftMath, Outcome.mapErr, h1, h3]
    · rw [hx]; simp [liftMath, Outcome.mapErr, h1, h3]
    · have e1 : ¬ (b = 0 ∧ e < 0) := by
        rintro ⟨hb, he⟩
        rcases hdef with h | h
        · exact h hb
        · exact absurd he (not_lt.2 h)
      have e2 : ¬ (m.overflowChecks = true ∧ 255 ≤ t) := by
        rintro ⟨hc, ht⟩
        have := h1 hc
        omega
      rw [hx]
      simp only [e1, e2, false_or]
      rcases rootPart_cases (b ^ e.num) e.den (tolerance args.radix ((t + 1) % 256)) e.den_nz
        (tolerance_pos h2) with ⟨hd, hr⟩ | ⟨hd, hn, hev, hr⟩ | ⟨hd, hs, hr, _⟩ |
          ⟨hd, hs, ho, F, w, hw, hr⟩
      · rw [hr]; simp [liftMath, Outcome.mapErr, hd]
      · rw [hr]
        simp only [liftMath, Outcome.mapErr]
        constructor
        · rintro ⟨k, hk⟩; cases hk
        · rintro ⟨_, _, _, ho⟩
          exact absurd hev (Nat.not_even_iff_odd.2 (ho hn))
      · rw [hr _ hf]
        simp only [liftMath, Outcome.mapErr]
        exact ⟨fun _ => ⟨by omega, hs⟩, fun _ => ⟨_, rfl⟩⟩
      · have hnp : ∀ k, rootPart m.fuel (b ^ e.num) e.den (tolerance args.radix ((t + 1) % 256)) ≠
            .panic k := by
          intro k hk
          have hm := rootPart_mono _ _ _ m.fuel (max m.fuel F) (le_max_left _ _) (by rw [hk]; simp)
          rw [hr _ (le_max_right _ _), hk] at hm
          cases hm
        constructor
        · rintro ⟨k, hk⟩
          exfalso
          cases hroot : rootPart m.fuel (b ^ e.num) e.den (tolerance args.radix ((t + 1) % 256)) with
          | panic k' => exact hnp k' hroot
          | _ => rw [hroot] at hk; simp [liftMath, Outcome.mapErr] at hk
        · rintro ⟨_, h0, h1, _⟩
          rcases hs with h | h
          · exact absurd h h0
          · exact absurd h1 (not_lt.2 h)
  unfold PowerCrash
  unfold u8Add
  by_cases hlt : args.precision + args.extraPrecision < 256
  · rw [if_pos hlt]
    simp only [Outcome.bind_ok]
    rw [hcase]
    unfold SmallRadicand
    tauto
  · rw [if_neg hlt]
    cases hc : m.overflowChecks with
    | true =>
      simp
      omega
    | false =>
      simp only [Bool.false_eq_true, if_false, Outcome.bind_ok, false_and, false_or]
      rw [hcase, hc]
      unfold SmallRadicand
      simp

/-- For enough fuel the outcome of a power no longer depends on the fuel, and is no divergence. -/
theorem power_finishes (oc : Bool) (args : Args) (h2 : 2 ≤ args.radix) (p : Position) (b e : Rat) :
    ∃ F r, r ≠ .diverge ∧ ∀ m : Machine, m.overflowChecks = oc → F ≤ m.fuel →
      (u8Add m args.precision args.extraPrecision >>= fun totalPrecision =>
        liftMath p (exponentiate m b e totalPrecision args.radix)) = r := by
  have hcase : ∀ t, ∃ F r, r ≠ .diverge ∧ ∀ m : Machine, m.overflowChecks = oc → F ≤ m.fuel →
      liftMath p (exponentiate m b e t args.radix) = r := by
    intro t
    have hroot : ∃ F r, r ≠ .diverge ∧ ∀ f, F ≤ f →
        rootPart f (b ^ e.num) e.den (tolerance args.radix ((t + 1) % 256)) = r := by
      rcases rootPart_cases (b ^ e.num) e.den (tolerance args.radix ((t + 1) % 256)) e.den_nz
        (tolerance_pos h2) with ⟨hd, hr⟩ | ⟨hd, hn, hev, hr⟩ | ⟨hd, hs, hr, _⟩ |
          ⟨hd, hs, ho, F, w, hw, hr⟩
      · exact ⟨0, _, by simp, fun f _ => hr f⟩
      · exact ⟨0, _, by simp, fun f _ => hr f⟩
      · exact ⟨1, _, by simp, fun f h => hr f h⟩
      · exact ⟨F, _, by simp, fun f h => hr f h⟩
    obtain ⟨F, r, hrne, hr⟩ := hroot
    by_cases hz : b = 0 ∧ e < 0
    · refine ⟨0, .panic .divisionByZero, by simp, fun m _ _ => ?_⟩
      rcases exponentiate_cases m b e t args.radix h2 with ⟨_, _, hx⟩ | ⟨hdef, _, _, hx⟩ |
        ⟨hdef, _, hx⟩
      · rw [hx]; rfl
      · rcases hdef with h | h
        · exact absurd hz.1 h
        · exact absurd hz.2 (not_lt.2 h)
      · rcases hdef with h | h
        · exact absurd hz.1 h
        · exact absurd hz.2 (not_lt.2 h)
    · by_cases hc : oc = true ∧ 255 ≤ t
      · refine ⟨0, .panic .arithmetic, by simp, fun m hm _ => ?_⟩
        rcases exponentiate_cases m b e t args.radix h2 with ⟨h1, h3, hx⟩ | ⟨_, _, _, hx⟩ |
          ⟨_, h1, hx⟩
        · exact absurd ⟨h1, h3⟩ hz
        · rw [hx]; rfl
        · have := h1 (hm.trans hc.1)
          omega
      · refine ⟨F, liftMath p r, ?_, fun m hm hF => ?_⟩
        · cases r <;> simp [liftMath, Outcome.mapErr] at hrne ⊢
        · rcases exponentiate_cases m b e t args.radix h2 with ⟨h1, h3, hx⟩ | ⟨_, h1, h3, hx⟩ |
            ⟨_, _, hx⟩
          · exact absurd ⟨h1, h3⟩ hz
          · exact absurd ⟨hm ▸ h1, h3⟩ hc
          · rw [hx, hr _ hF]
  by_cases hlt : args.precision + args.extraPrecision < 256
  · obtain ⟨F, r, h1, h3⟩ := hcase (args.precision + args.extraPrecision)
    refine ⟨F, r, h1, fun m hm hF => ?_⟩
    unfold u8Add
    rw [if_pos hlt]
    exact h3 m hm hF
  · cases oc with
    | true =>
      refine ⟨0, .panic .arithmetic, by simp, fun m hm _ => ?_⟩
      unfold u8Add
      rw [if_neg hlt, hm]
      rfl
    | false =>
      obtain ⟨F, r, h1, h3⟩ := hcase ((args.precision + args.extraPrecision) % 256)
      refine ⟨F, r, h1, fun m hm hF => ?_⟩
      unfold u8Add
      rw [if_neg hlt, hm]
      exact h3 m hm hF

/-! ## Termination -/

/-- For enough fuel, a run no longer depends on the fuel. -/
def EvalFinishes {α : Type} (oc : Bool) (t : Machine → Exec α) (env : Env) : Prop :=
  ∃ F r, r.1 ≠ .diverge ∧ ∀ m : Machine, m.overflowChecks = oc → F ≤ m.fuel → t m env = r

theorem EvalFinishes.andThen {α β : Type} {oc : Bool} {t : Machine → Exec α}
    {f : Machine → α → Exec β} {env : Env} (h : EvalFinishes oc t env)
    (hf : ∀ a env', EvalFinishes oc (fun m => f m a) env') :
    EvalFinishes oc (fun m => (t m).andThen (f m)) env := by
  obtain ⟨F, ⟨o, env1⟩, hne, hF⟩ := h
  cases o with
  | ok a =>
    obtain ⟨G, r, hr, hG⟩ := hf a env1
    refine ⟨max F G, r, hr, fun m hm hmax => ?_⟩
    show (t m).andThen (f m) env = r
    rw [andThen_of_ok (hF m hm (le_trans (le_max_left _ _) hmax))]
    exact hG m hm (le_trans (le_max_right _ _) hmax)
  | err e =>
    exact ⟨F, (.err e, env1), by simp, fun m hm hf => andThen_of_err (hF m hm hf)⟩
  | panic k =>
    exact ⟨F, (.panic k, env1), by simp, fun m hm hf => andThen_of_panic (hF m hm hf)⟩
  | diverge => exact absurd rfl hne

theorem finishes_lift {α : Type} {oc : Bool} {o : Machine → Outcome Failure α}
    (h : ∃ F r, r ≠ .diverge ∧ ∀ m : Machine, m.overflowChecks = oc → F ≤ m.fuel → o m = r)
    (env : Env) : EvalFinishes oc (fun m => St.lift (o m)) env := by
  obtain ⟨F, r, hr, h⟩ := h
  exact ⟨F, (r, env), hr, fun m hm hf => by simp [St.lift, h m hm hf]⟩

theorem finishes_const {α : Type} {oc : Bool} {o : Outcome Failure α} (h : o ≠ .diverge)
    (env : Env) : EvalFinishes oc (fun _ => St.lift o) env :=
  finishes_lift ⟨0, o, h, fun _ _ _ => rfl⟩ env

theorem execVariable_ne_diverge (x : Str) (p : Position) (env : Env) :
    (execVariable x p env).1 ≠ .diverge := by
  unfold execVariable
  obtain ⟨vars, db⟩ := env
  cases vars with
  | none => simp
  | some vs =>
    simp only
    rcases get_cases vs x db with ⟨v, hl, hg⟩ | ⟨hl, rfl, hg⟩ | ⟨sd, hl, rfl, h⟩
    · rw [hg]; simp
    · rw [hg]; simp
    · rcases h with ⟨v, _, hg⟩ | ⟨_, hg⟩ | ⟨e, _, hg⟩ | ⟨k, _, hg⟩ <;> rw [hg] <;> simp

theorem applyUnary_finishes (oc : Bool) (args : Args) (h2 : 2 ≤ args.radix) (o : UnOp) (p : Position)
    (a : Rat) : ∃ F r, r ≠ .diverge ∧ ∀ m : Machine, m.overflowChecks = oc → F ≤ m.fuel →
      applyUnary m args o p a = r := by
  cases o with
  | squareRoot => exact power_finishes oc args h2 p a (1 / 2)
  | negate => exact ⟨0, .ok (-a), by simp, fun _ _ _ => rfl⟩
  | absoluteValue => exact ⟨0, .ok |a|, by simp, fun _ _ _ => rfl⟩

theorem ratRem_ne_diverge {ε : Type} (a b : Rat) : (ratRem a b : Outcome ε Rat) ≠ .diverge := by
  unfold ratRem
  split <;> try simp
  split <;> simp

theorem applyBinary_finishes (oc : Bool) (args : Args) (h2 : 2 ≤ args.radix) (o : BinOp)
    (p : Position) (a b : Rat) : ∃ F r, r ≠ .diverge ∧ ∀ m : Machine, m.overflowChecks = oc →
      F ≤ m.fuel → applyBinary m args o p a b = r := by
  cases o with
  | exponent => exact power_finishes oc args h2 p a b
  | add => exact ⟨0, .ok (a + b), by simp, fun _ _ _ => rfl⟩
  | subtract => exact ⟨0, .ok (a - b), by simp, fun _ _ _ => rfl⟩
  | multiply => exact ⟨0, .ok (a * b), by simp, fun _ _ _ => rfl⟩
  | divide =>
    refine ⟨0, if b.num = 0 then .err (Failure.ofMath .divisionByZero p) else ratDiv a b, ?_,
      fun _ _ _ => rfl⟩
    unfold ratDiv
    split <;> try simp
    split <;> simp
  | modulus => exact ⟨0, ratRem a b, ratRem_ne_diverge a b, fun _ _ _ => rfl⟩

theorem applyFunction_ne_diverge (f : FnName) (p : Position) (vs : List Rat) :
    applyFunction f p vs ≠ .diverge := by
  unfold applyFunction
  cases vs with
  | nil => simp
  | cons a vs => cases f <;> simp

mutual
theorem execute_finishes (oc : Bool) (args : Args) (h2 : 2 ≤ args.radix) :
    ∀ (n : Node) (env : Env), EvalFinishes oc (fun m => n.execute m args) env
  | .number v p, env => by unfold Node.execute; exact finishes_const (by simp) env
  | .variable x p, env => by
    unfold Node.execute
    exact ⟨0, _, execVariable_ne_diverge x p env, fun _ _ _ => rfl⟩
  | .paren p q n, env => by unfold Node.execute; exact execute_finishes oc args h2 n env
  | .unary o p n, env => by
    unfold Node.execute
    exact (execute_finishes oc args h2 n env).andThen fun a env' =>
      finishes_lift (applyUnary_finishes oc args h2 o p a) env'
  | .binary o p n n', env => by
    unfold Node.execute
    exact (execute_finishes oc args h2 n env).andThen fun a env' =>
      (execute_finishes oc args h2 n' env').andThen fun b env'' =>
        finishes_lift (applyBinary_finishes oc args h2 o p a b) env''
  | .function f p ns q, env => by
    unfold Node.execute
    exact (executeList_finishes oc args h2 ns env).andThen fun vs env' =>
      finishes_const (applyFunction_ne_diverge f p vs) env'
theorem executeList_finishes (oc : Bool) (args : Args) (h2 : 2 ≤ args.radix) :
    ∀ (ns : List Node) (env : Env), EvalFinishes oc (fun m => executeList m args ns) env
  | [], env => by unfold executeList; exact finishes_const (by simp) env
  | n :: ns, env => by
    unfold executeList
    exact (execute_finishes oc args h2 n env).andThen fun a env' =>
      (executeList_finishes oc args h2 ns env').andThen fun vs env'' =>
        finishes_const (by simp) env''
end

/-! ## Crashes -/

theorem andThen_panic {σ α β : Type} {t : St σ α} {f : α → St σ β} {s : σ} {k : PanicKind}
    (h : (t.andThen f s).1 = .panic k) :
    (t s).1 = .panic k ∨ ∃ a s1, t s = (.ok a, s1) ∧ (f a s1).1 = .panic k := by
  unfold St.andThen at h
  rcases ht : t s with ⟨o, s1⟩
  rw [ht] at h
  cases o with
  | ok a => exact .inr ⟨a, s1, rfl, h⟩
  | err e => simp at h
  | panic k' => simp at h; exact .inl (by simp [h])
  | diverge => simp at h

theorem execVariable_no_panic {x : Str} {p : Position} {env : Env} (hok : EnvOk env)
    (k : PanicKind) : (execVariable x p env).1 ≠ .panic k := by
  unfold execVariable
  obtain ⟨vars, db⟩ := env
  cases vars with
  | none => simp
  | some vs =>
    simp only
    rcases get_cases vs x db with ⟨v, hl, hg⟩ | ⟨hl, rfl, hg⟩ | ⟨sd, hl, rfl, h⟩
    · rw [hg]; simp
    · rw [hg]; simp
    · have hnp := getVariable_no_panic x (hok sd rfl)
      rcases h with ⟨v, _, hg⟩ | ⟨_, hg⟩ | ⟨e, _, hg⟩ | ⟨k', hk, hg⟩
      · rw [hg]; simp
      · rw [hg]; simp
      · rw [hg]; simp
      · exact absurd hk (hnp k')

mutual
theorem panic_reaches (m : Machine) (args : Args) (h2 : 2 ≤ args.radix) (hf : 0 < m.fuel) :
    ∀ (n : Node) {env : Env} {k}, EnvOk env → (n.execute m args env).1 = .panic k →
      ∃ s env', Reaches m args n env s env' ∧ CrashPoint m args s env'
  | .number v p, env, k, _, h => by simp [Node.execute, St.lift] at h
  | .variable x p, env, k, hok, h => by
    unfold Node.execute at h
    exact absurd h (execVariable_no_panic hok k)
  | .paren p q n, env, k, hok, h => by
    unfold Node.execute at h
    obtain ⟨s, env', h1, h3⟩ := panic_reaches m args h2 hf n hok h
    exact ⟨s, env', .paren h1, h3⟩
  | .unary o p n, env, k, hok, h => by
    unfold Node.execute at h
    rcases andThen_panic h with h | ⟨a, env1, h1, h⟩
    · obtain ⟨s, env', h1, h3⟩ := panic_reaches m args h2 hf n hok h
      exact ⟨s, env', .unary h1, h3⟩
    · simp only [St.lift] at h
      cases o with
      | squareRoot => exact ⟨_, _, .here, .sqrt h1 ((power_crash h2 hf p a _).1 ⟨k, h⟩)⟩
      | negate => simp [applyUnary] at h
      | absoluteValue => simp [applyUnary] at h
  | .binary o p n n', env, k, hok, h => by
    unfold Node.execute at h
    rcases andThen_panic h with h | ⟨a, env1, h1, h⟩
    · obtain ⟨s, env', h1, h3⟩ := panic_reaches m args h2 hf n hok h
      exact ⟨s, env', .left h1, h3⟩
    · have hok1 : EnvOk env1 := by
        have := execute_envOk (m := m) (args := args) (n := n) hok
        rwa [h1] at this
      rcases andThen_panic h with h | ⟨b, env2, h4, h⟩
      · obtain ⟨s, env', h5, h3⟩ := panic_reaches m args h2 hf n' hok1 h
        exact ⟨s, env', .right h1 h5, h3⟩
      · simp only [St.lift] at h
        cases o with
        | exponent => exact ⟨_, _, .here, .power h1 h4 ((power_crash h2 hf p a b).1 ⟨k, h⟩)⟩
        | modulus =>
          have hb : b = 0 := by
            by_contra hb
            obtain ⟨v, hv, _⟩ := ratRem_spec (ε := Failure) a b hb
            simp [applyBinary, hv] at h
          subst hb
          exact ⟨_, _, .here, .modulus h1 h4⟩
        | divide =>
          exfalso
          by_cases hb : b = 0
          · simp [applyBinary, hb] at h
          · simp [applyBinary, hb, ratDiv] at h
        | _ => simp [applyBinary] at h
  | .function f p ns q, env, k, hok, h => by
    unfold Node.execute at h
    rcases andThen_panic h with h | ⟨vs, env1, h1, h⟩
    · obtain ⟨pre, n, post, vs, env1, s, env', rfl, h1, h3, h4⟩ :=
        panic_reachesList m args h2 hf ns hok h
      exact ⟨s, env', .argument h1 h3, h4⟩
    · exfalso
      simp only [St.lift, applyFunction] at h
      cases vs with
      | nil => simp at h
      | cons a vs => cases f <;> simp at h
theorem panic_reachesList (m : Machine) (args : Args) (h2 : 2 ≤ args.radix) (hf : 0 < m.fuel) :
    ∀ (ns : List Node) {env : Env} {k}, EnvOk env → (executeList m args ns env).1 = .panic k →
      ∃ pre n post vs env1 s env', ns = pre ++ n :: post ∧
        executeList m args pre env = (.ok vs, env1) ∧ Reaches m args n env1 s env' ∧
        CrashPoint m args s env'
  | [], env, k, _, h => by simp [executeList, St.lift] at h
  | n :: ns, env, k, hok, h => by
    unfold executeList at h
    rcases andThen_panic h with h | ⟨a, env1, h1, h⟩
    · obtain ⟨s, env', h3, h4⟩ := panic_reaches m args h2 hf n hok h
      exact ⟨[], n, ns, [], env, s, env', rfl, by simp [executeList, St.lift], h3, h4⟩
    · have hok1 : EnvOk env1 := by
        have := execute_envOk (m := m) (args := args) (n := n) hok
        rwa [h1] at this
      rcases andThen_panic h with h | ⟨vs, env2, h4, h⟩
      · obtain ⟨pre, n', post, vs, env2, s, env', rfl, h5, h6, h7⟩ :=
          panic_reachesList m args h2 hf ns hok1 h
        refine ⟨n :: pre, n', post, a :: vs, env2, s, env', rfl, ?_, h6, h7⟩
        unfold executeList
        rw [andThen_of_ok h1, andThen_of_ok h5]
        rfl
      · simp [St.lift] at h
end

theorem crashPoint_panics {m : Machine} {args : Args} (h2 : 2 ≤ args.radix) (hf : 0 < m.fuel)
    {s : Node} {env : Env} (h : CrashPoint m args s env) : ∃ k, (s.execute m args env).1 = .panic k := by
  cases h with
  | modulus h1 h3 =>
    refine ⟨.divisionByZero, ?_⟩
    unfold Node.execute
    rw [andThen_of_ok h1, andThen_of_ok h3]
    simp [St.lift, applyBinary, ratRem_zero]
  | power h1 h3 h4 =>
    obtain ⟨k, hk⟩ := (power_crash h2 hf _ _ _).2 h4
    refine ⟨k, ?_⟩
    unfold Node.execute
    rw [andThen_of_ok h1, andThen_of_ok h3]
    exact hk
  | sqrt h1 h4 =>
    obtain ⟨k, hk⟩ := (power_crash h2 hf _ _ _).2 h4
    refine ⟨k, ?_⟩
    unfold Node.execute
    rw [andThen_of_ok h1]
    exact hk

end Bcalc
