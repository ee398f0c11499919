import Verif.Proof.Defect2
import Verif.Spec.Answer
import Verif.Spec.Settings
import Verif.Props.Variables
import Verif.Props.Capacity
import Verif.Proof.HashOrder
import Verif.Props.Arithmetic
import Verif.Props.Parser
import Verif.Props.Display
import Verif.Props.Lexical

/-! # Evaluation when nobody else uses the database -/

namespace Bcalc
open Spec

/-! ## Errors of powers -/

theorem newton_ne_err (r : Rat) (d : Nat) (ε : Rat) : ∀ (f : Nat) (x : Rat) (e : MathError), newton r d ε f x ≠ .err e := by
  intro f
  induction f with
  | zero => intro x e h; cases h
  | succ f ih =>
    intro x e h
    rw [newton] at h
    unfold nextX ratDiv at h
    split at h
    · cases h
    · simp only [Outcome.bind_ok] at h
      split at h
      · cases h
      · exact ih _ _ h

theorem rootPart_err {f : Nat} {r : Rat} {d : Nat} {ε : Rat} {e : MathError} (h : rootPart f r d ε = .err e) :
    e = .imaginaryResult ∧ r < 0 ∧ Even d := by
  unfold rootPart at h
  split at h
  · cases h
  · split at h
    · rename_i h'
      cases h
      exact ⟨rfl, h'.1, Nat.even_iff.2 h'.2⟩
    · by_cases hg : fMagnitude r d (bisect r d (if r < 0 then ratTrunc r else 0) (if r < 0 then 0 else ratTrunc r)) = 0
      · simp only [if_pos hg] at h; cases h
      · simp only [if_neg hg] at h; exact absurd h (newton_ne_err _ _ _ _ _ _)

theorem exponentiate_err {m : Machine} {b e : Rat} {p radix : Nat} (h2 : 2 ≤ radix) {x : MathError}
    (h : exponentiate m b e p radix = .err x) : x = .imaginaryResult ∧ b < 0 ∧ Even e.den := by
  rcases exponentiate_cases m b e p radix h2 with ⟨_, _, hx⟩ | ⟨_, _, _, hx⟩ | ⟨_, _, hx⟩
  · rw [hx] at h; cases h
  · rw [hx] at h; cases h
  · rw [hx] at h
    obtain ⟨h1, h3, h4⟩ := rootPart_err h
    refine ⟨h1, ?_, h4⟩
    by_contra hb
    exact absurd h3 (not_lt.2 (zpow_nonneg (not_lt.1 hb) _))

theorem power_err {m : Machine} {args : Args} {p : Position} {a b : Rat} (h2 : 2 ≤ args.radix) {f : Failure}
    (h : (u8Add m args.precision args.extraPrecision >>= fun totalPrecision =>
      liftMath p (exponentiate m a b totalPrecision args.radix)) = .err f) :
    f = .input imaginaryText (some p) ∧ a < 0 ∧ Even b.den := by
  cases hu : (u8Add m args.precision args.extraPrecision : Outcome Failure Nat) with
  | ok c =>
    rw [hu] at h
    simp only [Outcome.bind_ok] at h
    cases hx : exponentiate m a b c args.radix with
    | err e =>
      rw [hx] at h
      simp only [liftMath, Outcome.mapErr, Outcome.err.injEq] at h
      obtain ⟨rfl, h3⟩ := exponentiate_err h2 hx
      exact ⟨h.symm, h3⟩
    | _ => rw [hx] at h; simp [liftMath, Outcome.mapErr] at h
  | err e =>
    unfold u8Add at hu
    split at hu
    · cases hu
    · split at hu <;> cases hu
  | _ => rw [hu] at h; simp at h

/-! ## What evaluation sees -/

/-- Nobody else uses the database. -/
def EnvQuiet (env : Env) : Prop := ∀ sd, env.db = some sd → sd.env = [] ∧ Reachable sd.db

/-- The value that a use of a variable finds. -/
def EnvSees (env : Env) (x : Str) (q : Rat) : Prop :=
  sessionValues env x = some q ∨ (sessionValues env x = none ∧ env.vars.isSome ∧
    ∃ sd, env.db = some sd ∧ Stored sd.db x q)

/-- Nothing that matters to variables has changed. -/
def SameSight (env env' : Env) : Prop :=
  EnvQuiet env → EnvQuiet env' ∧ env'.vars.isSome = env.vars.isSome ∧ ∀ x q, EnvSees env' x q ↔ EnvSees env x q

theorem SameSight.refl (env : Env) : SameSight env env := fun h => ⟨h, rfl, fun _ _ => Iff.rfl⟩

theorem SameSight.trans (a b c : Env) (h : SameSight a b) (h' : SameSight b c) : SameSight a c := fun ha =>
  have hb := h ha
  have hc := h' hb.1
  ⟨hc.1, hc.2.1.trans hb.2.1, fun x q => (hc.2.2 x q).trans (hb.2.2 x q)⟩

theorem EnvSees.unique {env : Env} (hq : EnvQuiet env) {x : Str} {q q' : Rat} (h : EnvSees env x q)
    (h' : EnvSees env x q') : q = q' := by
  rcases h with h | ⟨h, _, sd, hd, hs⟩
  · rcases h' with h' | ⟨h', _⟩
    · rw [h] at h'; cases h'; rfl
    · rw [h] at h'; cases h'
  · rcases h' with h' | ⟨_, _, sd', hd', hs'⟩
    · rw [h] at h'; cases h'
    · rw [hd] at hd'; cases hd'
      exact stored_unique (hq sd hd).2.unique hs hs'

/-- Reading a variable. -/
theorem execVariable_quiet (x : Str) (p : Position) (env : Env) (hq : EnvQuiet env) :
    (∃ q, EnvSees env x q ∧ (execVariable x p env).1 = .ok q) ∨
    ((∀ q, ¬ EnvSees env x q) ∧
      (execVariable x p env).1 = .err (.input (unknownText env.vars.isSome x) (some p))) := by
  unfold execVariable
  obtain ⟨vars, db⟩ := env
  cases vars with
  | none =>
    right
    refine ⟨?_, rfl⟩
    rintro q (h | ⟨_, h, _⟩)
    · cases h
    · cases h
  | some vs =>
    simp only
    cases hl : vs.lookup x with
    | some v =>
      left
      refine ⟨v, .inl hl, ?_⟩
      unfold VariableStore.get
      rw [hl]
    | none =>
      cases db with
      | none =>
        right
        refine ⟨?_, ?_⟩
        · rintro q (h | ⟨_, _, sd, h, _⟩)
          · simp only [sessionValues] at h; rw [hl] at h; cases h
          · cases h
        · unfold VariableStore.get
          rw [hl]
          rfl
      | some sd =>
        obtain ⟨he, hr⟩ := hq sd rfl
        rcases reload_quiet he hr vs x with ⟨q, sd', hs, _, _, hrel⟩ | ⟨sd', hs, _, _, hrel⟩
        · left
          refine ⟨q, .inr ⟨hl, rfl, sd, rfl, hs⟩, ?_⟩
          unfold VariableStore.get
          rw [hl]
          simp only
          rw [hrel]
        · right
          refine ⟨?_, ?_⟩
          · rintro q (h | ⟨_, _, sd1, h, h'⟩)
            · simp only [sessionValues] at h; rw [hl] at h; cases h
            · cases h; exact hs q h'
          · unfold VariableStore.get
            rw [hl]
            simp only
            rw [hrel]
            rfl

theorem execVariable_sight (x : Str) (p : Position) : (execVariable x p).Rel SameSight := by
  intro env hq
  unfold execVariable
  obtain ⟨vars, db⟩ := env
  cases vars with
  | none => exact SameSight.refl _ hq
  | some vs =>
    simp only
    cases hl : vs.lookup x with
    | some v =>
      have : vs.get x db = (.ok (some ⟨x, v⟩), vs, db) := by unfold VariableStore.get; rw [hl]
      rw [this]
      exact SameSight.refl _ hq
    | none =>
      cases db with
      | none =>
        have : vs.get x none = (.ok none, vs, none) := by unfold VariableStore.get; rw [hl]
        rw [this]
        exact SameSight.refl _ hq
      | some sd =>
        obtain ⟨he, hr⟩ := hq sd rfl
        rcases reload_quiet he hr vs x with ⟨q, sd', hs, hdb, henv, hrel⟩ | ⟨sd', hs, hdb, henv, hrel⟩
        · have : vs.get x (some sd) = (.ok (some ⟨x, q⟩), vs.insert x q, some sd') := by
            unfold VariableStore.get; rw [hl]; simp only; rw [hrel]
          rw [this]
          simp only
          refine ⟨?_, rfl, ?_⟩
          · intro sd1 h1
            cases h1
            rw [hdb]
            exact ⟨henv, hr⟩
          · intro y w
            unfold EnvSees sessionValues
            simp only [lookup_insert]
            by_cases hy : y = x
            · subst hy
              rw [if_pos rfl, hl]
              simp only [Option.some.injEq, reduceCtorEq, false_and, or_false, false_or, true_and,
                Option.isSome_some]
              constructor
              · rintro rfl; exact ⟨sd, rfl, hs⟩
              · rintro ⟨sd1, h1, h2⟩
                cases h1
                exact stored_unique hr.unique hs h2
            · rw [if_neg hy]
              simp only [Option.isSome_some, true_and, Option.some.injEq, exists_eq_left', hdb]
        · have : vs.get x (some sd) = (.ok none, vs, some sd') := by
            unfold VariableStore.get; rw [hl]; simp only; rw [hrel]
          rw [this]
          refine ⟨?_, rfl, ?_⟩
          · intro sd1 h1
            cases h1
            rw [hdb]
            exact ⟨henv, hr⟩
          · intro y w
            unfold EnvSees sessionValues
            simp only [Option.isSome_some, true_and, Option.some.injEq, exists_eq_left', hdb]

theorem execute_sight (m : Machine) (args : Args) (n : Node) (env : Env) :
    SameSight env (n.execute m args env).2 :=
  execute_rel SameSight.refl SameSight.trans execVariable_sight m args n env

theorem executeList_sight (m : Machine) (args : Args) (ns : List Node) (env : Env) :
    SameSight env (executeList m args ns env).2 :=
  executeList_rel SameSight.refl SameSight.trans execVariable_sight m args ns env

/-- The valuation says what evaluation sees. -/
def SeenIn (env : Env) (ρ : Valuation) : Prop := ∀ x q, ρ x = some q ↔ EnvSees env x q

theorem SeenIn.next {env env' : Env} {ρ : Valuation} (h : SeenIn env ρ) (hq : EnvQuiet env) (hs : SameSight env env') :
    SeenIn env' ρ := fun x q => (h x q).trans ((hs hq).2.2 x q).symm

theorem execute_seen {m : Machine} {args : Args} (h2 : 2 ≤ args.radix) {n : Node} {env env' : Env} {ρ : Valuation}
    (hq : EnvQuiet env) (hρ : SeenIn env ρ) {v : Rat} (h : n.execute m args env = (.ok v, env')) :
    Value (usedTolerance args) ρ n v := by
  have hs := execute_sight m args n env
  rw [h] at hs
  refine value_mono (fun x q hx => ?_) (execute_value m args h2 n h)
  exact (hρ x q).2 (((hs hq).2.2 x q).1 (.inl hx))

theorem executeList_seen {m : Machine} {args : Args} (h2 : 2 ≤ args.radix) {ns : List Node} {env env' : Env}
    {ρ : Valuation} (hq : EnvQuiet env) (hρ : SeenIn env ρ) {vs : List Rat}
    (h : executeList m args ns env = (.ok vs, env')) : Values (usedTolerance args) ρ ns vs := by
  have hs := executeList_sight m args ns env
  rw [h] at hs
  refine values_mono (fun x q hx => ?_) (executeList_value m args h2 ns h)
  exact (hρ x q).2 (((hs hq).2.2 x q).1 (.inl hx))

/-- How a list of arguments is refused. -/
def RefusedList (store : Bool) (ε : Rat) (ρ : Valuation) (ns : List Node) (t : Str) (p : Position) : Prop :=
  ∃ pre n post vs, ns = pre ++ n :: post ∧ List.Forall₂ (Value ε ρ) pre vs ∧ Refused store ρ (Value ε ρ) n t p

mutual
theorem execute_refused (m : Machine) (args : Args) (h2 : 2 ≤ args.radix) (ρ : Valuation) :
    ∀ (n : Node) (env env' : Env) (f : Failure), EnvQuiet env → SeenIn env ρ → n.execute m args env = (.err f, env') →
      ∃ t p, f = .input t (some p) ∧ Refused env.vars.isSome ρ (Value (usedTolerance args) ρ) n t p
  | .number v p, env, env', f, hq, hρ, h => by simp [Node.execute, St.lift] at h
  | .variable x p, env, env', f, hq, hρ, h => by
    unfold Node.execute at h
    rcases execVariable_quiet x p env hq with ⟨q, _, he⟩ | ⟨hn, he⟩
    · rw [h] at he; cases he
    · rw [h] at he
      simp only [Outcome.err.injEq] at he
      refine ⟨_, _, he, .variable ?_⟩
      cases hx : ρ x with
      | none => rfl
      | some q => exact absurd ((hρ x q).1 hx) (hn q)
  | .paren p q n, env, env', f, hq, hρ, h => by
    unfold Node.execute at h
    obtain ⟨t, r, hf, hr⟩ := execute_refused m args h2 ρ n env env' f hq hρ h
    exact ⟨t, r, hf, .paren hr⟩
  | .unary o p n, env, env', f, hq, hρ, h => by
    unfold Node.execute at h
    rcases andThen_err h with h | ⟨a, env1, h1, h⟩
    · obtain ⟨t, r, hf, hr⟩ := execute_refused m args h2 ρ n env env' f hq hρ h
      exact ⟨t, r, hf, .operand hr⟩
    · have hv := execute_seen h2 hq hρ h1
      have h := (Prod.mk.inj h).1
      unfold applyUnary at h
      cases o with
      | squareRoot =>
        obtain ⟨h3, h4, _⟩ := power_err h2 h
        exact ⟨_, _, h3, .sqrt hv h4⟩
      | negate => cases h
      | absoluteValue => cases h
  | .binary o p n n', env, env', f, hq, hρ, h => by
    unfold Node.execute at h
    rcases andThen_err h with h | ⟨a, env1, h1, h⟩
    · obtain ⟨t, r, hf, hr⟩ := execute_refused m args h2 ρ n env env' f hq hρ h
      exact ⟨t, r, hf, .left hr⟩
    · have hv := execute_seen h2 hq hρ h1
      have hs := execute_sight m args n env
      rw [h1] at hs
      have hq1 := (hs hq).1
      have hρ1 := hρ.next hq hs
      rcases andThen_err h with h | ⟨b, env2, h3, h⟩
      · obtain ⟨t, r, hf, hr⟩ := execute_refused m args h2 ρ n' env1 env' f hq1 hρ1 h
        rw [(hs hq).2.1] at hr
        exact ⟨t, r, hf, .right hv hr⟩
      · have hv' := execute_seen h2 hq1 hρ1 h3
        have h := (Prod.mk.inj h).1
        unfold applyBinary at h
        cases o with
        | add => cases h
        | subtract => cases h
        | multiply => cases h
        | divide =>
          simp only at h
          split at h
          · rename_i hb
            have hf := (Outcome.err.inj h).symm
            have : b = 0 := Rat.num_eq_zero.1 hb
            subst this
            exact ⟨_, _, hf, .divide hv hv'⟩
          · unfold ratDiv at h; split at h <;> cases h
        | modulus =>
          simp only at h
          unfold ratRem at h
          split at h
          · cases h
          · split at h <;> cases h
        | exponent =>
          obtain ⟨h4, h5, h6⟩ := power_err h2 h
          exact ⟨_, _, h4, .power hv hv' h5 h6⟩
  | .function g p ns q, env, env', f, hq, hρ, h => by
    unfold Node.execute at h
    rcases andThen_err h with h | ⟨vs, env1, h1, h⟩
    · obtain ⟨t, r, hf, pre, n, post, vs, rfl, hvs, hr⟩ := executeList_refused m args h2 ρ ns env env' f hq hρ h
      exact ⟨t, r, hf, .argument hvs hr⟩
    · have hv := executeList_seen h2 hq hρ h1
      have h4 := (Prod.mk.inj h).1
      unfold applyFunction at h4
      cases vs with
      | nil =>
        cases hv
        refine ⟨_, _, (Outcome.err.inj h4).symm.trans ?_, .noArguments⟩
        cases g <;> rfl
      | cons a vs => cases g <;> simp at h4
theorem executeList_refused (m : Machine) (args : Args) (h2 : 2 ≤ args.radix) (ρ : Valuation) :
    ∀ (ns : List Node) (env env' : Env) (f : Failure), EnvQuiet env → SeenIn env ρ →
      executeList m args ns env = (.err f, env') →
      ∃ t p, f = .input t (some p) ∧ RefusedList env.vars.isSome (usedTolerance args) ρ ns t p
  | [], env, env', f, hq, hρ, h => by simp [executeList, St.lift] at h
  | n :: ns, env, env', f, hq, hρ, h => by
    unfold executeList at h
    rcases andThen_err h with h | ⟨a, env1, h1, h⟩
    · obtain ⟨t, r, hf, hr⟩ := execute_refused m args h2 ρ n env env' f hq hρ h
      exact ⟨t, r, hf, [], n, ns, [], rfl, .nil, hr⟩
    · have hv := execute_seen h2 hq hρ h1
      have hs := execute_sight m args n env
      rw [h1] at hs
      rcases andThen_err h with h | ⟨b, env2, h3, h⟩
      · obtain ⟨t, r, hf, pre, k, post, vs, rfl, hvs, hr⟩ :=
          executeList_refused m args h2 ρ ns env1 env' f (hs hq).1 (hρ.next hq hs) h
        rw [(hs hq).2.1] at hr
        exact ⟨t, r, hf, n :: pre, k, post, a :: vs, rfl, .cons hv hvs, hr⟩
      · simp [St.lift] at h
end

theorem number_execute (m : Machine) (args : Args) (v : Rat) (p : Position) (env : Env) :
    (Node.number v p).execute m args env = (.ok v, env) := rfl

theorem executeSqrt_exact {m : Machine} {args : Args} (h2 : 2 ≤ args.radix)
    (hp : args.precision + args.extraPrecision ≤ 254) {p : Position} {k : Nat} :
    applyUnary m args .squareRoot p ((k : Rat) * k) = .ok (k : Rat) := by
  have h := C24_sqrt_of_square m args h2 (fun _ => hp) p (.number ((k : Rat) * k) p) ⟨none, none⟩ ⟨none, none⟩ k rfl
  unfold Node.execute at h
  rw [andThen_of_ok (number_execute m args _ p _)] at h
  exact (Prod.mk.inj h).1

theorem applyBinary_of {m : Machine} {args : Args} {o : BinOp} {p : Position} {a b v : Rat}
    (h : ∀ n n' : Node, ∀ env : Env, n.execute m args env = (.ok a, env) → n'.execute m args env = (.ok b, env) →
      (Node.binary o p n n').execute m args env = (.ok v, env)) : applyBinary m args o p a b = .ok v := by
  have h := h (.number a p) (.number b p) ⟨none, none⟩ rfl rfl
  unfold Node.execute at h
  rw [andThen_of_ok (number_execute m args _ p _), andThen_of_ok (number_execute m args _ p _)] at h
  exact (Prod.mk.inj h).1

mutual
/-- An expression with an exact value is evaluated to it. -/
theorem execute_exact (m : Machine) (args : Args) (h2 : 2 ≤ args.radix)
    (hp : args.precision + args.extraPrecision ≤ 254) (ρ : Valuation) :
    ∀ (n : Node) {v} (env : Env), EnvQuiet env → SeenIn env ρ → Exact ρ n v →
      ∃ env', n.execute m args env = (.ok v, env')
  | .number w p, v, env, hq, hρ, h => by
    cases h; exact ⟨env, rfl⟩
  | .variable x p, v, env, hq, hρ, h => by
    cases h with
    | «variable» h =>
      unfold Node.execute
      have hs := (hρ x v).1 h
      rcases execVariable_quiet x p env hq with ⟨q, h1, he⟩ | ⟨hn, _⟩
      · rw [EnvSees.unique hq h1 hs] at he
        exact ⟨_, Prod.ext he rfl⟩
      · exact absurd hs (hn v)
  | .paren p q n, v, env, hq, hρ, h => by
    cases h with
    | paren h => unfold Node.execute; exact execute_exact m args h2 hp ρ n env hq hρ h
  | .unary o p n, v, env, hq, hρ, h => by
    obtain ⟨a, ha, hv⟩ : ∃ a, Exact ρ n a ∧ applyUnary m args o p a = .ok v := by
      cases h with
      | negate h => exact ⟨_, h, rfl⟩
      | abs h => exact ⟨_, h, rfl⟩
      | sqrt h hk => subst hk; exact ⟨_, h, executeSqrt_exact h2 hp⟩
    obtain ⟨env1, h1⟩ := execute_exact m args h2 hp ρ n env hq hρ ha
    unfold Node.execute
    rw [andThen_of_ok h1]
    exact ⟨env1, by simp [St.lift, hv]⟩
  | .binary o p n n', v, env, hq, hρ, h => by
    obtain ⟨a, b, ha, hb, hv⟩ : ∃ a b, Exact ρ n a ∧ Exact ρ n' b ∧ applyBinary m args o p a b = .ok v := by
      cases h with
      | add h h' => exact ⟨_, _, h, h', rfl⟩
      | subtract h h' => exact ⟨_, _, h, h', rfl⟩
      | multiply h h' => exact ⟨_, _, h, h', rfl⟩
      | divide h h' hb => exact ⟨_, _, h, h', by simp [applyBinary, ratDiv, hb]⟩
      | modulus h h' hb hr =>
        refine ⟨_, _, h, h', applyBinary_of fun k k' e h1 h3 => ?_⟩
        obtain ⟨w, hw, hw'⟩ := C21_remainder m args p k k' e e e _ _ h1 h3 hb
        rw [hw, remainder_unique hw' hr]
      | power h h' hd =>
        exact ⟨_, _, h, h', applyBinary_of fun k k' e h1 h3 =>
          C22_integer_power m args h2 (fun _ => hp) p k k' e e e _ _ h1 h3 hd⟩
      | root h h' hd hk he =>
        exact ⟨_, _, h, h', applyBinary_of fun k k' e h1 h3 =>
          C24_exact_root m args h2 (fun _ => hp) p k k' e e e _ _ _ h1 h3 hd hk.symm he⟩
    obtain ⟨env1, h1⟩ := execute_exact m args h2 hp ρ n env hq hρ ha
    have hs := execute_sight m args n env
    rw [h1] at hs
    obtain ⟨env2, h3⟩ := execute_exact m args h2 hp ρ n' env1 (hs hq).1 (hρ.next hq hs) hb
    unfold Node.execute
    rw [andThen_of_ok h1, andThen_of_ok h3]
    exact ⟨env2, by simp [St.lift, hv]⟩
  | .function f p ns q, v, env, hq, hρ, h => by
    obtain ⟨vs, hvs, hv⟩ : ∃ vs, ExactAll ρ ns vs ∧ applyFunction f p vs = .ok v := by
      cases h with
      | @max _ _ _ vs _ h hm hle =>
        refine ⟨vs, h, ?_⟩
        cases vs with
        | nil => cases hm
        | cons a vs =>
          obtain ⟨h1, h3⟩ := foldl_max_spec vs a
          simp only [applyFunction, Outcome.ok.injEq]
          exact le_antisymm (hle _ h1) (h3 _ hm)
      | @min _ _ _ vs _ h hm hle =>
        refine ⟨vs, h, ?_⟩
        cases vs with
        | nil => cases hm
        | cons a vs =>
          obtain ⟨h1, h3⟩ := foldl_min_spec vs a
          simp only [applyFunction, Outcome.ok.injEq]
          exact le_antisymm (h3 _ hm) (hle _ h1)
    obtain ⟨env1, h1⟩ := executeList_exact m args h2 hp ρ ns env hq hρ hvs
    unfold Node.execute
    rw [andThen_of_ok h1]
    exact ⟨env1, by simp [St.lift, hv]⟩
theorem executeList_exact (m : Machine) (args : Args) (h2 : 2 ≤ args.radix)
    (hp : args.precision + args.extraPrecision ≤ 254) (ρ : Valuation) :
    ∀ (ns : List Node) {vs} (env : Env), EnvQuiet env → SeenIn env ρ → ExactAll ρ ns vs →
      ∃ env', executeList m args ns env = (.ok vs, env')
  | [], vs, env, hq, hρ, h => by cases h; exact ⟨env, by simp [executeList, St.lift]⟩
  | n :: ns, vs, env, hq, hρ, h => by
    cases h with
    | cons h h' =>
      obtain ⟨env1, h1⟩ := execute_exact m args h2 hp ρ n env hq hρ h
      have hs := execute_sight m args n env
      rw [h1] at hs
      obtain ⟨env2, h3⟩ := executeList_exact m args h2 hp ρ ns env1 (hs hq).1 (hρ.next hq hs) h'
      unfold executeList
      rw [andThen_of_ok h1, andThen_of_ok h3]
      exact ⟨env2, by simp [St.lift]⟩
end

/-- An expression of exact operations with a value has it exactly. -/
theorem exact_of_value {ε : Rat} {ρ : Valuation} : ∀ {n : Node} {v : Rat}, Arithmetic n → Value ε ρ n v → Exact ρ n v
  | .number _ _, _, _, .number => .number
  | .variable _ _, _, _, .variable h => .variable h
  | .paren _ _ _, _, .paren ha, .paren h => .paren (exact_of_value ha h)
  | .unary _ _ _, _, .unary _ ha, .negate h => .negate (exact_of_value ha h)
  | .unary _ _ _, _, .unary _ ha, .abs h => .abs (exact_of_value ha h)
  | .unary _ _ _, _, .unary ho _, .sqrt _ _ => absurd rfl ho
  | .binary _ _ _ _, _, .binary _ _ ha hb, .add h h' => .add (exact_of_value ha h) (exact_of_value hb h')
  | .binary _ _ _ _, _, .binary _ _ ha hb, .subtract h h' => .subtract (exact_of_value ha h) (exact_of_value hb h')
  | .binary _ _ _ _, _, .binary _ _ ha hb, .multiply h h' => .multiply (exact_of_value ha h) (exact_of_value hb h')
  | .binary _ _ _ _, _, .binary _ _ ha hb, .divide h h' hd => .divide (exact_of_value ha h) (exact_of_value hb h') hd
  | .binary _ _ _ _, _, .binary ho _ _ _, .modulus _ _ _ _ => absurd rfl ho
  | .binary _ _ _ _, _, .binary _ ho _ _, .power _ _ _ => absurd rfl ho
  | .function _ _ _ _, _, .function ha, .max h hm hle => .max (exactAll_of_values ha h) hm hle
  | .function _ _ _ _, _, .function ha, .min h hm hle => .min (exactAll_of_values ha h) hm hle
where
  exactAll_of_values {ε : Rat} {ρ : Valuation} : ∀ {ns : List Node} {vs : List Rat}, (∀ n ∈ ns, Arithmetic n) →
      Values ε ρ ns vs → ExactAll ρ ns vs
    | [], _, _, .nil => .nil
    | n :: _, _, ha, .cons h h' =>
      .cons (exact_of_value (ha n (by simp)) h) (exactAll_of_values (fun k hk => ha k (by simp [hk])) h')

theorem forall₂_of_values {ε : Rat} {ρ : Valuation} : ∀ {ns : List Node} {vs : List Rat}, Values ε ρ ns vs →
    List.Forall₂ (Value ε ρ) ns vs
  | [], _, .nil => .nil
  | _ :: _, _, .cons h h' => .cons h (forall₂_of_values h')

theorem exactAll_of_forall₂ {ρ : Valuation} : ∀ {ns : List Node} {vs : List Rat}, List.Forall₂ (Exact ρ) ns vs →
    ExactAll ρ ns vs
  | [], _, .nil => .nil
  | _ :: _, _, .cons h h' => .cons h (exactAll_of_forall₂ h')

theorem executeList_append_err {m : Machine} {args : Args} : ∀ {pre : List Node} {n : Node} {post : List Node}
    {env env1 env2 : Env} {vs : List Rat} {f : Failure}, executeList m args pre env = (.ok vs, env1) →
    n.execute m args env1 = (.err f, env2) → executeList m args (pre ++ n :: post) env = (.err f, env2)
  | [], n, post, env, env1, env2, vs, f, h, h' => by
    simp only [executeList, St.lift, Prod.mk.injEq] at h
    obtain ⟨_, rfl⟩ := h
    simp only [List.nil_append]
    unfold executeList
    exact andThen_of_err h'
  | k :: pre, n, post, env, env1, env2, vs, f, h, h' => by
    unfold executeList at h
    obtain ⟨v, e1, h1, h⟩ := andThen_ok h
    obtain ⟨ws, e2, h3, h⟩ := andThen_ok h
    simp only [St.lift, Prod.mk.injEq] at h
    obtain ⟨_, rfl⟩ := h
    simp only [List.cons_append]
    unfold executeList
    rw [andThen_of_ok h1]
    exact andThen_of_err (executeList_append_err h3 h')

/-- An expression that has to be refused is refused. -/
theorem execute_refuses (m : Machine) (args : Args) (hr : 2 ≤ args.radix)
    (hp : args.precision + args.extraPrecision ≤ 254) {store : Bool} {ρ : Valuation} {n : Node} {t : Str}
    {p : Position} (h : Refused store ρ (Exact ρ) n t p) : ∀ env : Env, EnvQuiet env → SeenIn env ρ →
    store = env.vars.isSome → ∃ env', n.execute m args env = (.err (.input t (some p)), env') := by
  induction h with
  | @«variable» x p h =>
    intro env hq hρ hst
    unfold Node.execute
    rcases execVariable_quiet x p env hq with ⟨q, h1, he⟩ | ⟨hn, he⟩
    · rw [(hρ x q).2 h1] at h; cases h
    · rw [hst]; exact ⟨_, Prod.ext he rfl⟩
  | paren _ ih =>
    intro env hq hρ hst
    unfold Node.execute
    exact ih env hq hρ hst
  | operand _ ih =>
    intro env hq hρ hst
    unfold Node.execute
    obtain ⟨env', h⟩ := ih env hq hρ hst
    exact ⟨env', andThen_of_err h⟩
  | left _ ih =>
    intro env hq hρ hst
    unfold Node.execute
    obtain ⟨env', h⟩ := ih env hq hρ hst
    exact ⟨env', andThen_of_err h⟩
  | @right o p n n' _ _ _ hv _ ih =>
    intro env hq hρ hst
    unfold Node.execute
    obtain ⟨env1, h1⟩ := execute_exact m args hr hp ρ n env hq hρ hv
    have hs := execute_sight m args n env
    rw [h1] at hs
    obtain ⟨env', h⟩ := ih env1 (hs hq).1 (hρ.next hq hs) (hst.trans (hs hq).2.1.symm)
    rw [andThen_of_ok h1]
    exact ⟨env', andThen_of_err h⟩
  | @divide p n n' a hv hv' =>
    intro env hq hρ hst
    unfold Node.execute
    obtain ⟨env1, h1⟩ := execute_exact m args hr hp ρ n env hq hρ hv
    have hs := execute_sight m args n env
    rw [h1] at hs
    obtain ⟨env2, h2⟩ := execute_exact m args hr hp ρ n' env1 (hs hq).1 (hρ.next hq hs) hv'
    rw [andThen_of_ok h1, andThen_of_ok h2]
    exact ⟨env2, rfl⟩
  | @power p n n' a b hv hv' ha hb =>
    intro env hq hρ hst
    obtain ⟨env1, h1⟩ := execute_exact m args hr hp ρ n env hq hρ hv
    have hs := execute_sight m args n env
    rw [h1] at hs
    obtain ⟨env2, h2⟩ := execute_exact m args hr hp ρ n' env1 (hs hq).1 (hρ.next hq hs) hv'
    exact ⟨env2, C23_even_root_of_negative m args hr (fun _ => hp) p n n' env env1 env2 a b h1 h2 ha hb⟩
  | @sqrt p n a hv ha =>
    intro env hq hρ hst
    obtain ⟨env1, h1⟩ := execute_exact m args hr hp ρ n env hq hρ hv
    exact ⟨env1, C23_sqrt_of_negative m args hr (fun _ => hp) p n env env1 a h1 ha⟩
  | @argument f _ ns n ns' _ vs _ _ hv _ ih =>
    intro env hq hρ hst
    unfold Node.execute
    obtain ⟨env1, h1⟩ := executeList_exact m args hr hp ρ ns env hq hρ (exactAll_of_forall₂ hv)
    have hs := executeList_sight m args ns env
    rw [h1] at hs
    obtain ⟨env', h⟩ := ih env1 (hs hq).1 (hρ.next hq hs) (hst.trans (hs hq).2.1.symm)
    exact ⟨env', andThen_of_err (executeList_append_err h1 h)⟩
  | @noArguments f _ _ =>
    intro env hq hρ hst
    unfold Node.execute executeList
    exact ⟨env, by cases f <;> rfl⟩

/-! ## The database under evaluation -/

/-- Reading does not change the database. -/
def DbKept (env env' : Env) : Prop :=
  EnvQuiet env → EnvQuiet env' ∧ env'.db.map (·.db) = env.db.map (·.db)

theorem execVariable_kept (x : Str) (p : Position) : (execVariable x p).Rel DbKept := by
  intro env hq
  unfold execVariable
  obtain ⟨vars, db⟩ := env
  cases vars with
  | none => exact ⟨hq, rfl⟩
  | some vs =>
    simp only
    cases hl : vs.lookup x with
    | some v =>
      have : vs.get x db = (.ok (some ⟨x, v⟩), vs, db) := by unfold VariableStore.get; rw [hl]
      rw [this]
      exact ⟨hq, rfl⟩
    | none =>
      cases db with
      | none =>
        have : vs.get x none = (.ok none, vs, none) := by unfold VariableStore.get; rw [hl]
        rw [this]
        exact ⟨hq, rfl⟩
      | some sd =>
        obtain ⟨he, hr⟩ := hq sd rfl
        have hgoal : ∀ sd' : SavedData, sd'.db = sd.db → sd'.env = [] →
            ∀ vs', EnvQuiet ⟨vs', some sd'⟩ ∧ (some sd').map (·.db) = (some sd).map (·.db) := by
          intro sd' hdb henv vs'
          refine ⟨?_, by simp [hdb]⟩
          intro sd1 h1
          cases h1
          rw [hdb]
          exact ⟨henv, hr⟩
        rcases reload_quiet he hr vs x with ⟨q, sd', hs, hdb, henv, hrel⟩ | ⟨sd', hs, hdb, henv, hrel⟩
        · have : vs.get x (some sd) = (.ok (some ⟨x, q⟩), vs.insert x q, some sd') := by
            unfold VariableStore.get; rw [hl]; simp only; rw [hrel]
          rw [this]
          exact hgoal sd' hdb henv _
        · have : vs.get x (some sd) = (.ok none, vs, some sd') := by
            unfold VariableStore.get; rw [hl]; simp only; rw [hrel]
          rw [this]
          exact hgoal sd' hdb henv _

theorem execute_kept (m : Machine) (args : Args) (n : Node) (env : Env) : DbKept env (n.execute m args env).2 :=
  execute_rel (fun _ h => ⟨h, rfl⟩) (fun _ _ _ h h' ha => ⟨(h' (h ha).1).1, (h' (h ha).1).2.trans (h ha).2⟩)
    execVariable_kept m args n env

theorem IdOk.quiet {id : Option Int} {vars : Option VariableStore} {db : Option SavedData} (h : IdOk id db) :
    EnvQuiet ⟨vars, db⟩ := by
  intro sd hd
  simp only at hd
  subst hd
  exact ⟨h.1, h.2.1⟩

theorem IdOk.kept {id : Option Int} {vars : Option VariableStore} {db : Option SavedData} {env' : Env}
    (h : IdOk id db) (hk : DbKept ⟨vars, db⟩ env') : IdOk id env'.db := by
  obtain ⟨hq, hd⟩ := hk h.quiet
  cases db with
  | none =>
    simp only [Option.map_none, Option.map_eq_none_iff] at hd
    rw [hd]; exact h
  | some sd =>
    simp only [Option.map_some, Option.map_eq_some_iff] at hd
    obtain ⟨sd', hd', he⟩ := hd
    rw [hd']
    obtain ⟨_, _, i, hi, hh⟩ := h
    exact ⟨(hq sd' hd').1, (hq sd' hd').2, i, hi, by rw [he]; exact hh⟩

/-- Storing a variable succeeds. -/
theorem update_idOk {id : Option Int} {db : Option SavedData} (h : IdOk id db) (vs : VariableStore) (var : Variable) :
    (vs.update var id db).1 = .ok () := by
  unfold VariableStore.update
  cases db with
  | none => cases h; rfl
  | some sd =>
    obtain ⟨he, hr, i, rfl, hi⟩ := h
    simp only
    unfold SavedData.setVariable
    rw [run_quiet he, (C46_setVariable sd.db hr var i).1 (by
      unfold Db.hasId at hi
      rw [List.any_eq_true] at hi
      obtain ⟨r, h1, h2⟩ := hi
      exact ⟨r, h1, by simpa using h2⟩)]
    rfl

/-- Noting the use of variables: succeeds, and nothing that matters to variables changes. -/
theorem touchVars_seen {id : Option Int} {s : Session} (h : IdOk id s.db) (l : List Str) :
    ∃ s2, (match s.vars with
        | some _ => touchAll id l
        | none => fun s => (.ok (), s) : Sess Unit) s = (.ok (), s2) ∧ IdOk id s2.db ∧ s2.args = s.args ∧
      s2.vars = s.vars ∧ ∀ x q, EnvSees s2.env x q ↔ EnvSees s.env x q := by
  cases hv : s.vars with
  | none => exact ⟨s, rfl, h, rfl, hv, fun _ _ => Iff.rfl⟩
  | some vs =>
    simp only
    cases hd : s.db with
    | none =>
      rw [hd] at h
      have h' : id = none := h
      subst h'
      refine ⟨s, touchAll_none l hd, ?_, rfl, hv, fun _ _ => Iff.rfl⟩
      rw [hd]; rfl
    | some sd =>
      rw [hd] at h
      obtain ⟨he, hr, i, rfl, hi⟩ := h
      obtain ⟨c, hc⟩ := touchAll_quiet l hd he (reachable_fk hr) hi (by rw [hv]; rfl)
      have hst : ∀ x q, Stored (marked l i sd.db) x q ↔ Stored sd.db x q := by
        intro x q
        unfold Stored marked
        simp only [List.mem_map]
        constructor
        · rintro ⟨row, ⟨w, hw, rfl⟩, h1, h2, h3⟩
          refine ⟨w, hw, ?_⟩
          split at h1 <;> split at h2 <;> split at h3 <;> exact ⟨h1, h2, h3⟩
        · rintro ⟨row, hw, h1, h2, h3⟩
          refine ⟨_, ⟨row, hw, rfl⟩, ?_⟩
          split <;> exact ⟨h1, h2, h3⟩
      have hrel : SessRel (fun _ => True) s { s with db := some { sd with db := marked l i sd.db, commits := c } } := by
        have := touchAll_db (own := fun _ => True) (some i) l (fun _ _ _ _ => trivial) s
        rw [hc] at this
        exact this
      refine ⟨_, hc, ⟨he, ?_, i, rfl, ?_⟩, rfl, hv, ?_⟩
      · unfold SessRel at hrel
        rw [hd] at hrel
        obtain ⟨sd', hd', hr'⟩ := OptRel.some_left hrel
        simp only [Option.some.injEq] at hd'
        subst hd'
        exact hr.evolves hr'.db
      · exact hi
      · intro x q
        unfold EnvSees Session.env sessionValues
        simp only [hd, Option.some.injEq, exists_eq_left', hst]

/-! ## A line that is not a command -/

theorem tolerance_asked {args : Args} (hp : args.precision + args.extraPrecision ≤ 254) :
    usedTolerance args = askedTolerance args := by
  unfold usedTolerance askedTolerance tolerance
  rw [Nat.mod_eq_of_lt (by omega)]

theorem displays_of_display (args : Args) (hv : ValidSettings args) (v : Rat) :
    ∃ text, displayResult args v = .ok text ∧ Displays args v text := by
  unfold Displays
  cases hf : args.fractional with
  | true =>
    simp only [if_true]
    obtain ⟨a, b, hc, hab, h⟩ := C36_fraction args hf v
    rcases h with ⟨h1, w, h2, h3⟩ | ⟨h1, w, w', h2, h3, h4⟩
    · exact ⟨_, h2, a, b, hc, hab, .inl ⟨h1, w, rfl, h3⟩⟩
    · exact ⟨_, h2, a, b, hc, hab, .inr ⟨h1, w, w', rfl, h3, h4⟩⟩
  | false =>
    have ho : 2 ≤ outputRadix args ∧ outputRadix args ≤ 16 := by
      unfold outputRadix
      cases hc : args.convertToRadix with
      | none => exact hv.radix
      | some r => exact hv.output r hc
    obtain ⟨s, w, u, h1, h2, h3, h4⟩ := C30_rounded args hf ho.1 ho.2 v
    exact ⟨s, h1, by simp only [Bool.false_eq_true, if_false]; exact ⟨w, u, h2, h3, h4⟩⟩

/-- The judgement about a line of which the tokens are known. -/
theorem calculateTokens_judged {m : Machine} {id : Option Int} {ts : List PTok} {s : Session} {ρ : Valuation}
    (hv : ValidSettings s.args) (hp : s.args.precision + s.args.extraPrecision ≤ 254) (hid : IdOk id s.db)
    (hρ : SeenIn s.env ρ) (ho : Ordered ts) :
    (∀ text, (calculateTokens m id ts s).1 = .ok text → (ts = [] ∧ text = []) ∨
      ∃ target n v, Input ts target n ∧ Value (askedTolerance s.args) ρ n v ∧ Displays s.args v text) ∧
    (∀ f, (calculateTokens m id ts s).1 = .err f → ∃ t p, f = .input t (some p) ∧
      (Defect ts t p ∨
       (∃ target n, Input ts target n ∧ Refused s.vars.isSome ρ (Value (askedTolerance s.args) ρ) n t p) ∨
       (s.vars.isSome = false ∧ t = "Variable store unavailable".toList ∧
         ∃ x n v, Input ts (some x) n ∧ Value (askedTolerance s.args) ρ n v ∧ p = x.position))) := by
  have h2 := hv.radix.1
  obtain ⟨s2, h1, hid2, ha2, hv2, hs2⟩ := touchVars_seen hid (m.hashOrder (variableNames ts))
  have hρ2 : SeenIn s2.env ρ := fun x q => (hρ x q).trans (hs2 x q).symm
  have hcalc : calculateTokens m id ts s = (if ts = [] then fun s => (.ok [], s)
      else St.andThen (St.lift ((SyntaxTree.new ts).mapErr Failure.ofSyntax)) fun tree =>
        (executeTree m tree id).andThen fun result s => (displayResult s.args result, s) : Sess Str) s2 := by
    unfold calculateTokens
    exact andThen_of_ok h1
  rw [hcalc]
  by_cases hts : ts = []
  · rw [if_pos hts]
    refine ⟨fun text h => .inl ⟨hts, ?_⟩, fun f h => by cases h⟩
    cases h; rfl
  · rw [if_neg hts]
    cases hnew : SyntaxTree.new ts with
    | panic k => exact absurd hnew (by
        rcases C12_total ts with ⟨t, h⟩ | ⟨e, h⟩ <;> rw [h] <;> simp)
    | diverge => exact absurd hnew (by
        rcases C12_total ts with ⟨t, h⟩ | ⟨e, h⟩ <;> rw [h] <;> simp)
    | err e =>
      refine ⟨fun text h => ?_, fun f h => ?_⟩
      · simp [St.andThen, St.lift, Outcome.mapErr] at h
      · simp only [St.andThen, St.lift, Outcome.mapErr, Outcome.err.injEq] at h
        exact ⟨_, _, h.symm, .inl (new_defect ho hnew)⟩
    | ok tree =>
      have hin := (C10_parser_iff_grammar ts tree).1 hnew
      have hq2 : EnvQuiet s2.env := hid2.quiet
      have hl : ∀ (f : SyntaxTree → Sess Str), St.andThen (St.lift ((Outcome.ok tree :
          Outcome (Positioned SyntaxError) SyntaxTree).mapErr Failure.ofSyntax)) f s2 = f tree s2 := fun f => rfl
      rw [hl]
      rcases hx : tree.root.execute m s.args s2.env with ⟨r, env⟩
      have hsight := execute_sight m s.args tree.root s2.env
      have hkept := execute_kept m s.args tree.root s2.env
      rw [hx] at hsight hkept
      have hex : executeTree m tree id s2 = match tree.execute m s.args id s2.env with
          | (r, env) => (r, { s2 with vars := env.vars, db := env.db }) := by
        unfold executeTree Session.env; rw [ha2]
      cases r with
      | ok v =>
        have hval := execute_seen h2 hq2 hρ2 hx
        rw [tolerance_asked hp] at hval
        have htree : (tree.execute m s.args id s2.env).1 = .ok v ∨
            (s.vars.isSome = false ∧ ∃ x, tree.resultVar = some x ∧
              (tree.execute m s.args id s2.env).1 =
                .err (.input "Variable store unavailable".toList (some x.position))) := by
          unfold SyntaxTree.execute
          rw [andThen_of_ok hx]
          simp only
          cases hrv : tree.resultVar with
          | none => exact .inl rfl
          | some x =>
            simp only
            cases hev : env.vars with
            | none =>
              right
              refine ⟨?_, x, rfl, rfl⟩
              have := (hsight hq2).2.1
              rw [hev] at this
              unfold Session.env at this
              simp only at this
              rw [← hv2, ← this]
              rfl
            | some vs =>
              left
              simp only
              have := update_idOk (IdOk.kept (vars := s2.vars) hid2 hkept) vs ⟨x.value, v⟩
              rcases hu : vs.update ⟨x.value, v⟩ id env.db with ⟨r, vs', db'⟩
              rw [hu] at this
              simp only at this
              rw [this]
        rcases hte : tree.execute m s.args id s2.env with ⟨r', env'⟩
        rw [hte] at htree hex
        simp only at htree hex
        rcases htree with rfl | ⟨hst, x, hrv, rfl⟩
        · rw [andThen_of_ok hex]
          simp only [ha2]
          obtain ⟨text', ht, hd⟩ := displays_of_display s.args hv v
          rw [ht]
          refine ⟨fun text h => .inr ⟨_, _, v, hin, hval, ?_⟩, fun f h => by cases h⟩
          cases h
          exact hd
        · rw [andThen_of_err hex]
          refine ⟨fun text h => (by cases h), fun f h => ?_⟩
          simp only [Outcome.err.injEq] at h
          rw [hrv] at hin
          exact ⟨_, _, h.symm, .inr (.inr ⟨hst, rfl, x, _, v, hin, hval, rfl⟩)⟩
      | err f0 =>
        obtain ⟨t, p, hf, hr⟩ := execute_refused m s.args h2 ρ tree.root s2.env env f0 hq2 hρ2 hx
        have hte : tree.execute m s.args id s2.env = (.err f0, env) := by
          unfold SyntaxTree.execute
          exact andThen_of_err hx
        rw [hte] at hex
        rw [andThen_of_err hex]
        refine ⟨fun text h => (by cases h), fun f h => ?_⟩
        simp only [Outcome.err.injEq] at h
        rw [tolerance_asked hp] at hr
        unfold Session.env at hr
        rw [hv2] at hr
        exact ⟨t, p, by rw [← h, hf], .inr (.inl ⟨_, _, hin, hr⟩)⟩
      | panic k =>
        have hte : tree.execute m s.args id s2.env = (.panic k, env) := by
          unfold SyntaxTree.execute
          exact andThen_of_panic hx
        rw [hte] at hex
        rw [andThen_of_panic hex]
        exact ⟨fun text h => (by cases h), fun f h => (by cases h)⟩
      | diverge =>
        have hte : tree.execute m s.args id s2.env = (.diverge, env) := by
          unfold SyntaxTree.execute St.andThen
          rw [hx]
        rw [hte] at hex
        unfold St.andThen
        rw [hex]
        exact ⟨fun text h => (by cases h), fun f h => (by cases h)⟩

end Bcalc
