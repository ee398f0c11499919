import Verif.Proof.Pure
import Verif.Proof.Private
import Verif.Spec.Calculator

/-! # Evaluation as a relation, and the variables it looks up -/

namespace Bcalc
open Spec

/-- The value that evaluation computes. -/
def pureVal (m : Machine) (args : Args) (ρ : Valuation) (n : Node) (v : Rat) : Prop := n.pure m args true ρ = .ok v

theorem pureList_forall₂ {m : Machine} {args : Args} {ρ : Valuation} : ∀ {ns : List Node} {vs : List Rat},
    pureList m args true ρ ns = .ok vs ↔ List.Forall₂ (pureVal m args ρ) ns vs
  | [], vs => by
    unfold pureList
    simp only [Outcome.ok.injEq, List.forall₂_nil_left_iff]
    exact eq_comm
  | n :: ns, vs => by
    unfold pureList
    constructor
    · intro h
      obtain ⟨v, h1, h⟩ := outcome_bind_ok h
      obtain ⟨ws, h2, h⟩ := outcome_bind_ok h
      cases h
      exact .cons h1 (pureList_forall₂.1 h2)
    · intro h
      cases h with
      | cons h1 h2 =>
        unfold pureVal at h1
        rw [h1, pureList_forall₂.2 h2]
        rfl

mutual
theorem pure_value (m : Machine) (args : Args) (h2 : 2 ≤ args.radix) (ρ : Valuation) :
    ∀ (n : Node) {v : Rat}, n.pure m args true ρ = .ok v → Value (usedTolerance args) ρ n v
  | .number w p, v, h => by
    unfold Node.pure at h
    cases h; exact .number
  | .variable x p, v, h => by
    unfold Node.pure pureVariable at h
    cases hx : ρ x with
    | none => rw [hx] at h; cases h
    | some q => rw [hx] at h; cases h; exact .variable hx
  | .paren p q n, v, h => by
    unfold Node.pure at h
    exact .paren (pure_value m args h2 ρ n h)
  | .unary o p n, v, h => by
    unfold Node.pure at h
    obtain ⟨a, h1, h3⟩ := outcome_bind_ok h
    have ih := pure_value m args h2 ρ n h1
    cases o with
    | squareRoot => exact .sqrt ih (power_ok h2 h3)
    | negate => simp [applyUnary] at h3; rw [← h3]; exact .negate ih
    | absoluteValue => simp [applyUnary] at h3; rw [← h3]; exact .abs ih
  | .binary o p n n', v, h => by
    unfold Node.pure at h
    obtain ⟨a, h1, h⟩ := outcome_bind_ok h
    obtain ⟨b, h4, h3⟩ := outcome_bind_ok h
    have ih := pure_value m args h2 ρ n h1
    have ih' := pure_value m args h2 ρ n' h4
    cases o with
    | add => simp [applyBinary] at h3; rw [← h3]; exact .add ih ih'
    | subtract => simp [applyBinary] at h3; rw [← h3]; exact .subtract ih ih'
    | multiply => simp [applyBinary] at h3; rw [← h3]; exact .multiply ih ih'
    | divide =>
      simp only [applyBinary] at h3
      split at h3
      · cases h3
      · rename_i hb
        have hb' : b ≠ 0 := by intro h0; exact hb (by rw [h0]; rfl)
        simp [ratDiv, hb'] at h3
        rw [← h3]; exact .divide ih ih' hb'
    | modulus =>
      simp only [applyBinary] at h3
      by_cases hb : b = 0
      · subst hb; rw [ratRem_zero] at h3; cases h3
      · obtain ⟨w, hw, hrem⟩ := ratRem_spec (ε := Failure) a b hb
        rw [hw] at h3
        simp at h3
        rw [← h3]
        exact .modulus ih ih' hb hrem
    | exponent => exact .power ih ih' (power_ok h2 h3)
  | .function f p ns q, v, h => by
    unfold Node.pure at h
    obtain ⟨vs, h1, h3⟩ := outcome_bind_ok h
    have ih := pureList_value m args h2 ρ ns h1
    unfold applyFunction at h3
    cases vs with
    | nil => simp at h3
    | cons a vs =>
      cases f with
      | max =>
        simp at h3; rw [← h3]
        exact .max ih (foldl_max_spec vs a).1 (foldl_max_spec vs a).2
      | min =>
        simp at h3; rw [← h3]
        exact .min ih (foldl_min_spec vs a).1 (foldl_min_spec vs a).2
theorem pureList_value (m : Machine) (args : Args) (h2 : 2 ≤ args.radix) (ρ : Valuation) :
    ∀ (ns : List Node) {vs : List Rat}, pureList m args true ρ ns = .ok vs → Values (usedTolerance args) ρ ns vs
  | [], vs, h => by
    unfold pureList at h
    cases h; exact .nil
  | n :: ns, vs, h => by
    unfold pureList at h
    obtain ⟨v, h1, h⟩ := outcome_bind_ok h
    obtain ⟨ws, h3, h⟩ := outcome_bind_ok h
    cases h
    exact .cons (pure_value m args h2 ρ n h1) (pureList_value m args h2 ρ ns h3)
end

mutual
theorem pure_refused (m : Machine) (args : Args) (h2 : 2 ≤ args.radix) (ρ : Valuation) :
    ∀ (n : Node) (f : Failure), n.pure m args true ρ = .err f →
      ∃ t p, f = .input t (some p) ∧ Refused true ρ (pureVal m args ρ) n t p
  | .number v p, f, h => by unfold Node.pure at h; cases h
  | .variable x p, f, h => by
    unfold Node.pure pureVariable at h
    cases hx : ρ x with
    | none => rw [hx] at h; cases h; exact ⟨_, _, rfl, .variable hx⟩
    | some q => rw [hx] at h; cases h
  | .paren p q n, f, h => by
    unfold Node.pure at h
    obtain ⟨t, r, hf, hr⟩ := pure_refused m args h2 ρ n f h
    exact ⟨t, r, hf, .paren hr⟩
  | .unary o p n, f, h => by
    unfold Node.pure at h
    rcases outcome_bind_err h with h | ⟨a, h1, h⟩
    · obtain ⟨t, r, hf, hr⟩ := pure_refused m args h2 ρ n f h
      exact ⟨t, r, hf, .operand hr⟩
    · unfold applyUnary at h
      cases o with
      | squareRoot =>
        obtain ⟨h3, h4, _⟩ := power_err h2 h
        exact ⟨_, _, h3, .sqrt h1 h4⟩
      | negate => cases h
      | absoluteValue => cases h
  | .binary o p n n', f, h => by
    unfold Node.pure at h
    rcases outcome_bind_err h with h | ⟨a, h1, h⟩
    · obtain ⟨t, r, hf, hr⟩ := pure_refused m args h2 ρ n f h
      exact ⟨t, r, hf, .left hr⟩
    · rcases outcome_bind_err h with h | ⟨b, h3, h⟩
      · obtain ⟨t, r, hf, hr⟩ := pure_refused m args h2 ρ n' f h
        exact ⟨t, r, hf, .right h1 hr⟩
      · unfold applyBinary at h
        cases o with
        | add => cases h
        | subtract => cases h
        | multiply => cases h
        | divide =>
          simp only at h
          split at h
          · rename_i hb
            have hf := (Outcome.err.inj h).symm
            have : b = 0 := Rat.num_eq_zero.1 hb
            subst this
            exact ⟨_, _, hf, .divide h1 h3⟩
          · unfold ratDiv at h; split at h <;> cases h
        | modulus =>
          simp only at h
          unfold ratRem at h
          split at h
          · cases h
          · split at h <;> cases h
        | exponent =>
          obtain ⟨h4, h5, h6⟩ := power_err h2 h
          exact ⟨_, _, h4, .power h1 h3 h5 h6⟩
  | .function g p ns q, f, h => by
    unfold Node.pure at h
    rcases outcome_bind_err h with h | ⟨vs, h1, h⟩
    · obtain ⟨t, r, hf, pre, n, post, vs, rfl, hvs, hr⟩ := pureList_refused m args h2 ρ ns f h
      exact ⟨t, r, hf, .argument hvs hr⟩
    · unfold applyFunction at h
      cases vs with
      | nil =>
        have := pureList_forall₂.1 h1
        cases this
        refine ⟨_, _, (Outcome.err.inj h).symm.trans ?_, .noArguments⟩
        cases g <;> rfl
      | cons a vs => cases g <;> simp at h
theorem pureList_refused (m : Machine) (args : Args) (h2 : 2 ≤ args.radix) (ρ : Valuation) :
    ∀ (ns : List Node) (f : Failure), pureList m args true ρ ns = .err f →
      ∃ t p, f = .input t (some p) ∧ ∃ pre n post vs, ns = pre ++ n :: post ∧
        List.Forall₂ (pureVal m args ρ) pre vs ∧ Refused true ρ (pureVal m args ρ) n t p
  | [], f, h => by unfold pureList at h; cases h
  | n :: ns, f, h => by
    unfold pureList at h
    rcases outcome_bind_err h with h | ⟨a, h1, h⟩
    · obtain ⟨t, r, hf, hr⟩ := pure_refused m args h2 ρ n f h
      exact ⟨t, r, hf, [], n, ns, [], rfl, .nil, hr⟩
    · rcases outcome_bind_err h with h | ⟨b, h3, h⟩
      · obtain ⟨t, r, hf, pre, k, post, vs, rfl, hvs, hr⟩ := pureList_refused m args h2 ρ ns f h
        exact ⟨t, r, hf, n :: pre, k, post, a :: vs, rfl, .cons h1 hvs, hr⟩
      · cases h
end

theorem bind_of_err {ε α β : Type} {o : Outcome ε α} {f : α → Outcome ε β} {e : ε} (h : o = .err e) : (o >>= f) = .err e := by
  rw [h]; rfl

theorem pureList_append_err {m : Machine} {args : Args} {ρ : Valuation} {n : Node} {ns' : List Node} {f : Failure}
    (h : n.pure m args true ρ = .err f) : ∀ {ns : List Node} {vs : List Rat}, List.Forall₂ (pureVal m args ρ) ns vs →
      pureList m args true ρ (ns ++ n :: ns') = .err f
  | [], _, _ => by
    show pureList m args true ρ (n :: ns') = _
    unfold pureList; exact bind_of_err h
  | k :: ns, _, .cons h1 h2 => by
    show pureList m args true ρ (k :: (ns ++ n :: ns')) = _
    unfold pureList pureVal at *
    rw [h1, pureList_append_err h h2]
    rfl

/-- What is refused fails, and in these words. -/
theorem pure_refuses (m : Machine) (args : Args) (h2 : 2 ≤ args.radix)
    (hp : args.precision + args.extraPrecision ≤ 254) {ρ : Valuation} {n : Node} {t : Str}
    {p : Position} (h : Refused true ρ (pureVal m args ρ) n t p) : n.pure m args true ρ = .err (.input t (some p)) := by
  induction h with
  | «variable» h => unfold Node.pure pureVariable; rw [h]
  | paren _ ih => unfold Node.pure; exact ih
  | operand _ ih => unfold Node.pure; exact bind_of_err ih
  | left _ ih => unfold Node.pure; exact bind_of_err ih
  | right hv _ ih => unfold Node.pure; unfold pureVal at hv; rw [hv]; simp only [Outcome.bind_ok]; exact bind_of_err ih
  | divide hv hv' => unfold Node.pure; unfold pureVal at hv hv'; rw [hv, hv']; rfl
  | @power p n n' a b hv hv' ha hb =>
    unfold Node.pure; unfold pureVal at hv hv'; rw [hv, hv']
    have := C23_even_root_of_negative m args h2 (fun _ => hp) p (.number a p) (.number b p) ⟨none, none⟩ _ _ a b rfl rfl ha hb
    unfold Node.execute at this
    rw [andThen_of_ok (number_execute m args _ p _), andThen_of_ok (number_execute m args _ p _)] at this
    exact (Prod.mk.inj this).1
  | @sqrt p n a hv ha =>
    unfold Node.pure; unfold pureVal at hv; rw [hv]
    have := C23_sqrt_of_negative m args h2 (fun _ => hp) p (.number a p) ⟨none, none⟩ _ a rfl ha
    unfold Node.execute at this
    rw [andThen_of_ok (number_execute m args _ p _)] at this
    exact (Prod.mk.inj this).1
  | argument hv _ ih => unfold Node.pure; exact bind_of_err (pureList_append_err ih hv)
  | @noArguments f _ _ => unfold Node.pure pureList; cases f <;> rfl

theorem usedTolerance_asked {args : Args} (hp : args.precision + args.extraPrecision ≤ 254) :
    usedTolerance args = askedTolerance args := by
  unfold usedTolerance askedTolerance tolerance
  rw [Nat.mod_eq_of_lt (by omega)]

/-- The program's way to evaluate expressions. -/
def evaluator (m : Machine) : Evaluator where
  val := pureVal m
  one := by
    intro args ρ n v v' h h'
    unfold pureVal at h h'
    rw [h] at h'
    exact Outcome.ok.inj h'
  right := by
    intro args ρ n v hv hp h
    rw [← usedTolerance_asked hp]
    exact pure_value m args hv.radix.1 ρ n h
  accepted := by
    intro args ρ n v t p hv hp h hr
    have := pure_refuses m args hv.radix.1 hp hr
    unfold pureVal at h
    rw [h] at this
    cases this

/-! ## Looking up variables -/

theorem execVariable_looked {ρ : Valuation} (y : Str) (p : Position) {env : Env} (hq : EnvQuiet env) (hρ : SeenIn env ρ)
    (hs : env.vars.isSome = true) (x : Str) :
    sessionValues (execVariable y p env).2 x = if x = y then ρ x else sessionValues env x := by
  obtain ⟨vars, db⟩ := env
  obtain ⟨vs, rfl⟩ := Option.isSome_iff_exists.1 hs
  unfold execVariable
  simp only
  cases hl : vs.lookup y with
  | some v =>
    have : vs.get y db = (.ok (some ⟨y, v⟩), vs, db) := by unfold VariableStore.get; rw [hl]
    rw [this]
    simp only
    split
    · rename_i hx; subst hx
      rw [(hρ x v).2 (.inl hl)]
      exact hl
    · rfl
  | none =>
    have hnone : (∀ q, ¬ EnvSees ⟨some vs, db⟩ y q) → ρ y = none := by
      intro h
      cases hy : ρ y with
      | none => rfl
      | some q => exact absurd ((hρ y q).1 hy) (h q)
    cases db with
    | none =>
      have : vs.get y none = (.ok none, vs, none) := by unfold VariableStore.get; rw [hl]
      rw [this]
      simp only
      split
      · rename_i hx; subst hx
        rw [hnone]
        · exact hl
        · rintro q (h | ⟨_, _, _, h, _⟩)
          · simp only [sessionValues] at h; rw [hl] at h; cases h
          · cases h
      · rfl
    | some sd =>
      obtain ⟨he, hr⟩ := hq sd rfl
      rcases reload_quiet he hr vs y with ⟨q, sd', hst, hdb, henv, hrel⟩ | ⟨sd', hst, hdb, henv, hrel⟩
      · have : vs.get y (some sd) = (.ok (some ⟨y, q⟩), vs.insert y q, some sd') := by
          unfold VariableStore.get; rw [hl]; simp only; rw [hrel]
        rw [this]
        simp only
        show (vs.insert y q).lookup x = _
        rw [lookup_insert]
        split
        · rename_i hx; subst hx
          exact ((hρ x q).2 (.inr ⟨hl, rfl, sd, rfl, hst⟩)).symm
        · rfl
      · have : vs.get y (some sd) = (.ok none, vs, some sd') := by
          unfold VariableStore.get; rw [hl]; simp only; rw [hrel]
        rw [this]
        simp only
        split
        · rename_i hx; subst hx
          rw [hnone]
          · exact hl
          · rintro q (h | ⟨_, _, sd1, h, h'⟩)
            · simp only [sessionValues] at h; rw [hl] at h; cases h
            · cases h; exact hst q h'
        · rfl

/-- Among the arguments, as far as they have values, the variable is looked up. -/
def LookedList (V : Node → Rat → Prop) (ns : List Node) (x : Str) : Prop :=
  ∃ pre n post vs, ns = pre ++ n :: post ∧ List.Forall₂ V pre vs ∧ Looked V n x

/-- The variables that have been looked up have got their values, the others are as they were. -/
def Remembers (ρ : Valuation) (looked : Str → Prop) (env env' : Env) : Prop :=
  ∀ x, (looked x → sessionValues env' x = ρ x) ∧ (¬ looked x → sessionValues env' x = sessionValues env x)

theorem Remembers.both {ρ : Valuation} {P Q R : Str → Prop} {env env1 env2 : Env} (h : Remembers ρ P env env1)
    (h' : Remembers ρ Q env1 env2) (hR : ∀ x, R x ↔ P x ∨ Q x) : Remembers ρ R env env2 := by
  intro x
  rw [hR x]
  constructor
  · intro hx
    by_cases hq : Q x
    · exact (h' x).1 hq
    · rw [(h' x).2 hq]
      exact (h x).1 (hx.resolve_right hq)
  · intro hx
    rw [not_or] at hx
    rw [(h' x).2 hx.2, (h x).2 hx.1]

theorem Remembers.same {ρ : Valuation} {P R : Str → Prop} {env env1 : Env} (h : Remembers ρ P env env1)
    (hR : ∀ x, R x ↔ P x) : Remembers ρ R env env1 := fun x => by rw [hR x]; exact h x

theorem andThen_state {α β : Type} {t : Exec α} {f : α → Exec β} {env : Env} :
    (t.andThen f env).2 = match t env with
      | (.ok a, env1) => (f a env1).2
      | (_, env1) => env1 := by
  unfold St.andThen
  rcases t env with ⟨r | _ | _ | _, env1⟩ <;> rfl

mutual
theorem execute_looked (m : Machine) (args : Args) (ρ : Valuation) : ∀ (n : Node) {env : Env}, EnvQuiet env → SeenIn env ρ →
    env.vars.isSome = true → Remembers ρ (Looked (pureVal m args ρ) n) env (n.execute m args env).2
  | .number v p, env, hq, hρ, hs => by
    intro x
    exact ⟨(fun h => by cases h), fun _ => rfl⟩
  | .variable y p, env, hq, hρ, hs => by
    intro x
    unfold Node.execute
    rw [execVariable_looked y p hq hρ hs x]
    constructor
    · intro h; cases h; rw [if_pos rfl]
    · intro h; rw [if_neg]; rintro rfl; exact h .variable
  | .paren p q n, env, hq, hρ, hs => by
    unfold Node.execute
    exact (execute_looked m args ρ n hq hρ hs).same fun x =>
      ⟨(fun h => by cases h; assumption), .paren⟩
  | .unary o p n, env, hq, hρ, hs => by
    unfold Node.execute
    have ih := execute_looked m args ρ n hq hρ hs
    rw [andThen_state]
    have : Remembers ρ (Looked (pureVal m args ρ) (.unary o p n)) env (n.execute m args env).2 := ih.same fun x =>
      ⟨(fun h => by cases h; assumption), .operand⟩
    rcases h : n.execute m args env with ⟨r | _ | _ | _, env1⟩ <;> rw [h] at this <;> exact this
  | .binary o p n n', env, hq, hρ, hs => by
    unfold Node.execute
    have ih := execute_looked m args ρ n hq hρ hs
    have hp := execute_pure m args ρ n env hq hρ
    rw [hs] at hp
    have hsi := execute_sight m args n env
    rw [andThen_state]
    have fail : (∀ a, n.pure m args true ρ ≠ .ok a) →
        ∀ x, Looked (pureVal m args ρ) (.binary o p n n') x ↔ Looked (pureVal m args ρ) n x := by
      intro hno x
      constructor
      · intro h
        cases h with
        | left h => exact h
        | right hv _ => exact absurd hv (hno _)
      · exact .left
    rcases h : n.execute m args env with ⟨r, env1⟩
    rw [h] at ih hp hsi
    obtain ⟨hq1, hs1, _⟩ := hsi hq
    cases r with
    | ok a =>
      simp only at hp ⊢
      have hρ1 : SeenIn env1 ρ := hρ.next hq hsi
      have ih' := execute_looked m args ρ n' hq1 hρ1 (hs1.trans hs)
      have hst : ((n'.execute m args).andThen (fun b => St.lift (applyBinary m args o p a b)) env1).2 = (n'.execute m args env1).2 := by
        rw [andThen_state]
        rcases h : n'.execute m args env1 with ⟨r | _ | _ | _, env2⟩ <;> rfl
      rw [hst]
      exact ih.both ih' fun x =>
        ⟨fun h => by
          cases h with
          | left h => exact .inl h
          | right _ h => exact .inr h, fun h => h.elim .left (.right hp.symm)⟩
    | err e => exact ih.same (fail (by intro a ha; rw [ha] at hp; cases hp))
    | panic k => exact ih.same (fail (by intro a ha; rw [ha] at hp; cases hp))
    | diverge => exact ih.same (fail (by intro a ha; rw [ha] at hp; cases hp))
  | .function f p ns q, env, hq, hρ, hs => by
    unfold Node.execute
    have ih := executeList_looked m args ρ ns hq hρ hs
    rw [andThen_state]
    have : Remembers ρ (Looked (pureVal m args ρ) (.function f p ns q)) env (executeList m args ns env).2 := ih.same fun x =>
      ⟨fun h => by
        cases h with
        | argument h1 h2 => exact ⟨_, _, _, _, rfl, h1, h2⟩, by
        rintro ⟨_, _, _, _, rfl, h1, h2⟩
        exact .argument h1 h2⟩
    rcases h : executeList m args ns env with ⟨r | _ | _ | _, env1⟩ <;> rw [h] at this <;> exact this
theorem executeList_looked (m : Machine) (args : Args) (ρ : Valuation) : ∀ (ns : List Node) {env : Env}, EnvQuiet env →
    SeenIn env ρ → env.vars.isSome = true →
    Remembers ρ (LookedList (pureVal m args ρ) ns) env (executeList m args ns env).2
  | [], env, hq, hρ, hs => by
    intro x
    refine ⟨?_, fun _ => rfl⟩
    rintro ⟨pre, n, post, _, h, _⟩
    cases pre <;> cases h
  | n :: ns, env, hq, hρ, hs => by
    unfold executeList
    have ih := execute_looked m args ρ n hq hρ hs
    have hp := execute_pure m args ρ n env hq hρ
    rw [hs] at hp
    have hsi := execute_sight m args n env
    rw [andThen_state]
    have split : ∀ x, LookedList (pureVal m args ρ) (n :: ns) x ↔ Looked (pureVal m args ρ) n x ∨
        ((∃ a, pureVal m args ρ n a) ∧ LookedList (pureVal m args ρ) ns x) := by
      intro x
      constructor
      · rintro ⟨pre, k, post, vs, h, hv, hk⟩
        cases pre with
        | nil => cases h; exact .inl hk
        | cons n' pre =>
          simp only [List.cons_append, List.cons.injEq] at h
          obtain ⟨rfl, rfl⟩ := h
          cases hv with
          | cons h1 h2 => exact .inr ⟨⟨_, h1⟩, pre, k, post, _, rfl, h2, hk⟩
      · rintro (h | ⟨⟨a, ha⟩, pre, k, post, vs, rfl, hv, hk⟩)
        · exact ⟨[], n, ns, [], rfl, .nil, h⟩
        · exact ⟨n :: pre, k, post, a :: vs, rfl, .cons ha hv, hk⟩
    have fail : (∀ a, n.pure m args true ρ ≠ .ok a) →
        ∀ x, LookedList (pureVal m args ρ) (n :: ns) x ↔ Looked (pureVal m args ρ) n x := by
      intro hno x
      rw [split x]
      constructor
      · rintro (h | ⟨⟨a, ha⟩, _⟩)
        · exact h
        · exact absurd ha (hno a)
      · exact .inl
    rcases h : n.execute m args env with ⟨r, env1⟩
    rw [h] at ih hp hsi
    obtain ⟨hq1, hs1, _⟩ := hsi hq
    cases r with
    | ok a =>
      simp only at hp ⊢
      have hρ1 : SeenIn env1 ρ := hρ.next hq hsi
      have ih' := executeList_looked m args ρ ns hq1 hρ1 (hs1.trans hs)
      have hst : ((executeList m args ns).andThen (fun vs => St.lift (.ok (a :: vs))) env1).2 = (executeList m args ns env1).2 := by
        rw [andThen_state]
        rcases h : executeList m args ns env1 with ⟨r | _ | _ | _, env2⟩ <;> rfl
      rw [hst]
      exact ih.both ih' fun x => by
        rw [split x]
        have : ∃ a, pureVal m args ρ n a := ⟨a, hp.symm⟩
        simp only [this, true_and]
    | err e => exact ih.same (fail (by intro a ha; rw [ha] at hp; cases hp))
    | panic k => exact ih.same (fail (by intro a ha; rw [ha] at hp; cases hp))
    | diverge => exact ih.same (fail (by intro a ha; rw [ha] at hp; cases hp))
end

end Bcalc
