import Verif.Proof.Power
import Verif.Proof.DbBasic

/-! # Evaluation -/

namespace Bcalc
open Spec

/-! ## Association lists -/

theorem assocGet_remove {α : Type} (k x : Str) (l : List (Str × α)) :
    assocGet x (assocRemove k l) = if x = k then none else assocGet x l := by
  induction l with
  | nil => simp [assocRemove, assocGet]
  | cons kv l ih =>
    obtain ⟨k', v⟩ := kv
    unfold assocRemove at ih ⊢
    rw [List.filter_cons]
    by_cases h : k' = k
    · subst h
      simp only [ne_eq, not_true_eq_false, decide_false, Bool.false_eq_true, if_false]
      rw [ih]
      by_cases hx : x = k'
      · rw [if_pos hx, if_pos hx]
      · rw [if_neg hx, if_neg hx, assocGet, if_neg (Ne.symm hx)]
    · simp only [ne_eq, h, not_false_eq_true, decide_true, if_true]
      rw [assocGet, ih, assocGet]
      by_cases hx : x = k
      · subst hx; simp [h]
      · rw [if_neg hx, if_neg hx]

theorem assocGet_insert {α : Type} (k x : Str) (v : α) (l : List (Str × α)) :
    assocGet x (assocInsert k v l) = if x = k then some v else assocGet x l := by
  unfold assocInsert
  rw [assocGet, assocGet_remove]
  by_cases h : x = k
  · rw [if_pos h.symm, if_pos h]
  · rw [if_neg (Ne.symm h), if_neg h, if_neg h]

theorem lookup_insert (vs : VariableStore) (k x : Str) (v : Rat) :
    (vs.insert k v).lookup x = if x = k then some v else vs.lookup x :=
  assocGet_insert k x v vs.vars

/-! ## Reading variables -/

theorem ratioNew_ne_diverge {ε : Type} (n d : Int) : (ratioNew n d : Outcome ε Rat) ≠ .diverge := by
  unfold ratioNew
  split <;> simp

theorem parseStored_ne_diverge (a b c : Str) : parseStored a b c ≠ .diverge := by
  unfold parseStored parseBigInt
  have : 2 ≤ variableStorageRadix ∧ variableStorageRadix ≤ 36 := by decide
  rw [if_pos this]
  repeat' split
  all_goals
    simp only [Outcome.bind_ok]
    split <;> simp

/-- What may happen when a variable is read. -/
theorem get_cases (vs : VariableStore) (x : Str) (db : Option SavedData) :
    (∃ v, vs.lookup x = some v ∧ vs.get x db = (.ok (some ⟨x, v⟩), vs, db)) ∨
    (vs.lookup x = none ∧ db = none ∧ vs.get x db = (.ok none, vs, none)) ∨
    (∃ sd, vs.lookup x = none ∧ db = some sd ∧
      ((∃ v, (sd.getVariable x).1 = .ok (some ⟨x, v⟩) ∧
          vs.get x db = (.ok (some ⟨x, v⟩), vs.insert x v, some (sd.getVariable x).2)) ∨
       ((sd.getVariable x).1 = .ok none ∧
          vs.get x db = (.ok none, vs, some (sd.getVariable x).2)) ∨
       (∃ e, (sd.getVariable x).1 = .err e ∧
          vs.get x db = (.err (.db e), vs, some (sd.getVariable x).2)) ∨
       (∃ k, (sd.getVariable x).1 = .panic k ∧
          vs.get x db = (.panic k, vs, some (sd.getVariable x).2)))) := by
  unfold VariableStore.get
  cases hl : vs.lookup x with
  | some v => exact .inl ⟨v, rfl, rfl⟩
  | none =>
    cases db with
    | none => exact .inr (.inl ⟨rfl, rfl, rfl⟩)
    | some sd =>
      refine .inr (.inr ⟨sd, rfl, rfl, ?_⟩)
      simp only [VariableStore.reload]
      have hname : ∀ var, (sd.getVariable x).1 = .ok (some var) → var.name = x := by
        intro var h
        unfold SavedData.getVariable at h
        rcases run_cases sd (getVariableTx x) with ⟨_, hr⟩ | ⟨_, hr⟩
        · rw [hr] at h; cases h
        · rw [hr] at h
          unfold getVariableTx at h
          cases hf : sd.seen.vars.find? (fun v => v.name == x) with
          | none => rw [hf] at h; simp at h
          | some row =>
            rw [hf] at h
            simp only at h
            cases h1 : parseStored "numerator".toList x row.numer with
            | ok n =>
              rw [h1] at h; simp only [Outcome.bind_ok] at h
              cases h2 : parseStored "denominator".toList x row.denom with
              | ok d =>
                rw [h2] at h; simp only [Outcome.bind_ok] at h
                cases h3 : (ratioNew n d : Outcome DbError Rat) with
                | ok q => rw [h3] at h; simp at h; rw [← h]
                | _ => rw [h3] at h; simp at h
              | _ => rw [h2] at h; simp at h
            | _ => rw [h1] at h; simp at h
      have hnd : (sd.getVariable x).1 ≠ .diverge := by
        intro h
        unfold SavedData.getVariable at h
        rcases run_cases sd (getVariableTx x) with ⟨_, hr⟩ | ⟨_, hr⟩
        · rw [hr] at h; cases h
        · rw [hr] at h
          unfold getVariableTx at h
          cases hf : sd.seen.vars.find? (fun v => v.name == x) with
          | none => rw [hf] at h; simp at h
          | some row =>
            rw [hf] at h
            simp only at h
            cases h1 : parseStored "numerator".toList x row.numer with
            | ok n =>
              rw [h1] at h; simp only [Outcome.bind_ok] at h
              cases h2 : parseStored "denominator".toList x row.denom with
              | ok d =>
                rw [h2] at h; simp only [Outcome.bind_ok] at h
                cases h3 : (ratioNew n d : Outcome DbError Rat) with
                | diverge => exact ratioNew_ne_diverge _ _ h3
                | _ => rw [h3] at h; simp at h
              | diverge => exact parseStored_ne_diverge _ _ _ h2
              | _ => rw [h2] at h; simp at h
            | diverge => exact parseStored_ne_diverge _ _ _ h1
            | _ => rw [h1] at h; simp at h
      rcases hg : sd.getVariable x with ⟨o, sd'⟩
      rw [hg] at hname hnd
      cases o with
      | ok r =>
        cases r with
        | none => exact .inr (.inl ⟨rfl, rfl⟩)
        | some var =>
          left
          have := hname var rfl
          obtain ⟨n, v⟩ := var
          simp only at this
          subst this
          exact ⟨v, rfl, rfl⟩
      | err e => exact .inr (.inr (.inl ⟨e, rfl, rfl⟩))
      | panic k => exact .inr (.inr (.inr ⟨k, rfl, rfl⟩))
      | diverge => exact absurd rfl hnd

/-- The stored variables of the session's database can be decoded. -/
def EnvOk (env : Env) : Prop := ∀ sd, env.db = some sd → VarsOk sd.db

theorem getVariable_varsOk {sd : SavedData} (x : Str) (h : VarsOk sd.db) :
    VarsOk (sd.getVariable x).2.db :=
  run_db (fun op _ => varsOk_apply op) (readOnly_getVariable x).keeps h

theorem getVariable_no_panic {sd : SavedData} (x : Str) (h : VarsOk sd.db) (k : PanicKind) :
    (sd.getVariable x).1 ≠ .panic k := by
  intro hk
  unfold SavedData.getVariable at hk
  rcases run_cases sd (getVariableTx x) with ⟨_, hr⟩ | ⟨_, hr⟩
  · rw [hr] at hk; cases hk
  · rw [hr] at hk
    have hs : VarsOk sd.seen := foldl_apply (fun op _ => varsOk_apply op) _ h
    rcases getVariableTx_total hs x with ⟨q, hq⟩ | hq <;> rw [hq] at hk <;> cases hk

/-! ## Sequencing -/

theorem andThen_ok {σ α β : Type} {t : St σ α} {f : α → St σ β} {s s' : σ} {b : β}
    (h : t.andThen f s = (.ok b, s')) :
    ∃ a s1, t s = (.ok a, s1) ∧ f a s1 = (.ok b, s') := by
  unfold St.andThen at h
  split at h
  · rename_i a s1 h1; exact ⟨a, s1, h1, h⟩
  all_goals simp at h

theorem andThen_of_ok {σ α β : Type} {t : St σ α} {f : α → St σ β} {s s1 : σ} {a : α}
    (h : t s = (.ok a, s1)) : t.andThen f s = f a s1 := by
  unfold St.andThen
  rw [h]

theorem andThen_of_err {σ α β : Type} {t : St σ α} {f : α → St σ β} {s s1 : σ} {e : Failure}
    (h : t s = (.err e, s1)) : t.andThen f s = (.err e, s1) := by
  unfold St.andThen
  rw [h]

theorem andThen_of_panic {σ α β : Type} {t : St σ α} {f : α → St σ β} {s s1 : σ} {k : PanicKind}
    (h : t s = (.panic k, s1)) : t.andThen f s = (.panic k, s1) := by
  unfold St.andThen
  rw [h]

/-- The relation that a run establishes between the states before and after. -/
def St.Rel {σ α : Type} (R : σ → σ → Prop) (t : St σ α) : Prop := ∀ s, R s (t s).2

theorem St.Rel.andThen {σ α β : Type} {R : σ → σ → Prop} (htr : ∀ a b c, R a b → R b c → R a c)
    {t : St σ α} {f : α → St σ β} (h : t.Rel R) (hf : ∀ a, (f a).Rel R) : (t.andThen f).Rel R := by
  intro s
  have h1 := h s
  unfold St.andThen
  rcases ht : t s with ⟨o, s1⟩
  rw [ht] at h1
  cases o with
  | ok a => exact htr _ _ _ h1 (hf a s1)
  | _ => exact h1

theorem St.Rel.lift {σ α : Type} {R : σ → σ → Prop} (hr : ∀ a, R a a) (o : Outcome Failure α) :
    (St.lift o : St σ α).Rel R := fun s => hr s

mutual
/-- A transitive relation that reading a variable establishes is established by evaluation. -/
theorem execute_rel {R : Env → Env → Prop} (hr : ∀ a, R a a) (htr : ∀ a b c, R a b → R b c → R a c)
    (hv : ∀ x p, (execVariable x p).Rel R) (m : Machine) (args : Args) :
    ∀ n : Node, (n.execute m args).Rel R
  | .number v p => St.Rel.lift hr _
  | .variable x p => hv x p
  | .unary o p n => by
    unfold Node.execute
    exact St.Rel.andThen htr (execute_rel hr htr hv m args n) fun _ => St.Rel.lift hr _
  | .binary o p a b => by
    unfold Node.execute
    exact St.Rel.andThen htr (execute_rel hr htr hv m args a) fun _ =>
      St.Rel.andThen htr (execute_rel hr htr hv m args b) fun _ => St.Rel.lift hr _
  | .function f p ns q => by
    unfold Node.execute
    exact St.Rel.andThen htr (executeList_rel hr htr hv m args ns) fun _ => St.Rel.lift hr _
  | .paren p q n => by
    unfold Node.execute
    exact execute_rel hr htr hv m args n
theorem executeList_rel {R : Env → Env → Prop} (hr : ∀ a, R a a)
    (htr : ∀ a b c, R a b → R b c → R a c)
    (hv : ∀ x p, (execVariable x p).Rel R) (m : Machine) (args : Args) :
    ∀ ns : List Node, (executeList m args ns).Rel R
  | [] => by unfold executeList; exact St.Rel.lift hr _
  | n :: ns => by
    unfold executeList
    exact St.Rel.andThen htr (execute_rel hr htr hv m args n) fun _ =>
      St.Rel.andThen htr (executeList_rel hr htr hv m args ns) fun _ => St.Rel.lift hr _
end

/-- Evaluation keeps the values of the session's variables. -/
def Extends (env env' : Env) : Prop :=
  (env.vars.isSome = env'.vars.isSome) ∧
    ∀ x v, sessionValues env x = some v → sessionValues env' x = some v

theorem Extends.refl (env : Env) : Extends env env := ⟨rfl, fun _ _ h => h⟩

theorem Extends.trans (a b c : Env) (h : Extends a b) (h' : Extends b c) : Extends a c :=
  ⟨h.1.trans h'.1, fun x v hx => h'.2 x v (h.2 x v hx)⟩

theorem execVariable_extends (x : Str) (p : Position) : (execVariable x p).Rel Extends := by
  intro env
  unfold execVariable
  obtain ⟨vars, db⟩ := env
  cases vars with
  | none => exact .refl _
  | some vs =>
    simp only
    rcases get_cases vs x db with ⟨v, hl, hg⟩ | ⟨hl, rfl, hg⟩ | ⟨sd, hl, rfl, h⟩
    · rw [hg]; exact .refl _
    · rw [hg]; exact .refl _
    · rcases h with ⟨v, _, hg⟩ | ⟨_, hg⟩ | ⟨e, _, hg⟩ | ⟨k, _, hg⟩
      · rw [hg]
        refine ⟨rfl, ?_⟩
        intro y w hy
        simp only [sessionValues] at hy ⊢
        rw [lookup_insert]
        by_cases hxy : y = x
        · subst hxy; rw [hl] at hy; cases hy
        · rw [if_neg hxy]; exact hy
      all_goals
        rw [hg]
        exact ⟨rfl, fun _ _ h => h⟩

theorem execute_extends (m : Machine) (args : Args) (n : Node) (env : Env) :
    Extends env (n.execute m args env).2 :=
  execute_rel Extends.refl Extends.trans execVariable_extends m args n env

theorem executeList_extends (m : Machine) (args : Args) (ns : List Node) (env : Env) :
    Extends env (executeList m args ns env).2 :=
  executeList_rel Extends.refl Extends.trans execVariable_extends m args ns env

/-- Evaluation keeps the database decodable. -/
def KeepsOk (env env' : Env) : Prop := EnvOk env → EnvOk env'

theorem execVariable_ok (x : Str) (p : Position) : (execVariable x p).Rel KeepsOk := by
  intro env hok
  unfold execVariable
  obtain ⟨vars, db⟩ := env
  cases vars with
  | none => exact hok
  | some vs =>
    simp only
    rcases get_cases vs x db with ⟨v, hl, hg⟩ | ⟨hl, rfl, hg⟩ | ⟨sd, hl, rfl, h⟩
    · rw [hg]; exact hok
    · rw [hg]; exact hok
    · have := getVariable_varsOk x (hok sd rfl)
      rcases h with ⟨v, _, hg⟩ | ⟨_, hg⟩ | ⟨e, _, hg⟩ | ⟨k, _, hg⟩
      all_goals
        rw [hg]
        intro sd' hsd'
        simp at hsd'
        subst hsd'
        exact this

theorem execute_envOk {m : Machine} {args : Args} {n : Node} {env : Env} (h : EnvOk env) :
    EnvOk (n.execute m args env).2 :=
  execute_rel (R := KeepsOk) (fun _ h => h) (fun _ _ _ h h' hh => h' (h hh)) execVariable_ok
    m args n env h

theorem executeList_envOk {m : Machine} {args : Args} {ns : List Node} {env : Env} (h : EnvOk env) :
    EnvOk (executeList m args ns env).2 :=
  executeList_rel (R := KeepsOk) (fun _ h => h) (fun _ _ _ h h' hh => h' (h hh)) execVariable_ok
    m args ns env h

/-- A variable that has been read has its value in the session. -/
theorem execVariable_value {x : Str} {p : Position} {env env' : Env} {v : Rat}
    (h : execVariable x p env = (.ok v, env')) : sessionValues env' x = some v := by
  unfold execVariable at h
  obtain ⟨vars, db⟩ := env
  cases vars with
  | none => simp at h
  | some vs =>
    simp only at h
    rcases get_cases vs x db with ⟨w, hl, hg⟩ | ⟨hl, rfl, hg⟩ | ⟨sd, hl, rfl, hh⟩
    · rw [hg] at h
      simp at h
      rw [← h.2, ← h.1]
      exact hl
    · rw [hg] at h; simp at h
    · rcases hh with ⟨w, _, hg⟩ | ⟨_, hg⟩ | ⟨e, _, hg⟩ | ⟨k, _, hg⟩
      · rw [hg] at h
        simp at h
        rw [← h.2, ← h.1]
        simp only [sessionValues]
        rw [lookup_insert, if_pos rfl]
      all_goals
        rw [hg] at h; simp at h

/-! ## Values -/

mutual
theorem value_mono {ε : Rat} {ρ ρ' : Valuation} (hρ : ∀ x v, ρ x = some v → ρ' x = some v) :
    ∀ {n v}, Value ε ρ n v → Value ε ρ' n v
  | _, _, .number => .number
  | _, _, .variable h => .variable (hρ _ _ h)
  | _, _, .paren h => .paren (value_mono hρ h)
  | _, _, .negate h => .negate (value_mono hρ h)
  | _, _, .abs h => .abs (value_mono hρ h)
  | _, _, .sqrt h h' => .sqrt (value_mono hρ h) h'
  | _, _, .add h h' => .add (value_mono hρ h) (value_mono hρ h')
  | _, _, .subtract h h' => .subtract (value_mono hρ h) (value_mono hρ h')
  | _, _, .multiply h h' => .multiply (value_mono hρ h) (value_mono hρ h')
  | _, _, .divide h h' h'' => .divide (value_mono hρ h) (value_mono hρ h') h''
  | _, _, .modulus h h' k k' => .modulus (value_mono hρ h) (value_mono hρ h') k k'
  | _, _, .power h h' k => .power (value_mono hρ h) (value_mono hρ h') k
  | _, _, .max h k k' => .max (values_mono hρ h) k k'
  | _, _, .min h k k' => .min (values_mono hρ h) k k'
theorem values_mono {ε : Rat} {ρ ρ' : Valuation} (hρ : ∀ x v, ρ x = some v → ρ' x = some v) :
    ∀ {ns vs}, Values ε ρ ns vs → Values ε ρ' ns vs
  | _, _, .nil => .nil
  | _, _, .cons h h' => .cons (value_mono hρ h) (values_mono hρ h')
end

/-- The tolerance used by a build with the settings. -/
def usedTolerance (args : Args) : Rat :=
  tolerance args.radix ((args.precision + args.extraPrecision + 1) % 256)

theorem u8Add_ok {ε : Type} {m : Machine} {a b c : Nat} (h : (u8Add m a b : Outcome ε Nat) = .ok c) :
    c = (a + b) % 256 := by
  unfold u8Add at h
  split at h
  · rename_i hlt; simp at h; rw [Nat.mod_eq_of_lt hlt]; exact h.symm
  · split at h <;> simp at h
    exact h.symm

theorem power_ok {m : Machine} {args : Args} {p : Position} {a b v : Rat} (h2 : 2 ≤ args.radix)
    (h : (u8Add m args.precision args.extraPrecision >>= fun totalPrecision =>
      liftMath p (exponentiate m a b totalPrecision args.radix)) = .ok v) :
    PowerValue (usedTolerance args) a b v := by
  cases hu : (u8Add m args.precision args.extraPrecision : Outcome Failure Nat) with
  | ok c =>
    rw [hu] at h
    simp only [Outcome.bind_ok] at h
    have hc := u8Add_ok hu
    cases hx : exponentiate m a b c args.radix with
    | ok w =>
      rw [hx] at h
      simp [liftMath, Outcome.mapErr] at h
      subst h
      have := exponentiate_ok h2 hx
      unfold usedTolerance
      rw [hc] at this
      rwa [Nat.mod_add_mod] at this
    | _ => rw [hx] at h; simp [liftMath, Outcome.mapErr] at h
  | _ => rw [hu] at h; simp at h

theorem foldl_max_spec (l : List Rat) : ∀ a, l.foldl max a ∈ a :: l ∧
    ∀ w ∈ a :: l, w ≤ l.foldl max a := by
  induction l with
  | nil => intro a; simp
  | cons b l ih =>
    intro a
    obtain ⟨h1, h2⟩ := ih (max a b)
    rw [List.foldl_cons]
    constructor
    · rcases List.mem_cons.1 h1 with h | h
      · rw [h]
        rcases max_choice a b with h' | h' <;> rw [h'] <;> simp
      · simp [h]
    · intro w hw
      have hm := h2 (max a b) (by simp)
      rcases List.mem_cons.1 hw with rfl | hw
      · exact (le_max_left _ _).trans hm
      · rcases List.mem_cons.1 hw with rfl | hw
        · exact (le_max_right _ _).trans hm
        · exact h2 w (by simp [hw])

theorem foldl_min_spec (l : List Rat) : ∀ a, l.foldl min a ∈ a :: l ∧
    ∀ w ∈ a :: l, l.foldl min a ≤ w := by
  induction l with
  | nil => intro a; simp
  | cons b l ih =>
    intro a
    obtain ⟨h1, h2⟩ := ih (min a b)
    rw [List.foldl_cons]
    constructor
    · rcases List.mem_cons.1 h1 with h | h
      · rw [h]
        rcases min_choice a b with h' | h' <;> rw [h'] <;> simp
      · simp [h]
    · intro w hw
      have hm := h2 (min a b) (by simp)
      rcases List.mem_cons.1 hw with rfl | hw
      · exact hm.trans (min_le_left _ _)
      · rcases List.mem_cons.1 hw with rfl | hw
        · exact hm.trans (min_le_right _ _)
        · exact h2 w (by simp [hw])

mutual
/-- What evaluation returns is the value of the expression, under the values the variables have in
the session afterwards. -/
theorem execute_value (m : Machine) (args : Args) (h2 : 2 ≤ args.radix) :
    ∀ (n : Node) {env env' : Env} {v : Rat}, n.execute m args env = (.ok v, env') →
      Value (usedTolerance args) (sessionValues env') n v
  | .number w p, env, env', v, h => by
    simp [Node.execute, St.lift] at h
    rw [← h.1]; exact .number
  | .variable x p, env, env', v, h => by
    unfold Node.execute at h
    exact .variable (execVariable_value h)
  | .paren p q n, env, env', v, h => by
    unfold Node.execute at h
    exact .paren (execute_value m args h2 n h)
  | .unary o p n, env, env', v, h => by
    unfold Node.execute at h
    obtain ⟨a, env1, h1, h3⟩ := andThen_ok h
    have ih := execute_value m args h2 n h1
    simp only [St.lift, Prod.mk.injEq] at h3
    obtain ⟨h3, rfl⟩ := h3
    cases o with
    | squareRoot => exact .sqrt ih (power_ok h2 h3)
    | negate => simp [applyUnary] at h3; rw [← h3]; exact .negate ih
    | absoluteValue => simp [applyUnary] at h3; rw [← h3]; exact .abs ih
  | .binary o p n n', env, env', v, h => by
    unfold Node.execute at h
    obtain ⟨a, env1, h1, h⟩ := andThen_ok h
    obtain ⟨b, env2, h4, h3⟩ := andThen_ok h
    have ih' := execute_value m args h2 n' h4
    have hext := execute_extends m args n' env1
    rw [h4] at hext
    have ih := value_mono hext.2 (execute_value m args h2 n h1)
    simp only [St.lift, Prod.mk.injEq] at h3
    obtain ⟨h3, rfl⟩ := h3
    cases o with
    | add => simp [applyBinary] at h3; rw [← h3]; exact .add ih ih'
    | subtract => simp [applyBinary] at h3; rw [← h3]; exact .subtract ih ih'
    | multiply => simp [applyBinary] at h3; rw [← h3]; exact .multiply ih ih'
    | divide =>
      simp only [applyBinary] at h3
      split at h3
      · cases h3
      · rename_i hb
        have hb' : b ≠ 0 := by intro h0; exact hb (by rw [h0]; rfl)
        simp [ratDiv, hb'] at h3
        rw [← h3]; exact .divide ih ih' hb'
    | modulus =>
      simp only [applyBinary] at h3
      by_cases hb : b = 0
      · subst hb; rw [ratRem_zero] at h3; cases h3
      · obtain ⟨w, hw, hrem⟩ := ratRem_spec (ε := Failure) a b hb
        rw [hw] at h3
        simp at h3
        rw [← h3]
        exact .modulus ih ih' hb hrem
    | exponent => exact .power ih ih' (power_ok h2 h3)
  | .function f p ns q, env, env', v, h => by
    unfold Node.execute at h
    obtain ⟨vs, env1, h1, h3⟩ := andThen_ok h
    have ih := executeList_value m args h2 ns h1
    simp only [St.lift, Prod.mk.injEq] at h3
    obtain ⟨h3, rfl⟩ := h3
    unfold applyFunction at h3
    cases vs with
    | nil => simp at h3
    | cons a vs =>
      cases f with
      | max =>
        simp at h3; rw [← h3]
        exact .max ih (foldl_max_spec vs a).1 (foldl_max_spec vs a).2
      | min =>
        simp at h3; rw [← h3]
        exact .min ih (foldl_min_spec vs a).1 (foldl_min_spec vs a).2
theorem executeList_value (m : Machine) (args : Args) (h2 : 2 ≤ args.radix) :
    ∀ (ns : List Node) {env env' : Env} {vs : List Rat}, executeList m args ns env = (.ok vs, env') →
      Values (usedTolerance args) (sessionValues env') ns vs
  | [], env, env', vs, h => by
    simp [executeList, St.lift] at h
    rw [h.1]; exact .nil
  | n :: ns, env, env', vs, h => by
    unfold executeList at h
    obtain ⟨v, env1, h1, h⟩ := andThen_ok h
    obtain ⟨ws, env2, h3, h⟩ := andThen_ok h
    simp [St.lift] at h
    obtain ⟨rfl, rfl⟩ := h
    have hext := executeList_extends m args ns env1
    rw [h3] at hext
    exact .cons (value_mono hext.2 (execute_value m args h2 n h1))
      (executeList_value m args h2 ns h3)
end

end Bcalc
