import Verif.Proof.Session
import Verif.Props.Arithmetic
import Verif.Props.Variables
import Verif.Props.Parser

/-! # Expressions with and without variables; one-shot mode -/

namespace Bcalc

open Spec

/-- The tokens contain a variable. -/
def HasVar (ts : List PTok) : Prop := ∃ x p, ⟨.variable x, p⟩ ∈ ts

theorem hasVar_append {a b : List PTok} : HasVar (a ++ b) ↔ HasVar a ∨ HasVar b := by
  unfold HasVar
  constructor
  · rintro ⟨x, p, h⟩
    rcases List.mem_append.1 h with h | h
    · exact .inl ⟨x, p, h⟩
    · exact .inr ⟨x, p, h⟩
  · rintro (⟨x, p, h⟩ | ⟨x, p, h⟩)
    · exact ⟨x, p, List.mem_append_left _ h⟩
    · exact ⟨x, p, List.mem_append_right _ h⟩

theorem hasVar_cons {t : PTok} {ts : List PTok} (ht : ∀ x p, t ≠ ⟨.variable x, p⟩) :
    HasVar (t :: ts) ↔ HasVar ts := by
  unfold HasVar
  constructor
  · rintro ⟨x, p, h⟩
    rcases List.mem_cons.1 h with h | h
    · exact absurd h.symm (ht x p)
    · exact ⟨x, p, h⟩
  · rintro ⟨x, p, h⟩
    exact ⟨x, p, List.mem_cons_of_mem _ h⟩

theorem not_hasVar_nil : ¬ HasVar [] := by rintro ⟨_, _, h⟩; cases h

/-- Evaluation without a variable store fails. -/
def NoValue {α : Type} (t : Exec α) : Prop := ∀ env, env.vars = none → ∀ v env', t env ≠ (.ok v, env')

theorem NoValue.first {α β : Type} {t : Exec α} {f : α → Exec β} (h : NoValue t) : NoValue (t.andThen f) := by
  intro env he v env' hx
  obtain ⟨a, s1, h1, _⟩ := andThen_ok hx
  exact h env he a s1 h1

theorem NoValue.later {α β : Type} {t : Exec α} {f : α → Exec β}
    (ht : ∀ env, env.vars = none → ((t env).2.vars = none)) (h : ∀ a, NoValue (f a)) : NoValue (t.andThen f) := by
  intro env he v env' hx
  obtain ⟨a, s1, h1, h2⟩ := andThen_ok hx
  have := ht env he
  rw [h1] at this
  exact h a s1 this v env' h2

theorem execute_vars_none (m : Machine) (args : Args) (n : Node) (env : Env) (h : env.vars = none) :
    (n.execute m args env).2.vars = none := by
  have := (execute_extends m args n env).1
  rw [h] at this
  cases hv : (n.execute m args env).2.vars with
  | none => rfl
  | some v => rw [hv] at this; cases this

mutual
theorem expr_noValue (m : Machine) (args : Args) : ∀ {k ts n}, Expr k ts n → HasVar ts → NoValue (n.execute m args)
  | _, _, _, .signed h, hv => signed_noValue m args h hv
  | _, _, _, .lift h, hv => expr_noValue m args h hv
  | _, _, _, .op (b := b) h1 _ h2, hv => by
    unfold Node.execute
    rcases hasVar_append.1 hv with hv | hv
    · exact (expr_noValue m args h1 hv).first
    · rw [hasVar_cons (by simp)] at hv
      exact NoValue.later (execute_vars_none m args _) fun _ => (expr_noValue m args h2 hv).first
theorem signed_noValue (m : Machine) (args : Args) : ∀ {ts n}, Signed ts n → HasVar ts → NoValue (n.execute m args)
  | _, _, .minus h, hv => by
    rw [hasVar_cons (by simp)] at hv
    unfold Node.execute
    exact (signed_noValue m args h hv).first
  | _, _, .atom h, hv => atom_noValue m args h hv
theorem atom_noValue (m : Machine) (args : Args) : ∀ {ts n}, Atom ts n → HasVar ts → NoValue (n.execute m args)
  | _, _, .number, hv => by
    rw [hasVar_cons (by simp)] at hv
    exact absurd hv not_hasVar_nil
  | _, _, .variable, _ => by
    intro env he v env' hx
    unfold Node.execute execVariable at hx
    rw [he] at hx
    cases hx
  | _, _, .paren h, hv => by
    rw [hasVar_cons (by simp), hasVar_append, hasVar_cons (by simp)] at hv
    unfold Node.execute
    exact expr_noValue m args h (hv.resolve_right not_hasVar_nil)
  | _, _, .unary h, hv => by
    rw [hasVar_cons (by simp)] at hv
    unfold Node.execute
    exact (signed_noValue m args h hv).first
  | _, _, .functionBare h _, hv => by
    rw [hasVar_cons (by simp)] at hv
    unfold Node.execute executeList
    exact (signed_noValue m args h hv).first.first
  | _, _, .functionEmpty, hv => by
    rw [hasVar_cons (by simp), hasVar_cons (by simp), hasVar_cons (by simp)] at hv
    exact absurd hv not_hasVar_nil
  | _, _, .function h, hv => by
    rw [hasVar_cons (by simp), hasVar_cons (by simp), hasVar_append, hasVar_cons (by simp)] at hv
    unfold Node.execute
    exact (arguments_noValue m args h (hv.resolve_right not_hasVar_nil)).first
theorem arguments_noValue (m : Machine) (args : Args) : ∀ {ts ns}, Arguments ts ns → HasVar ts →
    NoValue (executeList m args ns)
  | _, _, .one h, hv => by
    unfold executeList
    exact (expr_noValue m args h hv).first
  | _, _, .more h h', hv => by
    unfold executeList
    rcases hasVar_append.1 hv with hv | hv
    · exact (expr_noValue m args h hv).first
    · rw [hasVar_cons (by simp)] at hv
      exact NoValue.later (execute_vars_none m args _) fun _ => (arguments_noValue m args h' hv).first
end

/-- Evaluation does not depend on the variables and the database, and leaves them alone. -/
def Pure {α : Type} (t : Exec α) : Prop := ∃ r, ∀ env, t env = (r, env)

theorem Pure.andThen {α β : Type} {t : Exec α} {f : α → Exec β} (h : Pure t) (hf : ∀ a, Pure (f a)) :
    Pure (t.andThen f) := by
  obtain ⟨r, hr⟩ := h
  cases r with
  | ok a =>
    obtain ⟨r', hr'⟩ := hf a
    exact ⟨r', fun env => by rw [andThen_of_ok (hr env)]; exact hr' env⟩
  | err e => exact ⟨.err e, fun env => andThen_of_err (hr env)⟩
  | panic k => exact ⟨.panic k, fun env => andThen_of_panic (hr env)⟩
  | diverge => exact ⟨.diverge, fun env => by unfold St.andThen; rw [hr env]⟩

theorem Pure.lift {α : Type} (o : Outcome Failure α) : Pure (St.lift o : Exec α) := ⟨o, fun _ => rfl⟩

mutual
theorem expr_pure (m : Machine) (args : Args) : ∀ {k ts n}, Expr k ts n → ¬ HasVar ts → Pure (n.execute m args)
  | _, _, _, .signed h, hv => signed_pure m args h hv
  | _, _, _, .lift h, hv => expr_pure m args h hv
  | _, _, _, .op (b := b) h1 _ h2, hv => by
    rw [hasVar_append, hasVar_cons (by simp)] at hv
    unfold Node.execute
    exact (expr_pure m args h1 fun h => hv (.inl h)).andThen fun _ =>
      (expr_pure m args h2 fun h => hv (.inr h)).andThen fun _ => .lift _
theorem signed_pure (m : Machine) (args : Args) : ∀ {ts n}, Signed ts n → ¬ HasVar ts → Pure (n.execute m args)
  | _, _, .minus h, hv => by
    rw [hasVar_cons (by simp)] at hv
    unfold Node.execute
    exact (signed_pure m args h hv).andThen fun _ => .lift _
  | _, _, .atom h, hv => atom_pure m args h hv
theorem atom_pure (m : Machine) (args : Args) : ∀ {ts n}, Atom ts n → ¬ HasVar ts → Pure (n.execute m args)
  | _, _, .number, _ => by unfold Node.execute; exact .lift _
  | _, _, .variable, hv => absurd ⟨_, _, List.mem_singleton.2 rfl⟩ hv
  | _, _, .paren h, hv => by
    rw [hasVar_cons (by simp), hasVar_append] at hv
    unfold Node.execute
    exact expr_pure m args h fun h => hv (.inl h)
  | _, _, .unary h, hv => by
    rw [hasVar_cons (by simp)] at hv
    unfold Node.execute
    exact (signed_pure m args h hv).andThen fun _ => .lift _
  | _, _, .functionBare h _, hv => by
    rw [hasVar_cons (by simp)] at hv
    unfold Node.execute executeList executeList
    exact ((signed_pure m args h hv).andThen fun _ => (Pure.lift _).andThen fun _ => .lift _).andThen fun _ => .lift _
  | _, _, .functionEmpty, _ => by
    unfold Node.execute executeList
    exact (Pure.lift _).andThen fun _ => .lift _
  | _, _, .function h, hv => by
    rw [hasVar_cons (by simp), hasVar_cons (by simp), hasVar_append] at hv
    unfold Node.execute
    exact (arguments_pure m args h fun h => hv (.inl h)).andThen fun _ => .lift _
theorem arguments_pure (m : Machine) (args : Args) : ∀ {ts ns}, Arguments ts ns → ¬ HasVar ts →
    Pure (executeList m args ns)
  | _, _, .one h, hv => by
    unfold executeList executeList
    exact (expr_pure m args h hv).andThen fun _ => (Pure.lift _).andThen fun _ => .lift _
  | _, _, .more h h', hv => by
    rw [hasVar_append, hasVar_cons (by simp)] at hv
    unfold executeList
    exact (expr_pure m args h fun h => hv (.inl h)).andThen fun _ =>
      (arguments_pure m args h' fun h => hv (.inr h)).andThen fun _ => .lift _
end

/-- A parsed input with a variable has no value without a variable store. -/
theorem tree_noValue (m : Machine) (args : Args) (id : Option Int) {ts : List PTok} {t : SyntaxTree}
    (h : SyntaxTree.new ts = .ok t) (hv : HasVar ts) : NoValue (t.execute m args id) := by
  have hp := (parse_iff ts t).1 h
  unfold SyntaxTree.execute
  generalize hrv : t.resultVar = rv at hp
  cases hp with
  | expression h => exact (expr_noValue m args h hv).first
  | assignment h =>
    refine NoValue.later (execute_vars_none m args _) fun a env he v env' hx => ?_
    simp only [he] at hx
    cases hx

/-- A parsed input without a variable. -/
theorem tree_pure (m : Machine) (args : Args) (id : Option Int) {ts : List PTok} {t : SyntaxTree}
    (h : SyntaxTree.new ts = .ok t) (hv : ¬ HasVar ts) : Pure (t.execute m args id) := by
  have hp := (parse_iff ts t).1 h
  unfold SyntaxTree.execute
  generalize hrv : t.resultVar = rv at hp
  cases hp with
  | expression h => exact (expr_pure m args h hv).andThen fun v => .lift _
  | assignment h => exact absurd ⟨_, _, List.mem_cons_self⟩ hv

theorem variableNames_nil {ts : List PTok} (hv : ¬ HasVar ts) : variableNames ts = [] := by
  unfold variableNames
  rw [List.filterMap_eq_nil_iff]
  intro t ht
  obtain ⟨v, p⟩ := t
  cases v
  case «variable» x => exact absurd ⟨x, p, ht⟩ hv
  all_goals rfl

/-- The session of one-shot mode. -/
def bare (args : Args) : Session := { args := args, db := none, inputs := none, vars := none }

theorem oneShot_eq (m : Machine) (args : Args) (input : Str) :
    oneShot m args input = match (calculate m table input (bare args)).1 with
      | .err (.runtime e) => .err e
      | r => shown r := by
  unfold oneShot
  rw [new_table]
  simp only
  rcases h : calculate m table input (bare args) with ⟨r, s⟩
  unfold bare at h
  rw [h]
  rcases r with _ | ⟨_ | _⟩ | _ | _ <;> rfl

theorem bare_after (m : Machine) (ce : CommandExecutor) (input : Str) (args : Args) :
    ∃ args', (calculate m ce input (bare args)).2 = bare args' := by
  have hd := OptRel.isSome (calculate_db m ce input (bare args))
  have hv := calculate_vars_isSome m ce input (bare args)
  have hi : (calculate m ce input (bare args)).2.inputs = none := by
    rw [calculate_eq]
    exact afterRecording_inputs m ce input none (bare args)
  generalize calculate m ce input (bare args) = c at hd hv hi ⊢
  obtain ⟨r, ⟨a, db, inputs, vars⟩⟩ := c
  simp only at hd hv hi ⊢
  subst hi
  cases db with
  | some _ => cases hd
  | none =>
    cases vars with
    | some _ => cases hv
    | none => exact ⟨a, rfl⟩

theorem variableListLoop_ne_diverge : ∀ (ts : List PTok) (r : List (Positioned Str)),
    variableListLoop ts r ≠ .diverge
  | [], r => by simp [variableListLoop]
  | t :: ts, r => by
    unfold variableListLoop
    split
    · exact variableListLoop_ne_diverge ts _
    · simp

theorem intListLoop_ne_diverge : ∀ (ts : List PTok) (r : List (Positioned Int)) (n : Option Position),
    intListLoop ts r n ≠ .diverge
  | [], r, none => by simp [intListLoop]
  | [], r, some p => by simp [intListLoop]
  | t :: ts, r, n => by
    unfold intListLoop
    split
    · split
      · simp
      · split
        · cases n with
          | none => exact intListLoop_ne_diverge ts _ _
          | some p =>
            simp only
            split
            · simp
            · exact intListLoop_ne_diverge ts _ _
        · simp
    · cases n with
      | none => exact intListLoop_ne_diverge ts _ _
      | some p => simp
    · simp

theorem tokenize_ne_diverge {radix : Nat} (h2 : 2 ≤ radix) (hr : radix ≤ 16) (line : Str) :
    tokenize line radix ≠ .diverge := by
  rcases tokenize_spec h2 hr line with ⟨i, _, _, he⟩ | ⟨_, p, hp, _, he⟩ |
    ⟨_, _, ⟨ts, he, _⟩ | ⟨w, s, he, _, _⟩⟩ <;> rw [he] <;> simp

theorem tokenizeVariableList_ne_diverge (t : Str) : tokenizeVariableList t ≠ .diverge := by
  unfold tokenizeVariableList
  have := tokenize_ne_diverge (radix := 10) (by omega) (by omega) t
  rcases h : tokenize t 10 with r | _ | _ | _
  · cases r with
    | tokens ts => exact variableListLoop_ne_diverge ts []
    | command n a => simp
  · simp
  · simp
  · exact absurd h this

theorem intListArgs_ne_diverge (t : Str) : intListArgs t ≠ .diverge := by
  have : tokenizeIntList t 10 ≠ .diverge := by
    unfold tokenizeIntList
    have := tokenize_ne_diverge (radix := 10) (by omega) (by omega) t
    rcases h : tokenize t 10 with r | _ | _ | _
    · cases r with
      | tokens ts => exact intListLoop_ne_diverge ts [] none
      | command n a => simp
    · simp
    · simp
    · exact absurd h this
  unfold intListArgs
  rcases h : tokenizeIntList t 10 with _ | _ | _ | _
  · simp [Outcome.mapErr]
  · simp [Outcome.mapErr]
  · simp [Outcome.mapErr]
  · exact absurd h this

theorem bind_ne_diverge' {ε α β : Type} {o : Outcome ε α} {f : α → Outcome ε β} (h : o ≠ .diverge)
    (hf : ∀ a, f a ≠ .diverge) : (o >>= f) ≠ .diverge := by
  cases o with
  | ok a => exact hf a
  | err e => simp
  | panic k => simp
  | diverge => exact absurd rfl h

theorem radixArgument_ne_diverge : ∀ l, radixArgument l ≠ .diverge
  | [] => by simp [radixArgument]
  | [i] => by
    change (if i.value < 2 then _ else if i.value > 16 then _ else _) ≠ Outcome.diverge
    split
    · simp
    · split <;> simp
  | _ :: _ :: _ => by simp [radixArgument]

theorem histcapArgument_ne_diverge : ∀ l, histcapArgument l ≠ .diverge
  | [] => by simp [histcapArgument]
  | [i] => by
    change (match validateMaxHistorySize i.value with
      | .error e => .err (.input e (some i.position))
      | .ok () => .ok (some i.value) : Outcome Failure (Option Int)) ≠ Outcome.diverge
    cases validateMaxHistorySize i.value <;> simp
  | _ :: _ :: _ => by simp [histcapArgument]

theorem precisionValues_ne_diverge (e : Nat) (p : Positioned Int) (q : Option (Positioned Int)) :
    precisionValues e p q ≠ .diverge := by
  unfold precisionValues
  split
  · simp
  · cases q with
    | none =>
      simp only
      split <;> simp
    | some q =>
      simp only
      cases toU8 q.value with
      | none => simp
      | some w =>
        simp only
        split <;> simp

theorem precisionArgument_ne_diverge (e : Nat) : ∀ l, precisionArgument e l ≠ .diverge
  | [] => by simp [precisionArgument]
  | [p] => precisionValues_ne_diverge e p none
  | [p, q] => precisionValues_ne_diverge e p (some q)
  | _ :: _ :: _ :: _ => by simp [precisionArgument]

theorem boolArgument_ne_diverge (a : Positioned Str) : boolArgument a ≠ .diverge := by
  unfold boolArgument
  simp only
  split
  · simp
  · split
    · simp
    · split <;> simp

theorem executeBool_ne_diverge (get : Args → Bool) (set : Args → Bool → Args) (a : Positioned Str)
    (s : Session) : (executeBool get set a s).1 ≠ .diverge := by
  unfold executeBool
  have := boolArgument_ne_diverge a
  rcases h : boolArgument a with ⟨_ | _⟩ | _ | _ | _ 
  · simp
  · simp
  · simp
  · simp
  · exact absurd h this

/-- The commands of a one-shot run. -/
theorem bare_command (m m' : Machine) (ce : CommandExecutor) (cmd : Cmd) (arguments : Positioned Str)
    (args : Args) : cmd.execute m ce arguments (bare args) = cmd.execute m' ce arguments (bare args) ∧
      (cmd.execute m ce arguments (bare args)).1 ≠ .diverge := by
  unfold Cmd.execute bare
  cases cmd with
  | help =>
    refine ⟨rfl, ?_⟩
    simp only
    unfold executeHelp
    simp only
    split
    · simp
    · split <;> simp
  | reloadVar =>
    simp only
    unfold executeReloadVar
    have := tokenizeVariableList_ne_diverge arguments.value
    rcases h : tokenizeVariableList arguments.value with _ | _ | _ | _
    · simp
    · simp
    · simp
    · exact absurd h this
  | purgeVar =>
    simp only
    unfold executePurgeVar
    have := tokenizeVariableList_ne_diverge arguments.value
    rcases h : tokenizeVariableList arguments.value with _ | _ | _ | _
    · simp
    · simp
    · simp
    · exact absurd h this
  | histcap =>
    refine ⟨rfl, ?_⟩
    simp only
    unfold executeHistcap
    have := bind_ne_diverge' (intListArgs_ne_diverge arguments.value) histcapArgument_ne_diverge
    rcases h : (intListArgs arguments.value >>= histcapArgument) with _ | _ | _ | _
    · simp
    · simp
    · simp
    · exact absurd h this
  | fractional => exact ⟨rfl, executeBool_ne_diverge _ _ _ _⟩
  | upper => exact ⟨rfl, executeBool_ne_diverge _ _ _ _⟩
  | commas => exact ⟨rfl, executeBool_ne_diverge _ _ _ _⟩
  | radix =>
    refine ⟨rfl, ?_⟩
    simp only
    unfold executeRadix
    have := bind_ne_diverge' (intListArgs_ne_diverge arguments.value) radixArgument_ne_diverge
    rcases h : (intListArgs arguments.value >>= radixArgument) with ⟨_ | _⟩ | _ | _ | _
    · simp
    · simp
    · simp
    · simp
    · exact absurd h this
  | convertToRadix =>
    refine ⟨rfl, ?_⟩
    simp only
    unfold executeConvertToRadix
    have := bind_ne_diverge' (intListArgs_ne_diverge arguments.value) radixArgument_ne_diverge
    split
    · simp
    · rcases h : (intListArgs arguments.value >>= radixArgument) with ⟨_ | _⟩ | _ | _ | _
      · simp only
        split <;> simp
      · simp
      · simp
      · simp
      · exact absurd h this
  | precision =>
    refine ⟨rfl, ?_⟩
    simp only
    unfold executePrecision
    have := bind_ne_diverge' (intListArgs_ne_diverge arguments.value) (precisionArgument_ne_diverge args.extraPrecision)
    simp only
    rcases h : (intListArgs arguments.value >>= precisionArgument args.extraPrecision) with ⟨_ | ⟨_, _⟩⟩ | _ | _ | _
    · simp
    · simp
    · simp
    · simp
    · exact absurd h this

theorem displayResult_ne_diverge (args : Args) (q : Rat) : displayResult args q ≠ .diverge := by
  have hi : ∀ n r, (intToStrRadix n r : Outcome Failure Str) ≠ .diverge := by
    intro n r
    unfold intToStrRadix
    split <;> simp
  unfold displayResult
  split
  · simp
  · unfold makeDecimalString
    simp only
    refine bind_ne_diverge' ?_ fun _ => bind_ne_diverge' (hi _ _) fun _ => ?_
    · split
      · simp
      · exact bind_ne_diverge' (hi _ _) fun _ => by simp
    · split <;> simp

/-- A one-shot run finishes, with a result that depends on nothing else. -/
theorem bare_finishes (checks : Bool) (args : Args) (h2 : 2 ≤ args.radix) (hr : args.radix ≤ 16) (input : Str) :
    ∃ (F : Nat) (r : Outcome Failure Str × Session), r.1 ≠ .diverge ∧
      ∀ m : Machine, m.overflowChecks = checks → F ≤ m.fuel → calculate m table input (bare args) = r := by
  have he : ∀ m, calculate m table input (bare args) = afterRecording m table input none (bare args) := fun _ => rfl
  have ht := tokenize_ne_diverge h2 hr input
  have heq : ∀ m, afterRecording m table input none (bare args) =
    match tokenize input args.radix with
    | .err e => (.err (Failure.ofParse e), bare args)
    | .panic k => (.panic k, bare args)
    | .diverge => (.diverge, bare args)
    | .ok (.tokens tokens) => calculateTokens m none tokens (bare args)
    | .ok (.command name arguments) => calculateCommand m table none name arguments (bare args) := fun _ => rfl
  simp only [he, heq]
  rcases htk : tokenize input args.radix with t | e | k | _
  · cases t with
    | command name arguments =>
      simp only
      have hc : ∀ m, calculateCommand m table none name arguments (bare args) =
          calculateCommand (exMachine true) table none name arguments (bare args) ∧
          (calculateCommand m table none name arguments (bare args)).1 ≠ .diverge := by
        intro m
        have hx : ∀ m, table.executeCommand m name arguments (bare args) =
            match table.resolve name.value with
            | some cmd => cmd.execute m table arguments (bare args)
            | none => (.err (noSuchCommand name), bare args) := fun _ => rfl
        have hxx : table.executeCommand m name arguments (bare args) =
            table.executeCommand (exMachine true) name arguments (bare args) ∧
            (table.executeCommand m name arguments (bare args)).1 ≠ .diverge := by
          rw [hx, hx]
          cases table.resolve name.value with
          | none => simp
          | some cmd => exact bare_command m _ table cmd arguments args
        unfold calculateCommand St.andThen
        rw [← hxx.1]
        rcases hy : table.executeCommand m name arguments (bare args) with ⟨r, s1⟩
        rw [hy] at hxx
        refine ⟨rfl, ?_⟩
        have hs1 : s1.vars = none := by
          have hex := hx m
          rw [hy] at hex
          cases hres : table.resolve name.value with
          | none => rw [hres] at hex; cases hex; rfl
          | some cmd =>
            rw [hres] at hex
            have hv := command_vars_isSome m table cmd arguments (bare args)
            simp only at hex
            rw [← hex] at hv
            simp only at hv
            cases hvv : s1.vars with
            | none => rfl
            | some _ => rw [hvv] at hv; cases hv
        rcases r with ⟨o, t⟩ | _ | _ | _
        · simp only [hs1]; simp
        · simp
        · simp
        · exact absurd rfl hxx.2
      exact ⟨0, calculateCommand (exMachine true) table none name arguments (bare args), (hc _).2, fun m _ _ => (hc m).1⟩
    | tokens ts =>
      simp only
      have hx : ∀ m, calculateTokens m none ts (bare args) =
          if ts = [] then (.ok [], bare args) else
          match (SyntaxTree.new ts).mapErr Failure.ofSyntax with
          | .ok tree => (executeTree m tree none).andThen (fun result s => (displayResult s.args result, s)) (bare args)
          | .err e => (.err e, bare args)
          | .panic k => (.panic k, bare args)
          | .diverge => (.diverge, bare args) := by
        intro m
        unfold calculateTokens St.andThen bare
        simp only
        split
        · rfl
        · unfold St.lift
          cases (SyntaxTree.new ts).mapErr Failure.ofSyntax <;> rfl
      simp only [hx]
      split
      · exact ⟨0, _, by simp, fun _ _ _ => rfl⟩
      · rcases C12_total ts with ⟨tree, hn⟩ | ⟨e, hn⟩
        · rw [hn]
          simp only [Outcome.mapErr]
          obtain ⟨F, r, hr, hF⟩ := C26_calculation_terminates checks args h2 tree none ⟨none, none⟩
          have hex : ∀ m : Machine, m.overflowChecks = checks → F ≤ m.fuel →
              executeTree m tree none (bare args) = (r.1, { bare args with vars := r.2.vars, db := r.2.db }) := by
            intro m hm hf
            unfold executeTree
            have := hF m hm hf
            simp only [bare]
            rw [this]
          refine ⟨F, (match r.1 with
            | .ok q => displayResult args q
            | .err e => .err e
            | .panic k => .panic k
            | .diverge => .diverge, { bare args with vars := r.2.vars, db := r.2.db }), ?_, fun m hm hf => ?_⟩
          · rcases r with ⟨o, env⟩
            cases o with
            | ok q => exact displayResult_ne_diverge args q
            | err e => simp
            | panic k => simp
            | diverge => exact absurd rfl hr
          · unfold St.andThen
            rw [hex m hm hf]
            rcases r with ⟨o, env⟩
            cases o <;> rfl
        · rw [hn]
          exact ⟨0, _, by simp [Outcome.mapErr], fun _ _ _ => rfl⟩
  · exact ⟨0, _, by simp, fun _ _ _ => rfl⟩
  · exact ⟨0, _, by simp, fun _ _ _ => rfl⟩
  · exact absurd htk ht

end Bcalc
