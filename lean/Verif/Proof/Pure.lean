import Verif.Props.Answer

/-! # Evaluation as a function of the values of the variables -/

namespace Bcalc
open Spec

/-- The value of a variable. -/
def pureVariable (store : Bool) (ρ : Valuation) (x : Str) (p : Position) : Outcome Failure Rat :=
  match ρ x with
  | some q => .ok q
  | none => .err (.input (unknownText store x) (some p))

mutual

/-- Evaluation, given the values of the variables. -/
def Node.pure (m : Machine) (args : Args) (store : Bool) (ρ : Valuation) : Node → Outcome Failure Rat
  | .number value _ => .ok value
  | .variable x p => pureVariable store ρ x p
  | .unary op p n => n.pure m args store ρ >>= applyUnary m args op p
  | .binary op p n n' => n.pure m args store ρ >>= fun a => n'.pure m args store ρ >>= fun b => applyBinary m args op p a b
  | .function f p ns _ => pureList m args store ρ ns >>= applyFunction f p
  | .paren _ _ n => n.pure m args store ρ

/-- Evaluation of all arguments. -/
def pureList (m : Machine) (args : Args) (store : Bool) (ρ : Valuation) : List Node → Outcome Failure (List Rat)
  | [] => .ok []
  | n :: ns => n.pure m args store ρ >>= fun v => pureList m args store ρ ns >>= fun vs => .ok (v :: vs)

end

/-- The state after a part of an evaluation matters only in what it sees. -/
theorem andThen_pure {α β : Type} {t : Exec α} {f : α → Exec β} {o : Outcome Failure α} {g : α → Outcome Failure β} {env : Env}
    (h : (t env).1 = o) (hf : ∀ a, o = .ok a → (f a (t env).2).1 = g a) : (t.andThen f env).1 = (o >>= g) := by
  unfold St.andThen
  rcases ht : t env with ⟨r, env'⟩
  rw [ht] at h hf
  simp only at h hf
  subst h
  cases r with
  | ok a => simpa using hf a rfl
  | err e => rfl
  | panic k => rfl
  | diverge => rfl

mutual
theorem execute_pure (m : Machine) (args : Args) (ρ : Valuation) : ∀ (n : Node) (env : Env), EnvQuiet env → SeenIn env ρ →
    (n.execute m args env).1 = n.pure m args env.vars.isSome ρ
  | .number v p, env, hq, hρ => rfl
  | .variable x p, env, hq, hρ => by
    unfold Node.execute Node.pure pureVariable
    rcases execVariable_quiet x p env hq with ⟨q, h1, h2⟩ | ⟨h1, h2⟩
    · rw [h2, (hρ x q).2 h1]
    · rw [h2]
      cases hx : ρ x with
      | some q => exact absurd ((hρ x q).1 hx) (h1 q)
      | none => rfl
  | .paren p q n, env, hq, hρ => by
    unfold Node.execute Node.pure
    exact execute_pure m args ρ n env hq hρ
  | .unary o p n, env, hq, hρ => by
    unfold Node.execute Node.pure
    exact andThen_pure (execute_pure m args ρ n env hq hρ) fun a _ => rfl
  | .binary o p n n', env, hq, hρ => by
    unfold Node.execute Node.pure
    have hs := execute_sight m args n env
    refine andThen_pure (execute_pure m args ρ n env hq hρ) fun a _ => ?_
    have hn := execute_pure m args ρ n' (n.execute m args env).2 (hs hq).1 (hρ.next hq hs)
    rw [(hs hq).2.1] at hn
    exact andThen_pure hn fun b _ => rfl
  | .function f p ns q, env, hq, hρ => by
    unfold Node.execute Node.pure
    exact andThen_pure (executeList_pure m args ρ ns env hq hρ) fun a _ => rfl

theorem executeList_pure (m : Machine) (args : Args) (ρ : Valuation) : ∀ (ns : List Node) (env : Env), EnvQuiet env →
    SeenIn env ρ → (executeList m args ns env).1 = pureList m args env.vars.isSome ρ ns
  | [], env, hq, hρ => rfl
  | n :: ns, env, hq, hρ => by
    unfold executeList pureList
    have hs := execute_sight m args n env
    refine andThen_pure (execute_pure m args ρ n env hq hρ) fun a _ => ?_
    have hn := executeList_pure m args ρ ns (n.execute m args env).2 (hs hq).1 (hρ.next hq hs)
    rw [(hs hq).2.1] at hn
    exact andThen_pure hn fun b _ => rfl
end

mutual
/-- Hash order does not matter to evaluation. -/
theorem pure_order (m : Machine) (order : List Str → List Str) (args : Args) (store : Bool) (ρ : Valuation) :
    ∀ n : Node, n.pure { m with hashOrder := order } args store ρ = n.pure m args store ρ
  | .number v p => rfl
  | .variable x p => rfl
  | .paren p q n => by unfold Node.pure; exact pure_order m order args store ρ n
  | .unary o p n => by unfold Node.pure; rw [pure_order m order args store ρ n]; rfl
  | .binary o p n n' => by
    unfold Node.pure; rw [pure_order m order args store ρ n, pure_order m order args store ρ n']; rfl
  | .function f p ns q => by unfold Node.pure; rw [pureList_order m order args store ρ ns]
theorem pureList_order (m : Machine) (order : List Str → List Str) (args : Args) (store : Bool) (ρ : Valuation) :
    ∀ ns : List Node, pureList { m with hashOrder := order } args store ρ ns = pureList m args store ρ ns
  | [] => rfl
  | n :: ns => by unfold pureList; rw [pure_order m order args store ρ n, pureList_order m order args store ρ ns]
end

/-- What is answered, given the values of the variables. -/
def pureAnswer (m : Machine) (args : Args) (ρ : Valuation) (line : Str) : Outcome Failure Str :=
  match tokenize line args.radix with
  | .err e => .err (Failure.ofParse e)
  | .panic k => .panic k
  | .diverge => .diverge
  | .ok (.command _ _) => .diverge
  | .ok (.tokens ts) =>
    if ts = [] then .ok []
    else (SyntaxTree.new ts).mapErr Failure.ofSyntax >>= fun tree => tree.root.pure m args true ρ >>= displayResult args

theorem pureAnswer_order (m : Machine) (order : List Str → List Str) (args : Args) (ρ : Valuation) (line : Str) :
    pureAnswer { m with hashOrder := order } args ρ line = pureAnswer m args ρ line := by
  unfold pureAnswer
  simp only [pure_order]

/-- What a line leaves the variables with. -/
def pureEffect (m : Machine) (args : Args) (ρ : Valuation) (line : Str) : Valuation :=
  match tokenize line args.radix with
  | .ok (.tokens ts) =>
    match SyntaxTree.new ts with
    | .ok ⟨some x, n⟩ =>
      match n.pure m args true ρ with
      | .ok v => fun y => if y = x.value then some v else ρ y
      | _ => ρ
    | _ => ρ
  | _ => ρ

/-! ## What a line leaves behind -/

/-- Every variable that evaluation would find has its value in the session. -/
def AllKnown (env : Env) : Prop := ∀ x q, EnvSees env x q → sessionValues env x = some q

/-- The session's values are kept. -/
def GrowsTo (env env' : Env) : Prop := ∀ x q, sessionValues env x = some q → sessionValues env' x = some q

theorem execVariable_grows (x : Str) (p : Position) : (execVariable x p).Rel GrowsTo := by
  intro env y q h
  unfold execVariable
  obtain ⟨vars, db⟩ := env
  cases vars with
  | none => exact h
  | some vs =>
    simp only
    unfold VariableStore.get
    have hy : vs.lookup y = some q := h
    cases hl : vs.lookup x with
    | some v => exact h
    | none =>
      have hne : y ≠ x := by rintro rfl; rw [hl] at hy; cases hy
      cases db with
      | none => exact h
      | some sd =>
        simp only
        unfold VariableStore.reload
        rcases hg : sd.getVariable x with ⟨o, sd'⟩
        rcases o with ⟨_ | var⟩ | _ | _ | _
        · exact h
        · have hn : var.name = x := getVariable_name (by rw [hg])
          show (vs.insert var.name var.value).lookup y = some q
          rw [hn, lookup_insert, if_neg hne]
          exact hy
        · exact h
        · exact h
        · exact h

theorem execute_grows (m : Machine) (args : Args) (n : Node) (env : Env) : GrowsTo env (n.execute m args env).2 :=
  execute_rel (fun _ _ _ h => h) (fun _ _ _ h h' x q hx => h' x q (h x q hx)) execVariable_grows m args n env

/-- What is seen after a variable has been stored. -/
theorem update_seen {id : Option Int} {db : Option SavedData} (h : IdOk id db) (vs : VariableStore) (var : Variable) :
    ∃ db', vs.update var id db = (.ok (), vs.insert var.name var.value, db') ∧ IdOk id db' ∧
      ∀ y q, EnvSees ⟨some (vs.insert var.name var.value), db'⟩ y q ↔
        if y = var.name then q = var.value else EnvSees ⟨some vs, db⟩ y q := by
  have hself : ∀ db' y q, y = var.name →
      (EnvSees ⟨some (vs.insert var.name var.value), db'⟩ y q ↔ q = var.value) := by
    rintro db' y q rfl
    unfold EnvSees sessionValues
    simp only [lookup_insert, if_true, Option.some.injEq, reduceCtorEq, false_and, or_false]
    exact eq_comm
  cases db with
  | none =>
    cases h
    refine ⟨none, rfl, rfl, fun y q => ?_⟩
    split
    · rename_i hy; exact hself _ y q hy
    · rename_i hy
      unfold EnvSees sessionValues
      simp only [lookup_insert, if_neg hy, Option.isSome_some]
  | some sd =>
    obtain ⟨he, hr, i, rfl, hi⟩ := h
    have hset := (C46_setVariable sd.db hr var i).1 (by
      unfold Db.hasId at hi
      rw [List.any_eq_true] at hi
      obtain ⟨r, h1, h2⟩ := hi
      exact ⟨r, h1, by simpa using h2⟩)
    have hrun : sd.setVariable var i = (.ok (), { sd with db := (DbOp.setVar var i).apply sd.db, commits := sd.commits ++ [(DbOp.setVar var i).apply sd.db] }) := by
      unfold SavedData.setVariable
      rw [run_quiet he, hset]
    refine ⟨some { sd with db := (DbOp.setVar var i).apply sd.db, commits := sd.commits ++ [(DbOp.setVar var i).apply sd.db] }, ?_, ⟨he, ?_, i, rfl, ?_⟩, fun y q => ?_⟩
    · unfold VariableStore.update
      simp only [hrun]
      rfl
    · exact hr.evolves (kind := fun _ => True) ⟨[.setVar var i], fun _ _ => trivial, rfl⟩
    · rw [(exec_ok hset).1]
      exact hi
    · split
      · rename_i hy; exact hself _ y q hy
      · rename_i hy
        unfold EnvSees sessionValues
        simp only [lookup_insert, if_neg hy, Option.some.injEq, exists_eq_left', stored_setVar _ _ _ _ _ hy, Option.isSome_some]

theorem AllKnown.grows {env env' : Env} (h : AllKnown env) (hg : GrowsTo env env')
    (hs : ∀ x q, EnvSees env' x q → EnvSees env x q) : AllKnown env' := fun x q hx => hg x q (h x q (hs x q hx))

/-- Running a tree. -/
theorem executeTree_pure {m : Machine} {tree : SyntaxTree} {id : Option Int} {s : Session} {ρ : Valuation}
    (hid : IdOk id s.db) (hvs : s.vars.isSome) (hρ : SeenIn s.env ρ) :
    ∃ s', executeTree m tree id s = (tree.root.pure m s.args true ρ, s') ∧ s'.args = s.args ∧ s'.vars.isSome ∧
      EnvQuiet s'.env ∧
      SeenIn s'.env (match tree.resultVar, tree.root.pure m s.args true ρ with
        | some x, .ok v => fun y => if y = x.value then some v else ρ y
        | _, _ => ρ) ∧ (AllKnown s.env → AllKnown s'.env) := by
  have hq : EnvQuiet s.env := hid.quiet
  have hkept := execute_kept m s.args tree.root s.env
  have hsight := execute_sight m s.args tree.root s.env
  have hgrow := execute_grows m s.args tree.root s.env
  have hp := execute_pure m s.args ρ tree.root s.env hq hρ
  have hst : s.env.vars.isSome = true := hvs
  rw [hst] at hp
  unfold executeTree SyntaxTree.execute St.andThen
  have henv : (⟨s.vars, s.db⟩ : Env) = s.env := rfl
  rw [henv]
  rcases he : tree.root.execute m s.args s.env with ⟨r, env⟩
  rw [he] at hkept hsight hgrow hp
  simp only at hp hkept hsight hgrow
  subst hp
  obtain ⟨hq', hs', hsee⟩ := hsight hq
  rw [hst] at hs'
  have hseen : SeenIn env ρ := hρ.next hq hsight
  have hall : AllKnown s.env → AllKnown env := fun h => h.grows hgrow fun x q hx => (hsee x q).1 hx
  cases hr : tree.root.pure m s.args true ρ with
  | ok v =>
    simp only
    cases ht : tree.resultVar with
    | none => exact ⟨_, rfl, rfl, hs', hq', hseen, hall⟩
    | some x =>
      simp only
      cases hev : env.vars with
      | none => rw [hev] at hs'; cases hs'
      | some vs =>
        simp only
        have hid' : IdOk id env.db := IdOk.kept (vars := s.vars) hid hkept
        obtain ⟨db', hu, hid2, hsees⟩ := update_seen hid' vs ⟨x.value, v⟩
        rw [hu]
        simp only
        have henv' : (⟨some vs, env.db⟩ : Env) = env := by rw [← hev]
        rw [henv'] at hsees
        refine ⟨_, rfl, rfl, rfl, hid2.quiet, ?_, ?_⟩
        · intro y q
          show _ ↔ EnvSees ⟨some (vs.insert x.value v), db'⟩ y q
          rw [hsees y q]
          simp only
          split
          · simp only [Option.some.injEq]; exact eq_comm
          · exact hseen y q
        · intro hk y q hy
          have hy' := (hsees y q).1 hy
          show (vs.insert x.value v).lookup y = some q
          rw [lookup_insert]
          simp only at hy'
          split at hy'
          · rename_i h1; rw [if_pos h1, hy']
          · rename_i h1
            rw [if_neg h1]
            have := hall hk y q hy'
            unfold sessionValues at this
            rw [hev] at this
            exact this
  | err e => cases tree.resultVar <;> exact ⟨_, rfl, rfl, hs', hq', hseen, hall⟩
  | panic k => cases tree.resultVar <;> exact ⟨_, rfl, rfl, hs', hq', hseen, hall⟩
  | diverge => cases tree.resultVar <;> exact ⟨_, rfl, rfl, hs', hq', hseen, hall⟩

/-- A line that is not a command: what is answered, and what it leaves the variables with, depends on nothing but the
settings and the values of the variables. -/
theorem calculate_pure {m : Machine} {ce : CommandExecutor} {line : Str} {s : Session} {ρ : Valuation}
    (h : Ready s line) (hρ : SeenBy s line ρ) (h2 : 2 ≤ s.args.radix) (h16 : s.args.radix ≤ 16) (hc : ¬ CommandLine line) :
    ∃ s', calculate m ce line s = (pureAnswer m s.args ρ line, s') ∧ s'.args = s.args ∧ s'.vars.isSome ∧
      EnvQuiet s'.env ∧ SeenIn s'.env (pureEffect m s.args ρ line) ∧ (AllKnown s.env → AllKnown s'.env) := by
  obtain ⟨id, s1, h1, hid, ha, hvars, hs⟩ := ready_records h
  have hseen1 : SeenIn s1.env ρ := fun x q => (hρ x q).trans (hs x q).symm
  have hall1 : AllKnown s.env → AllKnown s1.env := by
    intro hk x q hx
    have hsv : ∀ y, sessionValues s1.env y = sessionValues s.env y := by
      intro y; unfold sessionValues Session.env; simp only [hvars]
    rw [hsv]
    rcases (hs x q).1 hx with h | ⟨h1, h2, sd, hd, hst⟩
    · exact h
    · exact hk x q (.inr ⟨h1, h2, sd, hd, stored_apply (by rintro ⟨_, _, h⟩; cases h) hst⟩)
  have hv1 : s1.vars.isSome = true := by rw [hvars]; exact h.vars
  rw [calculate_eq, andThen_of_ok h1]
  unfold afterRecording pureAnswer pureEffect
  rw [ha]
  rcases tokenize_spec h2 h16 line with ⟨i, hi, _, e⟩ | ⟨_, p, hp, hc', _⟩ |
    ⟨_, _, ⟨ts, e, hl⟩ | ⟨w, st, e, hb, _⟩⟩
  · rw [e]; exact ⟨s1, rfl, ha, hv1, hid.quiet, hseen1, hall1⟩
  · exact absurd hc' hc
  · rw [e]
    simp only
    obtain ⟨s2, ht, hid2, ha2, hv2, hs2⟩ := touchVars_seen hid (m.hashOrder (variableNames ts))
    rw [calculateTokens_after ht]
    have hseen2 : SeenIn s2.env ρ := fun x q => (hseen1 x q).trans (hs2 x q).symm
    have hall2 : AllKnown s.env → AllKnown s2.env := fun hk => (hall1 hk).grows
      (by intro x q hx; unfold sessionValues Session.env at hx ⊢; simp only [hv2]; exact hx) fun x q hx => (hs2 x q).1 hx
    have hv2' : s2.vars.isSome = true := by rw [hv2]; exact hv1
    by_cases hts : ts = []
    · subst hts
      rw [if_pos rfl, if_pos rfl]
      refine ⟨s2, rfl, ha2.trans ha, hv2', hid2.quiet, ?_, hall2⟩
      have : ∀ t, SyntaxTree.new [] ≠ .ok t := by
        intro t ht
        have := (C10_parser_iff_grammar [] t).1 ht
        exact input_ne_nil this
      split
      · rename_i x n hx; exact absurd hx (this _)
      · exact hseen2
    · rw [if_neg hts, if_neg hts]
      cases hn : SyntaxTree.new ts with
      | ok tree =>
        obtain ⟨s3, he, ha3, hv3, hq3, hsee3, hall3⟩ := executeTree_pure (m := m) (tree := tree) hid2 hv2' hseen2
        rw [ha2, ha] at he hsee3
        refine ⟨s3, ?_, ha3.trans (ha2.trans ha), hv3, hq3, ?_, fun hk => hall3 (hall2 hk)⟩
        · simp only [Outcome.mapErr, St.lift, St.andThen, he, Outcome.bind_ok]
          cases tree.root.pure m s.args true ρ with
          | ok v => simp only [Outcome.bind_ok, ha3, ha2, ha]
          | err => rfl
          | panic => rfl
          | diverge => rfl
        · obtain ⟨target, n⟩ := tree
          cases target with
          | none => exact hsee3
          | some x =>
            simp only at hsee3 ⊢
            cases hr : n.pure m s.args true ρ <;> rw [hr] at hsee3 <;> exact hsee3
      | err er => exact ⟨s2, rfl, ha2.trans ha, hv2', hid2.quiet, hseen2, hall2⟩
      | panic k => exact ⟨s2, rfl, ha2.trans ha, hv2', hid2.quiet, hseen2, hall2⟩
      | diverge => exact ⟨s2, rfl, ha2.trans ha, hv2', hid2.quiet, hseen2, hall2⟩
  · rw [e]; exact ⟨s1, rfl, ha, hv1, hid.quiet, hseen1, hall1⟩

end Bcalc
