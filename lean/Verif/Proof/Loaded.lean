import Verif.Proof.Stored

/-! # Where the values of the session's variables come from -/

namespace Bcalc
open Spec

/-- The variable's value afterwards is the one before or one that was stored in the database at some
point in between. -/
def Loaded (own : DbOp → Prop) (x : Str) (env env' : Env) : Prop :=
  OptRel own env.db env'.db ∧ (EnvOk env → ∀ v, sessionValues env' x = some v →
    sessionValues env x = some v ∨
    ∃ sd d, env.db = some sd ∧ Evolves (fun op => Scheduled sd op ∨ own op) sd.db d ∧ Stored d x v) ∧
  env'.vars.isSome = env.vars.isSome

theorem Loaded.of_vars {own : DbOp → Prop} {x : Str} {env env' : Env} (h : OptRel own env.db env'.db)
    (hv : ∀ v, sessionValues env' x = some v → sessionValues env x = some v)
    (hs : env'.vars.isSome = env.vars.isSome) : Loaded own x env env' :=
  ⟨h, fun _ v hv' => .inl (hv v hv'), hs⟩

theorem Loaded.refl (own : DbOp → Prop) (x : Str) (env : Env) : Loaded own x env env :=
  .of_vars (OptRel.refl _ _) (fun _ h => h) rfl

theorem OptRel.envOk {own : DbOp → Prop} {a b : Env} (h : OptRel own a.db b.db) (ha : EnvOk a) :
    EnvOk b := by
  intro sd' hb
  rw [hb] at h
  cases hd : a.db with
  | none => rw [hd] at h; exact h.elim
  | some sd =>
    rw [hd] at h
    exact (SdRel.db h).keeps (P := VarsOk) (fun op _ _ => varsOk_apply op) (ha sd hd)

theorem Loaded.trans {own : DbOp → Prop} {x : Str} (a b c : Env) (h : Loaded own x a b)
    (h' : Loaded own x b c) : Loaded own x a c := by
  refine ⟨h.1.trans h'.1, fun hok v hv => ?_, h'.2.2.trans h.2.2⟩
  rcases h'.2.1 (h.1.envOk hok) v hv with hb | ⟨sd', d, hdb, he, hs⟩
  · exact h.2.1 hok v hb
  · have h1 := h.1
    rw [hdb] at h1
    cases hd : a.db with
    | none => rw [hd] at h1; exact h1.elim
    | some sd =>
      rw [hd] at h1
      refine .inr ⟨sd, d, rfl, (SdRel.db h1).trans (he.mono ?_), hs⟩
      rintro op (ho | ho)
      · exact .inl (SdRel.scheduled h1 ho)
      · exact .inr ho

theorem Loaded.mono {o o' : DbOp → Prop} (ho : ∀ op, o op → o' op) {x : Str} {a b : Env}
    (h : Loaded o x a b) : Loaded o' x a b := by
  refine ⟨h.1.mono ho, fun hok v hv => ?_, h.2.2⟩
  rcases h.2.1 hok v hv with h | ⟨sd, d, h1, h2, h3⟩
  · exact .inl h
  · exact .inr ⟨sd, d, h1, h2.mono fun op h => h.imp id (ho op), h3⟩

theorem reload_loaded (own : DbOp → Prop) (x y : Str) (vs : VariableStore) (sd : SavedData) :
    Loaded own x ⟨some vs, some sd⟩
      ⟨some (vs.reload y sd).2.1, some (vs.reload y sd).2.2⟩ := by
  refine ⟨reload_rel own vs y sd, fun hok v hv => ?_, rfl⟩
  simp only [sessionValues] at hv ⊢
  by_cases hxy : x = y
  · subst hxy
    unfold VariableStore.reload at hv
    have hn := @getVariable_name sd x
    have hs := @getVariable_seen sd x
    rcases hg : sd.getVariable x with ⟨o, sd'⟩
    rw [hg] at hv hn hs
    rcases o with ⟨_ | var⟩ | _ | _ | _
    · exact .inl hv
    · simp only at hv
      rw [hn rfl, lookup_insert, if_pos rfl] at hv
      cases hv
      exact .inr ⟨sd, sd.seen, rfl, seen_evolves own sd, hs (hok sd rfl) rfl⟩
    · exact .inl hv
    · exact .inl hv
    · exact .inl hv
  · rw [reload_vars vs y x sd hxy] at hv
    exact .inl hv

theorem get_loaded (own : DbOp → Prop) (x y : Str) (vs : VariableStore) (db : Option SavedData) :
    Loaded own x ⟨some vs, db⟩ ⟨some (vs.get y db).2.1, (vs.get y db).2.2⟩ := by
  unfold VariableStore.get
  cases vs.lookup y with
  | some v => exact Loaded.refl _ _ _
  | none =>
    cases db with
    | none => exact Loaded.refl _ _ _
    | some sd => exact reload_loaded own x y vs sd

theorem execVariable_loaded (own : DbOp → Prop) (x y : Str) (p : Position) :
    (execVariable y p).Rel (Loaded own x) := by
  intro env
  unfold execVariable
  obtain ⟨vars, db⟩ := env
  cases vars with
  | none => exact Loaded.refl _ _ _
  | some vs =>
    have := get_loaded own x y vs db
    simp only
    rcases hg : vs.get y db with ⟨o, vs', db'⟩
    rw [hg] at this
    rcases o with ⟨_ | _⟩ | _ | _ | _ <;> exact this

theorem execute_loaded (own : DbOp → Prop) (x : Str) (m : Machine) (args : Args) (n : Node) :
    (n.execute m args).Rel (Loaded own x) :=
  execute_rel (R := Loaded own x) (Loaded.refl own x) Loaded.trans
    (execVariable_loaded own x) m args n

/-- The variables and the connection of a session. -/
def Session.env (s : Session) : Env := ⟨s.vars, s.db⟩

theorem sessionValue_eq (s : Session) (x : Str) : sessionValue s x = sessionValues s.env x := rfl

/-- The same for sessions. -/
def SLoaded (own : DbOp → Prop) (x : Str) (s s' : Session) : Prop := Loaded own x s.env s'.env

theorem SLoaded.refl (own : DbOp → Prop) (x : Str) (s : Session) : SLoaded own x s s :=
  Loaded.refl _ _ _

theorem SLoaded.trans {own : DbOp → Prop} {x : Str} (a b c : Session) (h : SLoaded own x a b)
    (h' : SLoaded own x b c) : SLoaded own x a c := Loaded.trans _ _ _ h h'

theorem SLoaded.of_vars {own : DbOp → Prop} {x : Str} {s s' : Session} (h : SessRel own s s')
    (hv : s'.vars = s.vars) : SLoaded own x s s' := by
  refine Loaded.of_vars h (fun v hv' => ?_) (by simp only [Session.env]; rw [hv])
  unfold sessionValues Session.env at *
  simp only at *
  rw [hv] at hv'
  exact hv'

theorem andThen_err {σ α β : Type} {t : St σ α} {f : α → St σ β} {s s' : σ} {e : Failure}
    (h : t.andThen f s = (.err e, s')) :
    t s = (.err e, s') ∨ ∃ a s1, t s = (.ok a, s1) ∧ f a s1 = (.err e, s') := by
  unfold St.andThen at h
  rcases hq : t s with ⟨r, s1⟩
  rw [hq] at h
  cases r with
  | ok a => exact .inr ⟨a, s1, rfl, h⟩
  | err e' =>
    simp only [Prod.mk.injEq, Outcome.err.injEq] at h
    rw [h.1, h.2]; exact .inl rfl
  | panic k => simp at h
  | diverge => simp at h

/-- Touching. -/
def IsTouch (op : DbOp) : Prop := ∃ y i, op = .touch y i

theorem touchVars_db (id : Option Int) (l : List Str) (o : Option VariableStore) :
    (match o with
      | some _ => touchAll id l
      | none => fun s => (.ok (), s) : Sess Unit).Rel (SessRel IsTouch) := by
  cases o with
  | none => exact fun s => SessRel.refl _ _
  | some vs => exact touchAll_db id l fun x _ i _ => ⟨x, i, rfl⟩

theorem touchVars_loaded (x : Str) (id : Option Int) (l : List Str) (o : Option VariableStore) :
    (match o with
      | some _ => touchAll id l
      | none => fun s => (.ok (), s) : Sess Unit).Rel (SLoaded IsTouch x) := fun s =>
  SLoaded.of_vars (touchVars_db id l o s) (OnlyDb.vars (touchVars_only id l o s))

/-- A tree that does not assign the variable, or fails with an input error. -/
theorem executeTree_loaded (x : Str) (m : Machine) (tree : SyntaxTree) (id : Option Int) (s : Session)
    (h : (∀ r, tree.resultVar = some r → r.value ≠ x)) :
    SLoaded (TreeOp tree id) x s (executeTree m tree id s).2 := by
  have hl := execute_loaded (TreeOp tree id) x m s.args tree.root ⟨s.vars, s.db⟩
  have hd := treeExecute_db m s.args tree id ⟨s.vars, s.db⟩
  unfold executeTree
  unfold SyntaxTree.execute St.andThen at hd ⊢
  rcases hr : tree.root.execute m s.args ⟨s.vars, s.db⟩ with ⟨r, env⟩
  rw [hr] at hl hd
  cases r with
  | ok q =>
    simp only at hd ⊢
    cases hres : tree.resultVar with
    | none => exact hl
    | some y =>
      rw [hres] at hd
      simp only at hd ⊢
      cases hvars : env.vars with
      | none =>
        have : (⟨none, env.db⟩ : Env) = env := by rw [← hvars]
        unfold SLoaded Session.env
        simp only
        rw [hvars, this]
        exact hl
      | some vs =>
        rw [hvars] at hd
        simp only at hd ⊢
        have hu := update_vars vs ⟨y.value, q⟩ id env.db
        rcases hq : vs.update ⟨y.value, q⟩ id env.db with ⟨r, vs', db'⟩
        rw [hq] at hu hd
        simp only at hu hd
        have hval : ∀ v, vs'.lookup x = some v → sessionValues env x = some v := by
          intro v hv
          rw [hu, lookup_insert, if_neg (fun h' => h y hres h'.symm)] at hv
          unfold sessionValues
          rw [hvars]
          exact hv
        have hdb : OptRel (TreeOp tree id) s.db db' := by cases r <;> exact hd
        have hfin : Loaded (TreeOp tree id) x s.env ⟨some vs', db'⟩ :=
          ⟨hdb, fun hok v hv => hl.2.1 hok v (hval v hv), by
            have := hl.2.2; rw [hvars] at this; exact this⟩
        cases r <;> exact hfin
  | err e => exact hl
  | panic k => exact hl
  | diverge => exact hl

theorem executeTree_input_err (own : DbOp → Prop) (x : Str) {m : Machine} {tree : SyntaxTree}
    {id : Option Int} {s s' : Session} {t : Str} {p : Option Position}
    (h : executeTree m tree id s = (.err (.input t p), s')) : SLoaded own x s s' ∧ KeepsVar x s s' := by
  have hl := execute_loaded own x m s.args tree.root ⟨s.vars, s.db⟩
  have hk := execute_extends m s.args tree.root ⟨s.vars, s.db⟩
  unfold executeTree SyntaxTree.execute St.andThen at h
  rcases hr : tree.root.execute m s.args ⟨s.vars, s.db⟩ with ⟨r, env⟩
  rw [hr] at hl h hk
  cases r with
  | ok q =>
    simp only at h
    cases hres : tree.resultVar with
    | none => rw [hres] at h; simp at h
    | some y =>
      rw [hres] at h
      simp only at h
      cases hvars : env.vars with
      | none =>
        rw [hvars] at h
        simp only [Prod.mk.injEq] at h
        rw [← h.2]
        have : (⟨none, env.db⟩ : Env) = env := by rw [← hvars]
        unfold SLoaded Session.env KeepsVar
        simp only [sessionValue_eq, Session.env]
        rw [hvars, this]
        exact ⟨hl, hk.2 x⟩
      | some vs =>
        rw [hvars] at h
        simp only at h
        rcases hq : vs.update ⟨y.value, q⟩ id env.db with ⟨r, vs', db'⟩
        rw [hq] at h
        cases r <;> simp at h
  | err e =>
    simp only [Prod.mk.injEq] at h
    rw [← h.2]
    exact ⟨hl, hk.2 x⟩
  | panic k => simp at h
  | diverge => simp at h

theorem displayResult_no_err (args : Args) (v : Rat) (e : Failure) : displayResult args v ≠ .err e := by
  have hi : ∀ n r, (intToStrRadix n r : Outcome Failure Str) ≠ .err e := by
    intro n r
    unfold intToStrRadix
    split <;> simp
  unfold displayResult
  split
  · simp
  · unfold makeDecimalString
    simp only
    split
    · simp only [Outcome.bind_ok]
      have := hi (Int.tdiv (ratRound |v * ((((args.convertToRadix.getD args.radix : Nat) : Int) ^ args.precision : Int) : Rat)|)
        (((args.convertToRadix.getD args.radix : Nat) : Int) ^ args.precision)) (args.convertToRadix.getD args.radix)
      revert this
      generalize (intToStrRadix _ _ : Outcome Failure Str) = o
      cases o <;> simp
    · generalize hA : (intToStrRadix (Int.tmod _ _) _ : Outcome Failure Str) = o
      generalize hB : (intToStrRadix (Int.tdiv _ _) _ : Outcome Failure Str) = o'
      have h1 : o ≠ .err e := hA ▸ hi _ _
      have h2 : o' ≠ .err e := hB ▸ hi _ _
      cases o with
      | ok a =>
        simp only [Outcome.bind_ok]
        cases o' with
        | ok b =>
          simp only [Outcome.bind_ok]
          repeat' split
          all_goals simp
        | err e' => simpa using h2
        | panic k => simp
        | diverge => simp
      | err e' => simpa using h1
      | panic k => simp
      | diverge => simp

theorem touchOne_err {id : Option Int} {y : Str} {s s' : Session} {t : Str} {p : Option Position} :
    touchOne id y s ≠ (.err (.input t p), s') := by
  unfold touchOne
  cases s.vars with
  | none => simp
  | some vs =>
    simp only
    rcases vs.touch y id s.db with ⟨_ | _ | _ | _, _, _⟩ <;> simp [Outcome.mapErr]

theorem touchAll_err {id : Option Int} {l : List Str} {s s' : Session} {t : Str} {p : Option Position} :
    touchAll id l s ≠ (.err (.input t p), s') := by
  induction l generalizing s with
  | nil => simp [touchAll]
  | cons y l ih =>
    unfold touchAll St.andThen
    rcases hq : touchOne id y s with ⟨r, s1⟩
    cases r with
    | ok u => exact ih
    | err e =>
      simp only
      intro h
      simp only [Prod.mk.injEq] at h
      exact touchOne_err (s' := s1) (by rw [hq, h.1])
    | panic k => simp
    | diverge => simp

theorem touchVars_err {id : Option Int} {l : List Str} {o : Option VariableStore} {s s' : Session}
    {t : Str} {p : Option Position} :
    (match o with
      | some _ => touchAll id l
      | none => fun s => (.ok (), s) : Sess Unit) s ≠ (.err (.input t p), s') := by
  cases o with
  | none => simp
  | some vs => exact touchAll_err

theorem calculateTokens_loaded (x : Str) (m : Machine) (id : Option Int) (ts : List PTok)
    (hx : ∀ p q rest, ts ≠ ⟨.variable x, p⟩ :: ⟨.assign, q⟩ :: rest) (s : Session) :
    SLoaded (fun op => IsTouch op ∨ ∃ tree, SyntaxTree.new ts = .ok tree ∧ TreeOp tree id op) x s
      (calculateTokens m id ts s).2 := by
  unfold calculateTokens
  refine St.Rel.andThen (R := SLoaded _ x) SLoaded.trans
    (fun s' => Loaded.mono (fun _ h => Or.inl h) (touchVars_loaded x id _ s.vars s')) (fun _ => ?_) s
  split
  · exact fun s => SLoaded.refl _ _ _
  · intro s
    cases hn : SyntaxTree.new ts with
    | ok tree =>
      change SLoaded _ x s ((executeTree m tree id).andThen
        (fun result s => (displayResult s.args result, s)) s).2
      refine St.Rel.andThen (R := SLoaded _ x) SLoaded.trans (fun s =>
        (executeTree_loaded x m tree id s fun r hr he => ?_).mono fun op h => .inr ⟨tree, rfl, h⟩)
        (fun _ s => SLoaded.refl _ _ s) s
      obtain ⟨q, rest, h⟩ := new_resultVar hn hr
      rw [he] at h
      exact hx _ _ _ h
    | err e => exact SLoaded.refl _ _ s
    | panic k => exact SLoaded.refl _ _ s
    | diverge => exact SLoaded.refl _ _ s

theorem calculateTokens_input_err (x : Str) {m : Machine} {id : Option Int} {ts : List PTok}
    {s s' : Session} {t : Str} {p : Option Position}
    (h : calculateTokens m id ts s = (.err (.input t p), s')) :
    SLoaded IsTouch x s s' ∧ KeepsVar x s s' := by
  unfold calculateTokens at h
  rcases andThen_err h with h | ⟨_, s1, h1, h⟩
  · exact absurd h touchVars_err
  · have hl := touchVars_loaded x id (m.hashOrder (variableNames ts)) s.vars s
    have hk := OnlyDb.vars (touchVars_only id (m.hashOrder (variableNames ts)) s.vars s)
    have hs := congrArg Prod.snd h1
    simp only at hs
    have hl : SLoaded IsTouch x s s1 := by rw [← hs]; exact hl
    have hk : KeepsVar x s s1 := KeepsVar.of_eq (by rw [← hs]; exact hk)
    suffices SLoaded IsTouch x s1 s' ∧ KeepsVar x s1 s' from
      ⟨SLoaded.trans _ _ _ hl this.1, KeepsVar.trans _ _ _ hk this.2⟩
    split at h
    · simp at h
    · rcases andThen_err h with h | ⟨tree, s2, h2, h⟩
      · simp only [St.lift, Prod.mk.injEq] at h
        rw [← h.2]; exact ⟨SLoaded.refl _ _ _, KeepsVar.refl _ _⟩
      · simp only [St.lift, Prod.mk.injEq] at h2
        rw [h2.2]
        rcases andThen_err h with h | ⟨v, s3, _, h⟩
        · exact executeTree_input_err _ x h
        · simp only [Prod.mk.injEq] at h
          exact absurd h.1 (displayResult_no_err _ _ _)

/-! ## Commands -/

theorem reloadLoop_loaded (own : DbOp → Prop) (x : Str) : ∀ (l : List Str) (vs : VariableStore)
    (sd : SavedData) (out : Str) (touched : List Str),
    Loaded own x ⟨some vs, some sd⟩ ⟨some (reloadLoop l vs sd out touched).2.1,
      some (reloadLoop l vs sd out touched).2.2⟩
  | [], _, _, _, _ => Loaded.refl _ _ _
  | y :: l, vs, sd, out, touched => by
    unfold reloadLoop
    have := reload_loaded own x y vs sd
    rcases hr : vs.reload y sd with ⟨r, vs', sd'⟩
    rw [hr] at this
    cases r with
    | ok r => exact Loaded.trans _ _ _ this (reloadLoop_loaded own x l vs' sd' _ _)
    | err e => exact this
    | panic k => exact this
    | diverge => exact this

theorem purgeLoop_shrinks (x : Str) : ∀ (l : List Str) (vs : VariableStore) (db : Option SavedData)
    (v : Rat), (purgeLoop l vs db).2.1.lookup x = some v → vs.lookup x = some v
  | [], _, _, _, h => h
  | y :: l, vs, db, v, h => by
    unfold purgeLoop at h
    have := purge_vars vs y x db
    rcases hr : vs.purge y db with ⟨r, vs', db'⟩
    rw [hr] at this h
    simp only at this
    have hvs : vs'.lookup x = some v → vs.lookup x = some v := by
      intro h
      rw [this] at h
      split at h
      · cases h
      · exact h
    cases r with
    | ok r => exact hvs (purgeLoop_shrinks x l vs' db' v h)
    | err e => exact hvs h
    | panic k => exact hvs h
    | diverge => exact hvs h

theorem command_loaded (x : Str) (m : Machine) (ce : CommandExecutor) (cmd : Cmd)
    (arguments : Positioned Str) : (cmd.execute m ce arguments).Rel (SLoaded (CmdOp m cmd arguments) x) := by
  intro s
  have hdb := command_db m ce cmd arguments s
  by_cases h1 : cmd = .reloadVar
  · subst h1
    unfold Cmd.execute
    simp only
    unfold executeReloadVar
    cases ht : tokenizeVariableList arguments.value with
    | ok ts =>
      cases hd : s.db with
      | none => exact SLoaded.refl _ _ _
      | some sd =>
        cases hv : s.vars with
        | none => exact SLoaded.refl _ _ _
        | some vs =>
          unfold SLoaded Session.env
          rw [hv, hd]
          exact reloadLoop_loaded _ x _ vs sd [] []
    | err e => exact SLoaded.refl _ _ _
    | panic k => exact SLoaded.refl _ _ _
    | diverge => exact SLoaded.refl _ _ _
  · by_cases h2 : cmd = .purgeVar
    · subst h2
      refine ⟨hdb, fun _ v hv' => .inl ?_, ?_⟩
      rotate_left
      · unfold Cmd.execute executePurgeVar Session.env
        simp only
        cases tokenizeVariableList arguments.value with
        | ok ts => cases hv : s.vars <;> simp [hv]
        | _ => rfl
      unfold Cmd.execute at hv'
      simp only at hv'
      unfold executePurgeVar at hv'
      revert hv'
      cases ht : tokenizeVariableList arguments.value with
      | ok ts =>
        cases hv : s.vars with
        | none => intro h; exact h
        | some vs =>
          unfold sessionValues Session.env
          simp only
          rw [hv]
          exact purgeLoop_shrinks x _ vs s.db v
      | err e => intro h; exact h
      | panic k => intro h; exact h
      | diverge => intro h; exact h
    · exact SLoaded.of_vars hdb (command_vars_eq m ce cmd arguments s h1 h2)

theorem executeCommand_loaded (x : Str) (m : Machine) (ce : CommandExecutor) (id : Option Int)
    (name arguments : Positioned Str) :
    (ce.executeCommand m name arguments).Rel (SLoaded (CommandOp m ce id name arguments) x) := by
  intro s
  unfold CommandExecutor.executeCommand
  cases hr : ce.resolve name.value with
  | none => exact SLoaded.refl _ _ _
  | some cmd => exact (command_loaded x m ce cmd arguments s).mono fun op h => .inl ⟨cmd, hr, h⟩

theorem calculateCommand_loaded (x : Str) (m : Machine) (ce : CommandExecutor) (id : Option Int)
    (name arguments : Positioned Str) (s : Session) :
    SLoaded (fun op => IsTouch op ∨ CommandOp m ce id name arguments op) x s
      (calculateCommand m ce id name arguments s).2 := by
  unfold calculateCommand
  refine St.Rel.andThen (R := SLoaded _ x) SLoaded.trans
    (fun s' => (executeCommand_loaded x m ce id name arguments s').mono fun _ h => Or.inr h)
    (fun r => ?_) s
  intro s
  refine St.Rel.andThen (R := SLoaded _ x) SLoaded.trans
    (fun s' => (touchVars_loaded x id _ s.vars s').mono fun _ h => Or.inl h)
    (fun _ s => SLoaded.refl _ _ s) s

/-- Commands that fail with an input error do nothing. -/
theorem command_input_err {m : Machine} {ce : CommandExecutor} {cmd : Cmd} {arguments : Positioned Str}
    {s s' : Session} {t : Str} {p : Option Position}
    (h : cmd.execute m ce arguments s = (.err (.input t p), s')) : s' = s := by
  have hbool : ∀ get set, executeBool get set arguments s = (.err (.input t p), s') → s' = s := by
    intro get set h
    unfold executeBool at h
    revert h
    rcases boolArgument arguments with ⟨_ | _⟩ | _ | _ | _ <;> simp
    intro _ h; exact h.symm
  unfold Cmd.execute at h
  cases cmd with
  | help => simp at h; exact h.2.symm
  | reloadVar =>
    simp only at h
    unfold executeReloadVar at h
    revert h
    cases tokenizeVariableList arguments.value with
    | ok ts =>
      cases hd : s.db with
      | none => simp; intro _ _ h; exact h.symm
      | some sd =>
        cases hv : s.vars with
        | none => simp; intro _ _ h; exact h.symm
        | some vs =>
          simp only
          intro h
          exfalso
          simp only [Prod.mk.injEq] at h
          have hloop : ∀ (l : List Str) vs sd out touched,
              (reloadLoop l vs sd out touched).1 ≠ .err (.input t p) := by
            intro l
            induction l with
            | nil => intros; simp [reloadLoop]
            | cons y l ih =>
              intro vs sd out touched
              unfold reloadLoop
              rcases vs.reload y sd with ⟨_ | _ | _ | _, vs', sd'⟩
              · exact ih _ _ _ _
              all_goals simp
          exact hloop _ _ _ _ _ h.1
    | err e => simp; intro _ h; exact h.symm
    | panic k => simp
    | diverge => simp
  | purgeVar =>
    simp only at h
    unfold executePurgeVar at h
    revert h
    cases tokenizeVariableList arguments.value with
    | ok ts =>
      cases hv : s.vars with
      | none => simp; intro _ _ h; exact h.symm
      | some vs =>
        simp only
        intro h
        exfalso
        simp only [Prod.mk.injEq] at h
        have hloop : ∀ (l : List Str) vs db, (purgeLoop l vs db).1 ≠ .err (.input t p) := by
          intro l
          induction l with
          | nil => intros; simp [purgeLoop]
          | cons y l ih =>
            intro vs db
            unfold purgeLoop
            rcases vs.purge y db with ⟨_ | _ | _ | _, vs', db'⟩
            · exact ih _ _
            all_goals simp
        exact hloop _ _ _ h.1
    | err e => simp; intro _ h; exact h.symm
    | panic k => simp
    | diverge => simp
  | histcap =>
    simp only at h
    unfold executeHistcap at h
    revert h
    cases intListArgs arguments.value >>= histcapArgument with
    | ok r =>
      cases hd : s.db with
      | none => simp; intro _ _ h; exact h.symm
      | some sd =>
        cases r with
        | none => simp only; rcases sd.getMaxHistorySize with ⟨_ | _ | _ | _, _⟩ <;> simp
        | some n => simp only; rcases sd.setMaxHistorySize n with ⟨_ | _ | _ | _, _⟩ <;> simp
    | err e => simp; intro _ h; exact h.symm
    | panic k => simp
    | diverge => simp
  | fractional => exact hbool _ _ h
  | upper => exact hbool _ _ h
  | commas => exact hbool _ _ h
  | radix =>
    simp only at h
    unfold executeRadix at h
    revert h
    rcases (intListArgs arguments.value >>= radixArgument) with ⟨_ | _⟩ | _ | _ | _ <;> simp
    intro _ h; exact h.symm
  | convertToRadix =>
    simp only at h
    unfold executeConvertToRadix at h
    revert h
    split
    · simp
    · rcases (intListArgs arguments.value >>= radixArgument) with ⟨_ | _⟩ | _ | _ | _
      · simp only; split <;> simp
      · simp
      · simp; intro _ h; exact h.symm
      · simp
      · simp
  | precision =>
    simp only at h
    unfold executePrecision at h
    revert h
    rcases (intListArgs arguments.value >>= precisionArgument s.args.extraPrecision) with
      ⟨_ | _⟩ | _ | _ | _ <;> simp
    intro _ h; exact h.symm

theorem calculateCommand_input_err {m : Machine} {ce : CommandExecutor} {id : Option Int}
    {name arguments : Positioned Str} {s s' : Session} {t : Str} {p : Option Position}
    (h : calculateCommand m ce id name arguments s = (.err (.input t p), s')) : s' = s := by
  unfold calculateCommand at h
  rcases andThen_err h with h | ⟨⟨out, touched⟩, s1, h1, h⟩
  · unfold CommandExecutor.executeCommand at h
    cases hr : ce.resolve name.value with
    | none => rw [hr] at h; simp at h; exact h.2.symm
    | some cmd => rw [hr] at h; exact command_input_err h
  · simp only at h
    rcases andThen_err h with h | ⟨_, s2, _, h⟩
    · exact absurd h touchVars_err
    · simp at h

theorem recordInput_err {s s' : Session} {t : Str} {p : Option Position} :
    recordInput s ≠ (.err (.input t p), s') := by
  unfold recordInput
  cases s.inputs with
  | none => simp
  | some h =>
    simp only
    rcases h.inputFinished s.db with ⟨_ | _ | _ | _, _, _⟩ <;> simp [Outcome.mapErr]

/-- A failing input only touches variables after it is recorded. -/
theorem calculate_input_err (x : Str) {m : Machine} {ce : CommandExecutor} {line : Str} {s s' : Session}
    {t : Str} {p : Option Position} (h : calculate m ce line s = (.err (.input t p), s')) :
    ∃ id s1, recordInput s = (.ok id, s1) ∧ SLoaded IsTouch x s1 s' ∧ KeepsVar x s1 s' := by
  rw [calculate_eq] at h
  rcases andThen_err h with h | ⟨id, s1, h1, h⟩
  · exact absurd h recordInput_err
  · refine ⟨id, s1, h1, ?_⟩
    unfold afterRecording at h
    revert h
    cases tokenize line s1.args.radix with
    | ok r =>
      cases r with
      | tokens ts => exact calculateTokens_input_err x
      | command name arguments =>
        intro h
        rw [calculateCommand_input_err h]
        exact ⟨SLoaded.refl _ _ _, KeepsVar.refl _ _⟩
    | err e =>
      simp only [Prod.mk.injEq]
      rintro ⟨_, rfl⟩
      exact ⟨SLoaded.refl _ _ _, KeepsVar.refl _ _⟩
    | panic k => simp
    | diverge => simp

/-- The parts of a successful calculation. -/
theorem calculate_tokens_ok {m : Machine} {ce : CommandExecutor} {line : Str} {s s' : Session}
    {out : Str} (h : calculate m ce line s = (.ok out, s')) {ts : List PTok}
    (ht : tokenize line s.args.radix = .ok (.tokens ts)) (hne : ts ≠ []) :
    ∃ id s1 s2 tree v, recordInput s = (.ok id, s1) ∧ SessRel IsTouch s1 s2 ∧ OnlyDb s1 s2 ∧
      s2.vars = s.vars ∧ s2.args = s.args ∧ SyntaxTree.new ts = .ok tree ∧
      executeTree m tree id s2 = (.ok v, s') ∧ displayResult s.args v = .ok out := by
  obtain ⟨ha, hv⟩ := recordInput_args s
  rw [calculate_eq] at h
  obtain ⟨id, s1, h1, h⟩ := andThen_ok h
  rw [h1] at ha hv
  simp only at ha hv
  unfold afterRecording at h
  rw [ha, ht] at h
  simp only at h
  unfold calculateTokens at h
  obtain ⟨_, s2, h2, h⟩ := andThen_ok h
  have h2' := congrArg Prod.snd h2
  simp only at h2'
  have hdb : SessRel IsTouch s1 s2 := by rw [← h2']; exact touchVars_db _ _ _ s1
  have hon : OnlyDb s1 s2 := by rw [← h2']; exact touchVars_only _ _ _ s1
  rw [if_neg hne] at h
  obtain ⟨tree, s3, h3, h⟩ := andThen_ok h
  simp only [St.lift, Prod.mk.injEq] at h3
  obtain ⟨h3, rfl⟩ := h3
  obtain ⟨v, s4, h4, h⟩ := andThen_ok h
  simp only [Prod.mk.injEq] at h
  obtain ⟨h5, rfl⟩ := h
  have hargs := (executeTree_args m tree id s2).1
  rw [h4] at hargs
  refine ⟨id, s1, s2, tree, v, h1, hdb, hon, hon.vars.trans hv, hon.args.trans ha, ?_, h4, ?_⟩
  · revert h3
    cases SyntaxTree.new ts <;> simp [Outcome.mapErr]
  · rw [← h5, hargs, hon.args, ha]

theorem executeTree_assign {m : Machine} {tree : SyntaxTree} {id : Option Int} {s s' : Session} {v : Rat}
    (h : executeTree m tree id s = (.ok v, s')) {x : Positioned Str} (hx : tree.resultVar = some x) :
    ∃ env vs, tree.root.execute m s.args ⟨s.vars, s.db⟩ = (.ok v, env) ∧ env.vars = some vs ∧
      (vs.update ⟨x.value, v⟩ id env.db).1 = .ok () ∧
      s' = { s with vars := some (vs.insert x.value v),
                    db := (vs.update ⟨x.value, v⟩ id env.db).2.2 } := by
  unfold executeTree at h
  rcases hq : tree.execute m s.args id ⟨s.vars, s.db⟩ with ⟨r, env'⟩
  rw [hq] at h
  simp only [Prod.mk.injEq] at h
  obtain ⟨rfl, rfl⟩ := h
  unfold SyntaxTree.execute at hq
  obtain ⟨w, env, h1, h⟩ := andThen_ok hq
  simp only at h
  rw [hx] at h
  simp only at h
  cases hv : env.vars with
  | none => rw [hv] at h; simp at h
  | some vs =>
    rw [hv] at h
    simp only at h
    have hu := update_vars vs ⟨x.value, w⟩ id env.db
    rcases hp : vs.update ⟨x.value, w⟩ id env.db with ⟨r, vs', db'⟩
    rw [hp] at h hu
    simp only at hu
    cases r with
    | ok u =>
      simp only [Prod.mk.injEq, Outcome.ok.injEq] at h
      obtain ⟨rfl, rfl⟩ := h
      refine ⟨env, vs, h1, hv, ?_, ?_⟩
      · rw [hp]
      · rw [hp, ← hu]
    | err e => simp at h
    | panic k => simp at h
    | diverge => simp at h

theorem new_assign {x : Str} {p q : Position} {ts : List PTok} {t : SyntaxTree}
    (h : SyntaxTree.new (⟨.variable x, p⟩ :: ⟨.assign, q⟩ :: ts) = .ok t) :
    t.resultVar = some ⟨x, p⟩ ∧ Expr 4 ts t.root := by
  have h' := (parse_expression_iff (some ⟨x, p⟩) ts t).1 h
  exact ⟨h'.2, h'.1⟩

end Bcalc
