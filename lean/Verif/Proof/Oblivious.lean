import Verif.Proof.HashOrder
import Verif.Spec.Conversation

/-! # What the answers do not depend on -/

namespace Bcalc
open Spec

/-- What the operations of the database see of the connection (all but its position in the history). -/
def seenOf (sd : SavedData) : Db × List EnvStep := (sd.db, sd.env)

theorem seen_eq {a b : SavedData} (h : seenOf a = seenOf b) : a.db = b.db ∧ a.env = b.env := by
  unfold seenOf at h
  exact Prod.mk.inj h

theorem run_seen {α : Type} {a b : SavedData} (h : seenOf a = seenOf b) (tx : Tx α) :
    (a.run tx).1 = (b.run tx).1 ∧ seenOf (a.run tx).2 = seenOf (b.run tx).2 := by
  obtain ⟨h1, h2⟩ := seen_eq h
  unfold SavedData.run SavedData.nextEnv
  simp only
  rw [h1, h2]
  split
  · exact ⟨rfl, rfl⟩
  · rcases tx _ with ⟨x, db'⟩ | e | k | _ <;> exact ⟨rfl, rfl⟩

/-- Corresponding connections. -/
def DbAkin : Option SavedData → Option SavedData → Prop
  | none, none => True
  | some a, some b => seenOf a = seenOf b
  | _, _ => False

structure EnvAkin (a b : Env) : Prop where
  vars : a.vars = b.vars
  db : DbAkin a.db b.db

structure Akin (s s' : Session) : Prop where
  args : s.args = s'.args
  vars : s.vars = s'.vars
  db : DbAkin s.db s'.db

theorem reload_akin (v : VariableStore) {sd sd' : SavedData} (hd : seenOf sd = seenOf sd') (x : Str) :
    (v.reload x sd).1 = (v.reload x sd').1 ∧ (v.reload x sd).2.1 = (v.reload x sd').2.1 ∧
      seenOf (v.reload x sd).2.2 = seenOf (v.reload x sd').2.2 := by
  obtain ⟨h1, h2⟩ := run_seen hd (getVariableTx x)
  unfold VariableStore.reload SavedData.getVariable
  generalize sd.run (getVariableTx x) = c at h1 h2 ⊢
  generalize sd'.run (getVariableTx x) = c' at h1 h2 ⊢
  obtain ⟨r, sd1⟩ := c
  obtain ⟨r', sd1'⟩ := c'
  simp only at h1 h2
  subst h1
  rcases r with (_ | v) | e | k | _ <;> exact ⟨rfl, rfl, h2⟩

theorem get_akin (v : VariableStore) {db db' : Option SavedData} (hd : DbAkin db db') (x : Str) :
    (v.get x db).1 = (v.get x db').1 ∧ (v.get x db).2.1 = (v.get x db').2.1 ∧
      DbAkin (v.get x db).2.2 (v.get x db').2.2 := by
  unfold VariableStore.get
  cases v.lookup x with
  | some w => exact ⟨rfl, rfl, hd⟩
  | none =>
    cases db <;> cases db'
    · exact ⟨rfl, rfl, trivial⟩
    · exact hd.elim
    · exact hd.elim
    · exact reload_akin v hd x

theorem execVariable_akin (x : Str) (p : Position) : Sim EnvAkin (execVariable x p) (execVariable x p) := by
  rintro ⟨vars, db⟩ ⟨vars', db'⟩ ⟨hv, hd⟩
  simp only at hv hd
  subst hv
  unfold execVariable
  cases vars with
  | none => exact ⟨rfl, ⟨rfl, hd⟩⟩
  | some vs =>
    obtain ⟨h1, h2, h3⟩ := get_akin vs hd x
    simp only
    generalize vs.get x db = c at h1 h2 h3 ⊢
    generalize vs.get x db' = c' at h1 h2 h3 ⊢
    obtain ⟨r, vs1, db1⟩ := c
    obtain ⟨r', vs1', db1'⟩ := c'
    simp only at h1 h2 h3
    subst h1 h2
    rcases r with (_ | v) | e | k | _ <;> exact ⟨rfl, ⟨rfl, h3⟩⟩

mutual
theorem execute_akin (m : Machine) (args : Args) : ∀ n : Node, Sim EnvAkin (n.execute m args) (n.execute m args)
  | .number v p => by
    unfold Node.execute
    exact .lift _
  | .variable x p => by
    unfold Node.execute
    exact execVariable_akin x p
  | .unary o p n => by
    unfold Node.execute
    exact (execute_akin m args n).andThen fun v => .lift _
  | .binary o p n n' => by
    unfold Node.execute
    exact (execute_akin m args n).andThen fun v => (execute_akin m args n').andThen fun w => .lift _
  | .function f p ns q => by
    unfold Node.execute
    exact (executeList_akin m args ns).andThen fun v => .lift _
  | .paren p q n => by
    unfold Node.execute
    exact execute_akin m args n
theorem executeList_akin (m : Machine) (args : Args) : ∀ ns : List Node,
    Sim EnvAkin (executeList m args ns) (executeList m args ns)
  | [] => by
    unfold executeList
    exact .lift _
  | n :: ns => by
    unfold executeList
    exact (execute_akin m args n).andThen fun v => (executeList_akin m args ns).andThen fun vs => .lift _
end

theorem update_akin (v : VariableStore) {db db' : Option SavedData} (hd : DbAkin db db') (var : Variable)
    (id : Option Int) :
    (v.update var id db).1 = (v.update var id db').1 ∧ (v.update var id db).2.1 = (v.update var id db').2.1 ∧
      DbAkin (v.update var id db).2.2 (v.update var id db').2.2 := by
  unfold VariableStore.update
  cases db <;> cases db' <;> try exact hd.elim
  · cases id <;> exact ⟨rfl, rfl, trivial⟩
  · cases id with
    | none => exact ⟨rfl, rfl, hd⟩
    | some i =>
      obtain ⟨h1, h2⟩ := run_seen hd (setVariableTx var i)
      unfold SavedData.setVariable
      simp only
      exact ⟨by rw [h1], trivial, h2⟩

theorem treeExecute_akin (m : Machine) (args : Args) (t : SyntaxTree) (id : Option Int) :
    Sim EnvAkin (t.execute m args id) (t.execute m args id) := by
  unfold SyntaxTree.execute
  refine (execute_akin m args t.root).andThen fun v => ?_
  rintro ⟨vars, db⟩ ⟨vars', db'⟩ ⟨hv, hd⟩
  simp only at hv hd ⊢
  subst hv
  cases t.resultVar with
  | none => exact ⟨rfl, ⟨rfl, hd⟩⟩
  | some x =>
    cases vars with
    | none => exact ⟨rfl, ⟨rfl, hd⟩⟩
    | some vs =>
      obtain ⟨h1, h2, h3⟩ := update_akin vs hd ⟨x.value, v⟩ id
      simp only
      generalize vs.update ⟨x.value, v⟩ id db = c at h1 h2 h3 ⊢
      generalize vs.update ⟨x.value, v⟩ id db' = c' at h1 h2 h3 ⊢
      obtain ⟨r, vs1, db1⟩ := c
      obtain ⟨r', vs1', db1'⟩ := c'
      simp only at h1 h2 h3
      subst h1 h2
      rcases r with _ | e | k | _ <;> exact ⟨rfl, ⟨rfl, h3⟩⟩

theorem executeTree_akin (m : Machine) (t : SyntaxTree) (id : Option Int) :
    Sim Akin (executeTree m t id) (executeTree m t id) := by
  rintro s s' ⟨ha, hv, hd⟩
  unfold executeTree
  rw [← ha]
  obtain ⟨h1, h2, h3⟩ := treeExecute_akin m s.args t id ⟨s.vars, s.db⟩ ⟨s'.vars, s'.db⟩ ⟨hv, hd⟩
  generalize t.execute m s.args id ⟨s.vars, s.db⟩ = c at h1 h2 h3 ⊢
  generalize t.execute m s.args id ⟨s'.vars, s'.db⟩ = c' at h1 h2 h3 ⊢
  obtain ⟨r, env⟩ := c
  obtain ⟨r', env'⟩ := c'
  exact ⟨h1, ⟨rfl, h2, h3⟩⟩

theorem touchOne_akin (id : Option Int) (x : Str) : Sim Akin (touchOne id x) (touchOne id x) := by
  rintro s s' ⟨ha, hv, hd⟩
  unfold touchOne
  rw [← hv]
  cases hvs : s.vars with
  | none => exact ⟨rfl, ⟨ha, hv, hd⟩⟩
  | some vs =>
    simp only
    unfold VariableStore.touch
    cases h1 : s.db <;> cases h2 : s'.db <;> rw [h1, h2] at hd
    · cases id <;> exact ⟨rfl, ⟨ha, rfl, trivial⟩⟩
    · exact hd.elim
    · exact hd.elim
    · cases id with
      | none => exact ⟨rfl, ⟨ha, rfl, hd⟩⟩
      | some i =>
        obtain ⟨h1, h2⟩ := run_seen hd (touchVariableTx x i)
        unfold SavedData.touchVariable
        simp only
        exact ⟨by rw [h1], ⟨ha, rfl, h2⟩⟩

theorem touchAll_akin (id : Option Int) : ∀ l : List Str, Sim Akin (touchAll id l) (touchAll id l)
  | [] => fun s s' h => ⟨rfl, h⟩
  | x :: l => by
    unfold touchAll
    exact (touchOne_akin id x).andThen fun _ => touchAll_akin id l

theorem touchVars_akin (id : Option Int) (l : List Str) :
    Sim Akin (fun s => (match s.vars with
        | some _ => touchAll id l
        | none => fun s => (.ok (), s) : Sess Unit) s)
      (fun s => (match s.vars with
        | some _ => touchAll id l
        | none => fun s => (.ok (), s) : Sess Unit) s) := by
  intro s s' h
  simp only
  rw [← h.vars]
  cases s.vars with
  | none => exact ⟨rfl, h⟩
  | some vs => exact touchAll_akin id l s s' h

theorem calculateTokens_akin (m : Machine) (id : Option Int) (tokens : List PTok) :
    Sim Akin (calculateTokens m id tokens) (calculateTokens m id tokens) := by
  intro s s' h
  refine Sim.andThen (t := fun s => (match s.vars with
        | some _ => touchAll id (m.hashOrder (variableNames tokens))
        | none => fun s => (.ok (), s) : Sess Unit) s) (touchVars_akin id _) (fun _ => ?_) s s' h
  intro s s' h
  split
  · exact ⟨rfl, h⟩
  · refine (Sim.andThen (.lift _) fun tree => (executeTree_akin m tree id).andThen fun v => ?_) _ _ h
    rintro w w' hw
    refine ⟨?_, hw⟩
    simp only
    rw [hw.args]

/-! ## Commands -/

theorem Akin.withArgs {s s' : Session} (h : Akin s s') (a : Args) : Akin { s with args := a } { s' with args := a } :=
  ⟨rfl, h.vars, h.db⟩

theorem Akin.isNone {s s' : Session} (h : Akin s s') : s.db.isNone = s'.db.isNone := by
  have := h.db
  cases hv : s.db <;> cases hv' : s'.db <;> rw [hv, hv'] at this
  all_goals first | rfl | exact this.elim

theorem executeHelp_akin (ce : CommandExecutor) (arguments : Positioned Str) {s s' : Session} (h : Akin s s') :
    executeHelp ce arguments s = executeHelp ce arguments s' := by
  have hs : ∀ c : Cmd, c.shortHelp s = c.shortHelp s' := by
    intro c
    unfold Cmd.shortHelp
    rw [h.isNone, h.vars]
  have hl : ∀ c : Cmd, c.longHelp s = c.longHelp s' := by
    intro c
    unfold Cmd.longHelp
    rw [h.isNone, h.vars]
  unfold executeHelp
  simp only [hs, hl]

theorem executeHistcap_akin (arguments : Positioned Str) : Sim Akin (executeHistcap arguments) (executeHistcap arguments) := by
  intro s s' h
  unfold executeHistcap
  rcases intListArgs arguments.value >>= histcapArgument with input | e | k | _
  · simp only
    have hd := h.db
    cases hv : s.db <;> cases hv' : s'.db <;> rw [hv, hv'] at hd
    · exact ⟨rfl, h⟩
    · exact hd.elim
    · exact hd.elim
    · rename_i sd sd'
      simp only
      have hw : ∀ {sd1 sd1'}, seenOf sd1 = seenOf sd1' → Akin { s with db := some sd1 } { s' with db := some sd1' } :=
        fun hsd => ⟨h.args, h.vars, hsd⟩
      cases input with
      | some n =>
        simp only
        unfold SavedData.setMaxHistorySize
        cases validateMaxHistorySize n with
        | error e => exact ⟨rfl, hw hd⟩
        | ok u =>
          obtain ⟨h1, h2⟩ := run_seen hd (setMaxHistorySizeTx n)
          simp only
          generalize sd.run (setMaxHistorySizeTx n) = c at h1 h2 ⊢
          generalize sd'.run (setMaxHistorySizeTx n) = c' at h1 h2 ⊢
          obtain ⟨r, sd1⟩ := c
          obtain ⟨r', sd1'⟩ := c'
          simp only at h1 h2
          subst h1
          rcases r with _ | _ | _ | _ <;> exact ⟨rfl, hw h2⟩
      | none =>
        simp only
        unfold SavedData.getMaxHistorySize
        obtain ⟨h1, h2⟩ := run_seen hd (selectMeta metaMaxHistorySize)
        generalize sd.run (selectMeta metaMaxHistorySize) = c at h1 h2 ⊢
        generalize sd'.run (selectMeta metaMaxHistorySize) = c' at h1 h2 ⊢
        obtain ⟨r, sd1⟩ := c
        obtain ⟨r', sd1'⟩ := c'
        simp only at h1 h2
        subst h1
        rcases r with _ | _ | _ | _ <;> exact ⟨rfl, hw h2⟩
  · exact ⟨rfl, h⟩
  · exact ⟨rfl, h⟩
  · exact ⟨rfl, h⟩

theorem executeBool_akin (get : Args → Bool) (set : Args → Bool → Args) (arguments : Positioned Str) :
    Sim Akin (executeBool get set arguments) (executeBool get set arguments) := by
  intro s s' h
  unfold executeBool
  rw [← h.args]
  rcases boolArgument arguments with (_ | b) | e | k | _
  · exact ⟨rfl, h⟩
  · exact ⟨rfl, h.withArgs _⟩
  · exact ⟨rfl, h⟩
  · exact ⟨rfl, h⟩
  · exact ⟨rfl, h⟩

theorem executeRadix_akin (arguments : Positioned Str) : Sim Akin (executeRadix arguments) (executeRadix arguments) := by
  intro s s' h
  unfold executeRadix
  rw [← h.args]
  rcases intListArgs arguments.value >>= radixArgument with (_ | b) | e | k | _
  · exact ⟨rfl, h⟩
  · exact ⟨rfl, h.withArgs _⟩
  · exact ⟨rfl, h⟩
  · exact ⟨rfl, h⟩
  · exact ⟨rfl, h⟩

theorem executeConvert_akin (arguments : Positioned Str) :
    Sim Akin (executeConvertToRadix arguments) (executeConvertToRadix arguments) := by
  intro s s' h
  unfold executeConvertToRadix
  rw [← h.args]
  split
  · exact ⟨rfl, h.withArgs _⟩
  · rcases intListArgs arguments.value >>= radixArgument with (_ | b) | e | k | _
    · simp only
      cases s.args.convertToRadix <;> exact ⟨rfl, h⟩
    · exact ⟨rfl, h.withArgs _⟩
    · exact ⟨rfl, h⟩
    · exact ⟨rfl, h⟩
    · exact ⟨rfl, h⟩

theorem executePrecision_akin (arguments : Positioned Str) :
    Sim Akin (executePrecision arguments) (executePrecision arguments) := by
  intro s s' h
  unfold executePrecision
  rw [← h.args]
  rcases intListArgs arguments.value >>= precisionArgument s.args.extraPrecision with (_ | ⟨b, c⟩) | e | k | _
  · exact ⟨rfl, h⟩
  · exact ⟨rfl, h.withArgs _⟩
  · exact ⟨rfl, h⟩
  · exact ⟨rfl, h⟩
  · exact ⟨rfl, h⟩

theorem purge_akin (v : VariableStore) {db db' : Option SavedData} (hd : DbAkin db db') (x : Str) :
    (v.purge x db).1 = (v.purge x db').1 ∧ (v.purge x db).2.1 = (v.purge x db').2.1 ∧
      DbAkin (v.purge x db).2.2 (v.purge x db').2.2 := by
  unfold VariableStore.purge
  cases db <;> cases db' <;> try exact hd.elim
  · exact ⟨rfl, rfl, trivial⟩
  · obtain ⟨h1, h2⟩ := run_seen hd (clearVariableTx x)
    unfold SavedData.clearVariable
    simp only
    exact ⟨by rw [h1], trivial, h2⟩

theorem purgeLoop_akin : ∀ (l : List Str) (v : VariableStore) {db db' : Option SavedData} (_ : DbAkin db db'),
    (purgeLoop l v db).1 = (purgeLoop l v db').1 ∧ (purgeLoop l v db).2.1 = (purgeLoop l v db').2.1 ∧
      DbAkin (purgeLoop l v db).2.2 (purgeLoop l v db').2.2
  | [], v, db, db', hd => ⟨rfl, rfl, hd⟩
  | x :: l, v, db, db', hd => by
    obtain ⟨h1, h2, h3⟩ := purge_akin v hd x
    unfold purgeLoop
    generalize v.purge x db = c at h1 h2 h3 ⊢
    generalize v.purge x db' = c' at h1 h2 h3 ⊢
    obtain ⟨r, vs1, db1⟩ := c
    obtain ⟨r', vs1', db1'⟩ := c'
    simp only at h1 h2 h3
    subst h1 h2
    rcases r with _ | e | k | _
    · exact purgeLoop_akin l vs1 h3
    all_goals exact ⟨rfl, rfl, h3⟩

theorem executePurge_akin (m : Machine) (arguments : Positioned Str) :
    Sim Akin (executePurgeVar m arguments) (executePurgeVar m arguments) := by
  intro s s' h
  unfold executePurgeVar
  rcases tokenizeVariableList arguments.value with ts | e | k | _
  · simp only
    rw [← h.vars]
    cases hv : s.vars with
    | none => exact ⟨rfl, h⟩
    | some vs =>
      obtain ⟨h1, h2, h3⟩ := purgeLoop_akin (m.hashOrder (ts.map (·.value))) vs h.db
      simp only
      generalize purgeLoop (m.hashOrder (ts.map (·.value))) vs s.db = c at h1 h2 h3 ⊢
      generalize purgeLoop (m.hashOrder (ts.map (·.value))) vs s'.db = c' at h1 h2 h3 ⊢
      obtain ⟨r, vs1, db1⟩ := c
      obtain ⟨r', vs1', db1'⟩ := c'
      simp only at h1 h2 h3
      subst h1 h2
      exact ⟨rfl, ⟨h.args, rfl, h3⟩⟩
  · exact ⟨rfl, h⟩
  · exact ⟨rfl, h⟩
  · exact ⟨rfl, h⟩

theorem reloadLoop_akin : ∀ (l : List Str) (v : VariableStore) {sd sd' : SavedData} (_ : seenOf sd = seenOf sd')
    (out : Str) (touched : List Str),
    (reloadLoop l v sd out touched).1 = (reloadLoop l v sd' out touched).1 ∧
      (reloadLoop l v sd out touched).2.1 = (reloadLoop l v sd' out touched).2.1 ∧
      seenOf (reloadLoop l v sd out touched).2.2 = seenOf (reloadLoop l v sd' out touched).2.2
  | [], v, sd, sd', hd, out, touched => ⟨rfl, rfl, hd⟩
  | x :: l, v, sd, sd', hd, out, touched => by
    obtain ⟨h1, h2, h3⟩ := reload_akin v hd x
    unfold reloadLoop
    generalize v.reload x sd = c at h1 h2 h3 ⊢
    generalize v.reload x sd' = c' at h1 h2 h3 ⊢
    obtain ⟨r, vs1, db1⟩ := c
    obtain ⟨r', vs1', db1'⟩ := c'
    simp only at h1 h2 h3
    subst h1 h2
    rcases r with (_ | w) | e | k | _
    · exact reloadLoop_akin l vs1 h3 _ _
    · exact reloadLoop_akin l vs1 h3 _ _
    all_goals exact ⟨rfl, rfl, h3⟩

theorem executeReload_akin (m : Machine) (arguments : Positioned Str) :
    Sim Akin (executeReloadVar m arguments) (executeReloadVar m arguments) := by
  intro s s' h
  unfold executeReloadVar
  rcases tokenizeVariableList arguments.value with ts | e | k | _
  · simp only
    have hd := h.db
    cases hv : s.db <;> cases hv' : s'.db <;> rw [hv, hv'] at hd
    · exact ⟨rfl, h⟩
    · exact hd.elim
    · exact hd.elim
    · rename_i sd sd'
      simp only
      rw [← h.vars]
      cases hvs : s.vars with
      | none => exact ⟨rfl, h⟩
      | some vs =>
        obtain ⟨h1, h2, h3⟩ := reloadLoop_akin (m.hashOrder (ts.map (·.value))) vs hd [] []
        simp only
        generalize reloadLoop (m.hashOrder (ts.map (·.value))) vs sd [] [] = c at h1 h2 h3 ⊢
        generalize reloadLoop (m.hashOrder (ts.map (·.value))) vs sd' [] [] = c' at h1 h2 h3 ⊢
        obtain ⟨r, vs1, db1⟩ := c
        obtain ⟨r', vs1', db1'⟩ := c'
        simp only at h1 h2 h3
        subst h1 h2
        exact ⟨rfl, ⟨h.args, rfl, h3⟩⟩
  · exact ⟨rfl, h⟩
  · exact ⟨rfl, h⟩
  · exact ⟨rfl, h⟩

theorem cmdExecute_akin (m : Machine) (ce : CommandExecutor) (c : Cmd) (arguments : Positioned Str) :
    Sim Akin (c.execute m ce arguments) (c.execute m ce arguments) := by
  intro s s' h
  cases c with
  | help =>
    unfold Cmd.execute
    simp only
    exact ⟨executeHelp_akin ce arguments h, h⟩
  | reloadVar => exact executeReload_akin m arguments s s' h
  | purgeVar => exact executePurge_akin m arguments s s' h
  | histcap => exact executeHistcap_akin arguments s s' h
  | fractional => exact executeBool_akin _ _ arguments s s' h
  | radix => exact executeRadix_akin arguments s s' h
  | convertToRadix => exact executeConvert_akin arguments s s' h
  | upper => exact executeBool_akin _ _ arguments s s' h
  | commas => exact executeBool_akin _ _ arguments s s' h
  | precision => exact executePrecision_akin arguments s s' h

theorem calculateCommand_akin (m : Machine) (ce : CommandExecutor) (id : Option Int) (name arguments : Positioned Str) :
    Sim Akin (calculateCommand m ce id name arguments) (calculateCommand m ce id name arguments) := by
  unfold calculateCommand
  refine Sim.andThen ?_ fun a => ?_
  · unfold CommandExecutor.executeCommand
    intro s s' h
    cases ce.resolve name.value with
    | none => exact ⟨rfl, h⟩
    | some c => exact cmdExecute_akin m ce c arguments s s' h
  · obtain ⟨message, touched⟩ := a
    exact Sim.andThen (t := fun s => (match s.vars with
        | some _ => touchAll id touched
        | none => fun s => (.ok (), s) : Sess Unit) s) (touchVars_akin id _)
      (fun _ => (Sim.lift (.ok message) : Sim Akin (St.lift (.ok message) : Sess Str) _))

theorem recordInput_akin {s s' : Session} {line : Str} (h : Akin s s') (ho : Offers s line) (ho' : Offers s' line) :
    (recordInput s).1 = (recordInput s').1 ∧ Akin (recordInput s).2 (recordInput s').2 := by
  obtain ⟨i, hi, hc⟩ := ho
  obtain ⟨i', hi', hc'⟩ := ho'
  obtain ⟨ha, hv, hd⟩ := h
  unfold recordInput
  rw [hi, hi']
  simp only
  unfold InputHistory.inputFinished
  rw [hc, hc']
  simp only
  cases h1 : s.db <;> cases h2 : s'.db <;> rw [h1, h2] at hd
  · exact ⟨rfl, ⟨ha, hv, trivial⟩⟩
  · exact hd.elim
  · exact hd.elim
  · rename_i sd sd'
    simp only
    rw [vecIndex_last, vecIndex_last]
    simp only
    unfold SavedData.addToInputHistory
    obtain ⟨h1, h2⟩ := run_seen hd (addToInputHistoryTx line)
    generalize sd.run (addToInputHistoryTx line) = c at h1 h2 ⊢
    generalize sd'.run (addToInputHistoryTx line) = c' at h1 h2 ⊢
    obtain ⟨r, sd1⟩ := c
    obtain ⟨r', sd1'⟩ := c'
    simp only at h1 h2
    subst h1
    rcases r with _ | _ | _ | _ <;> exact ⟨rfl, ⟨ha, hv, h2⟩⟩

/-- The answer depends on nothing else. -/
theorem calculate_akin (m : Machine) (ce : CommandExecutor) (text : Str) {s s' : Session} {line : Str} (h : Akin s s')
    (ho : Offers s line) (ho' : Offers s' line) :
    (calculate m ce text s).1 = (calculate m ce text s').1 ∧
      Akin (calculate m ce text s).2 (calculate m ce text s').2 := by
  obtain ⟨h1, h2⟩ := recordInput_akin h ho ho'
  unfold calculate St.andThen
  generalize recordInput s = c at h1 h2 ⊢
  generalize recordInput s' = c' at h1 h2 ⊢
  obtain ⟨r, s1⟩ := c
  obtain ⟨r', s1'⟩ := c'
  simp only at h1 h2
  subst h1
  rcases r with id | e | k | _
  · simp only
    rw [← h2.args]
    rcases tokenize text s1.args.radix with (ts | ⟨name, arguments⟩) | e | k | _
    · exact calculateTokens_akin m id ts s1 s1' h2
    · exact calculateCommand_akin m ce id name arguments s1 s1' h2
    all_goals exact ⟨rfl, h2⟩
  all_goals exact ⟨rfl, h2⟩

theorem akin_iff {s s' : Session} : Akin s s' ↔ Interchangeable s s' := by
  constructor
  · rintro ⟨h1, h2, h3⟩
    refine ⟨h1, h2, ?_, ?_⟩
    all_goals
      cases hd : s.db <;> cases hd' : s'.db <;> rw [hd, hd'] at h3
      all_goals first
        | rfl
        | exact h3.elim
        | (obtain ⟨g1, g2⟩ := seen_eq h3
           simp [g1, g2])
  · rintro ⟨h1, h2, h3, h4⟩
    refine ⟨h1, h2, ?_⟩
    cases hd : s.db <;> cases hd' : s'.db <;> rw [hd, hd'] at h3 h4
    · trivial
    · cases h3
    · cases h3
    · simp only [Option.map_some, Option.some.injEq] at h3 h4
      show (_, _) = (_, _)
      rw [h3, h4]

end Bcalc
