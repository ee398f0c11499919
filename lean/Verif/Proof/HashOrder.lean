import Verif.Proof.Session
import Verif.Proof.Table
import Verif.Spec.HashOrder
import Verif.Props.Capacity
import Verif.Props.Lexical

/-! # Two machines that iterate sets in different orders -/

namespace Bcalc
open Spec

/-- Two connections with the same data and position, each alone at its database. -/
structure SdSame (a b : SavedData) : Prop where
  db : a.db = b.db
  position : a.position = b.position
  left : a.env = []
  right : b.env = []

/-- See `SdSame`. -/
def OptSame : Option SavedData → Option SavedData → Prop
  | none, none => True
  | some a, some b => SdSame a b
  | _, _ => False

/-- The same values. -/
def VarsSame : Option VariableStore → Option VariableStore → Prop
  | none, none => True
  | some a, some b => ∀ x, a.lookup x = b.lookup x
  | _, _ => False

/-- See above. -/
structure EnvSame (a b : Env) : Prop where
  vars : VarsSame a.vars b.vars
  db : OptSame a.db b.db

/-- See above. -/
structure Twins (s s' : Session) : Prop where
  args : s.args = s'.args
  inputs : s.inputs = s'.inputs
  vars : VarsSame s.vars s'.vars
  db : OptSame s.db s'.db

/-- From related states the same outcome and related states. -/
def Sim {σ α : Type} (R : σ → σ → Prop) (t t' : St σ α) : Prop :=
  ∀ s s', R s s' → (t s).1 = (t' s').1 ∧ R (t s).2 (t' s').2

theorem Sim.andThen {σ α β : Type} {R : σ → σ → Prop} {t t' : St σ α} {f f' : α → St σ β}
    (h : Sim R t t') (hf : ∀ a, Sim R (f a) (f' a)) : Sim R (t.andThen f) (t'.andThen f') := by
  intro s s' hs
  obtain ⟨h1, h2⟩ := h s s' hs
  unfold St.andThen
  generalize t s = c at h1 h2 ⊢
  generalize t' s' = c' at h1 h2 ⊢
  obtain ⟨r, s1⟩ := c
  obtain ⟨r', s1'⟩ := c'
  simp only at h1 h2
  subst h1
  cases r with
  | ok a => exact hf a s1 s1' h2
  | err e => exact ⟨rfl, h2⟩
  | panic k => exact ⟨rfl, h2⟩
  | diverge => exact ⟨rfl, h2⟩

theorem Sim.lift {σ α : Type} {R : σ → σ → Prop} (o : Outcome Failure α) :
    Sim R (St.lift o : St σ α) (St.lift o) := fun _ _ hs => ⟨rfl, hs⟩

theorem run_same {α : Type} {a b : SavedData} (h : SdSame a b) (tx : Tx α) :
    (a.run tx).1 = (b.run tx).1 ∧ SdSame (a.run tx).2 (b.run tx).2 := by
  rw [run_quiet h.left, run_quiet h.right, h.db]
  rcases tx b.db with ⟨x, db'⟩ | e | k | _
  · exact ⟨rfl, ⟨rfl, h.position, h.left, h.right⟩⟩
  · exact ⟨rfl, h⟩
  · exact ⟨rfl, h⟩
  · exact ⟨rfl, h⟩

theorem insert_same {a b : VariableStore} (h : ∀ x, a.lookup x = b.lookup x) (y : Str) (v : Rat) :
    ∀ x, (a.insert y v).lookup x = (b.insert y v).lookup x := by
  intro x
  rw [lookup_insert, lookup_insert, h]

theorem reload_same {a b : VariableStore} {sd sd' : SavedData} (h : ∀ x, a.lookup x = b.lookup x)
    (hd : SdSame sd sd') (x : Str) :
    (a.reload x sd).1 = (b.reload x sd').1 ∧ (∀ y, (a.reload x sd).2.1.lookup y = (b.reload x sd').2.1.lookup y) ∧
      SdSame (a.reload x sd).2.2 (b.reload x sd').2.2 := by
  obtain ⟨h1, h2⟩ := run_same hd (getVariableTx x)
  unfold VariableStore.reload SavedData.getVariable
  generalize sd.run (getVariableTx x) = c at h1 h2 ⊢
  generalize sd'.run (getVariableTx x) = c' at h1 h2 ⊢
  obtain ⟨r, sd1⟩ := c
  obtain ⟨r', sd1'⟩ := c'
  simp only at h1 h2
  subst h1
  rcases r with (_ | v) | e | k | _
  · exact ⟨rfl, h, h2⟩
  · exact ⟨rfl, insert_same h _ _, h2⟩
  · exact ⟨rfl, h, h2⟩
  · exact ⟨rfl, h, h2⟩
  · exact ⟨rfl, h, h2⟩

theorem get_same {a b : VariableStore} {db db' : Option SavedData} (h : ∀ x, a.lookup x = b.lookup x)
    (hd : OptSame db db') (x : Str) :
    (a.get x db).1 = (b.get x db').1 ∧ (∀ y, (a.get x db).2.1.lookup y = (b.get x db').2.1.lookup y) ∧
      OptSame (a.get x db).2.2 (b.get x db').2.2 := by
  unfold VariableStore.get
  rw [h x]
  cases b.lookup x with
  | some v => exact ⟨rfl, h, hd⟩
  | none =>
    cases db with
    | none =>
      cases db' with
      | none => exact ⟨rfl, h, trivial⟩
      | some sd' => exact hd.elim
    | some sd =>
      cases db' with
      | none => exact hd.elim
      | some sd' => exact reload_same h hd x

theorem execVariable_same (x : Str) (p : Position) : Sim EnvSame (execVariable x p) (execVariable x p) := by
  rintro ⟨vars, db⟩ ⟨vars', db'⟩ ⟨hv, hd⟩
  unfold execVariable
  simp only at hv hd
  cases vars with
  | none =>
    cases vars' with
    | none => exact ⟨rfl, ⟨trivial, hd⟩⟩
    | some _ => exact hv.elim
  | some vs =>
    cases vars' with
    | none => exact hv.elim
    | some vs' =>
      obtain ⟨h1, h2, h3⟩ := get_same hv hd x
      simp only
      generalize vs.get x db = c at h1 h2 h3 ⊢
      generalize vs'.get x db' = c' at h1 h2 h3 ⊢
      obtain ⟨r, vs1, db1⟩ := c
      obtain ⟨r', vs1', db1'⟩ := c'
      simp only at h1 h2 h3
      subst h1
      rcases r with (_ | v) | e | k | _ <;> exact ⟨rfl, ⟨h2, h3⟩⟩

/-- The machines differ at most in the order in which they iterate sets. -/
structure SameMachine (m m' : Machine) : Prop where
  checks : m.overflowChecks = m'.overflowChecks
  fuel : m.fuel = m'.fuel

theorem SameMachine.eq {m m' : Machine} (h : SameMachine m m') : ∃ o f g g', m = ⟨o, f, g⟩ ∧ m' = ⟨o, f, g'⟩ := by
  obtain ⟨o, f, g⟩ := m
  obtain ⟨o', f', g'⟩ := m'
  obtain ⟨h1, h2⟩ := h
  simp only at h1 h2
  subst h1 h2
  exact ⟨o, f, g, g', rfl, rfl⟩

theorem applyUnary_machine {m m' : Machine} (h : SameMachine m m') (args : Args) (o : UnOp) (p : Position) (a : Rat) :
    applyUnary m args o p a = applyUnary m' args o p a := by
  obtain ⟨oc, f, g, g', rfl, rfl⟩ := h.eq
  rfl

theorem applyBinary_machine {m m' : Machine} (h : SameMachine m m') (args : Args) (o : BinOp) (p : Position) (a b : Rat) :
    applyBinary m args o p a b = applyBinary m' args o p a b := by
  obtain ⟨oc, f, g, g', rfl, rfl⟩ := h.eq
  rfl

mutual
theorem execute_same {m m' : Machine} (hm : SameMachine m m') (args : Args) : ∀ n : Node,
    Sim EnvSame (n.execute m args) (n.execute m' args)
  | .number v p => by
    unfold Node.execute
    exact .lift _
  | .variable x p => by
    unfold Node.execute
    exact execVariable_same x p
  | .unary o p n => by
    unfold Node.execute
    refine (execute_same hm args n).andThen fun v => ?_
    rw [applyUnary_machine hm]
    exact .lift _
  | .binary o p n n' => by
    unfold Node.execute
    refine (execute_same hm args n).andThen fun v => (execute_same hm args n').andThen fun w => ?_
    rw [applyBinary_machine hm]
    exact .lift _
  | .function f p ns q => by
    unfold Node.execute
    exact (executeList_same hm args ns).andThen fun v => .lift _
  | .paren p q n => by
    unfold Node.execute
    exact execute_same hm args n
theorem executeList_same {m m' : Machine} (hm : SameMachine m m') (args : Args) : ∀ ns : List Node,
    Sim EnvSame (executeList m args ns) (executeList m' args ns)
  | [] => by
    unfold executeList
    exact .lift _
  | n :: ns => by
    unfold executeList
    exact (execute_same hm args n).andThen fun v => (executeList_same hm args ns).andThen fun vs => .lift _
end

theorem update_same {a b : VariableStore} {db db' : Option SavedData} (h : ∀ x, a.lookup x = b.lookup x)
    (hd : OptSame db db') (var : Variable) (id : Option Int) :
    (a.update var id db).1 = (b.update var id db').1 ∧
      (∀ y, (a.update var id db).2.1.lookup y = (b.update var id db').2.1.lookup y) ∧
      OptSame (a.update var id db).2.2 (b.update var id db').2.2 := by
  unfold VariableStore.update
  cases db with
  | none =>
    cases db' with
    | some _ => exact hd.elim
    | none => cases id <;> exact ⟨rfl, insert_same h _ _, trivial⟩
  | some sd =>
    cases db' with
    | none => exact hd.elim
    | some sd' =>
      cases id with
      | none => exact ⟨rfl, insert_same h _ _, hd⟩
      | some i =>
        obtain ⟨h1, h2⟩ := run_same hd (setVariableTx var i)
        unfold SavedData.setVariable
        simp only
        exact ⟨by rw [h1], insert_same h _ _, h2⟩

theorem treeExecute_same {m m' : Machine} (hm : SameMachine m m') (args : Args) (t : SyntaxTree) (id : Option Int) :
    Sim EnvSame (t.execute m args id) (t.execute m' args id) := by
  unfold SyntaxTree.execute
  refine (execute_same hm args t.root).andThen fun v => ?_
  rintro ⟨vars, db⟩ ⟨vars', db'⟩ ⟨hv, hd⟩
  simp only at hv hd ⊢
  cases t.resultVar with
  | none => exact ⟨rfl, ⟨hv, hd⟩⟩
  | some x =>
    cases vars with
    | none =>
      cases vars' with
      | none => exact ⟨rfl, ⟨trivial, hd⟩⟩
      | some _ => exact hv.elim
    | some vs =>
      cases vars' with
      | none => exact hv.elim
      | some vs' =>
        obtain ⟨h1, h2, h3⟩ := update_same hv hd ⟨x.value, v⟩ id
        simp only
        generalize vs.update ⟨x.value, v⟩ id db = c at h1 h2 h3 ⊢
        generalize vs'.update ⟨x.value, v⟩ id db' = c' at h1 h2 h3 ⊢
        obtain ⟨r, vs1, db1⟩ := c
        obtain ⟨r', vs1', db1'⟩ := c'
        simp only at h1 h2 h3
        subst h1
        rcases r with _ | e | k | _ <;> exact ⟨rfl, ⟨h2, h3⟩⟩

theorem executeTree_same {m m' : Machine} (hm : SameMachine m m') (t : SyntaxTree) (id : Option Int) :
    Sim Twins (executeTree m t id) (executeTree m' t id) := by
  rintro s s' ⟨ha, hi, hv, hd⟩
  unfold executeTree
  rw [← ha]
  obtain ⟨h1, h2, h3⟩ := treeExecute_same hm s.args t id ⟨s.vars, s.db⟩ ⟨s'.vars, s'.db⟩ ⟨hv, hd⟩
  generalize t.execute m s.args id ⟨s.vars, s.db⟩ = c at h1 h2 h3 ⊢
  generalize t.execute m' s.args id ⟨s'.vars, s'.db⟩ = c' at h1 h2 h3 ⊢
  obtain ⟨r, env⟩ := c
  obtain ⟨r', env'⟩ := c'
  exact ⟨h1, ⟨rfl, hi, h2, h3⟩⟩

theorem recordInput_same : Sim Twins recordInput recordInput := by
  rintro s s' ⟨ha, hi, hv, hd⟩
  unfold recordInput
  rw [← hi]
  cases hin : s.inputs with
  | none =>
    rw [hin] at hi
    exact ⟨rfl, ⟨ha, hin.trans hi, hv, hd⟩⟩
  | some h =>
    simp only
    unfold InputHistory.inputFinished
    rcases (h.currentLine : Outcome RuntimeErr Str) with line | e | k | _
    · simp only
      cases hdb : s.db with
      | none =>
        rw [hdb] at hd
        cases hdb' : s'.db with
        | some _ => rw [hdb'] at hd; exact hd.elim
        | none => exact ⟨rfl, ⟨ha, rfl, hv, trivial⟩⟩
      | some sd =>
        rw [hdb] at hd
        cases hdb' : s'.db with
        | none => rw [hdb'] at hd; exact hd.elim
        | some sd' =>
          rw [hdb'] at hd
          simp only
          rw [vecIndex_last]
          simp only
          unfold SavedData.addToInputHistory
          obtain ⟨h1, h2⟩ := run_same hd (addToInputHistoryTx line)
          generalize sd.run (addToInputHistoryTx line) = c at h1 h2 ⊢
          generalize sd'.run (addToInputHistoryTx line) = c' at h1 h2 ⊢
          obtain ⟨r, sd1⟩ := c
          obtain ⟨r', sd1'⟩ := c'
          simp only at h1 h2
          subst h1
          rcases r with _ | _ | _ | _ <;> exact ⟨rfl, ⟨ha, rfl, hv, h2⟩⟩
    · exact ⟨rfl, ⟨ha, rfl, hv, hd⟩⟩
    · exact ⟨rfl, ⟨ha, rfl, hv, hd⟩⟩
    · exact ⟨rfl, ⟨ha, rfl, hv, hd⟩⟩

/-! ## Touching -/

/-- The variables are marked as last used by the input. -/
def marked (l : List Str) (i : Int) (db : Db) : Db :=
  { db with vars := db.vars.map fun v => if v.name ∈ l then { v with lastUsedBy := i } else v }

theorem fkOk_marked {l : List Str} {i : Int} {db : Db} (h : db.fkOk = true) (hi : db.hasId i = true) :
    (marked l i db).fkOk = true := by
  unfold Db.fkOk at h ⊢
  simp only [Bool.and_eq_true] at h ⊢
  refine ⟨⟨h.1.1, h.1.2⟩, ?_⟩
  rw [List.all_eq_true]
  intro v hv
  obtain ⟨w, hw, rfl⟩ := List.mem_map.1 hv
  split
  · exact hi
  · exact List.all_eq_true.1 h.2 w hw

theorem touch_quiet {sd : SavedData} (hq : sd.env = []) (hf : sd.db.fkOk = true) {i : Int}
    (hi : sd.db.hasId i = true) (x : Str) :
    sd.touchVariable x i = (.ok (), { sd with db := marked [x] i sd.db, commits := sd.commits ++ [marked [x] i sd.db] }) := by
  have : touchVariableTx x i sd.db = .ok ((), marked [x] i sd.db) := by
    unfold touchVariableTx exec
    have hfk := fkOk_marked (l := [x]) hf hi
    unfold marked at hfk ⊢
    simp only [List.mem_singleton] at hfk ⊢
    simp only [hfk, if_true]
  unfold SavedData.touchVariable
  rw [run_quiet hq, this]

theorem marked_marked (x : Str) (l : List Str) (i : Int) (db : Db) :
    marked l i (marked [x] i db) = marked (x :: l) i db := by
  unfold marked
  simp only [List.map_map, Db.mk.injEq, true_and]
  apply List.map_congr_left
  intro v _
  simp only [Function.comp, List.mem_cons]
  by_cases h1 : v.name = x <;> by_cases h2 : v.name ∈ l <;> simp [h1, h2]

theorem marked_nil (i : Int) (db : Db) : marked [] i db = db := by
  unfold marked
  simp

/-- The number belongs to an input of the history, if there is a database. -/
def IdOk (id : Option Int) : Option SavedData → Prop
  | none => id = none
  | some sd => sd.env = [] ∧ Reachable sd.db ∧ ∃ i, id = some i ∧ sd.db.hasId i = true

theorem reachable_fk {db : Db} (h : Reachable db) : db.fkOk = true :=
  h.rep.elim fun _ hst => (fkOk_iff db).2 hst.wf.fk

theorem touchAll_quiet : ∀ (l : List Str) {s : Session} {sd : SavedData} {i : Int} (_ : s.db = some sd)
    (_ : sd.env = []) (_ : sd.db.fkOk = true) (_ : sd.db.hasId i = true) (_ : s.vars.isSome = true),
    ∃ c, touchAll (some i) l s = (.ok (), { s with db := some { sd with db := marked l i sd.db, commits := c } })
  | [], s, sd, i, hd, hq, hf, hi, hv => ⟨sd.commits, by
      unfold touchAll
      rw [marked_nil, ← hd]⟩
  | x :: l, s, sd, i, hd, hq, hf, hi, hv => by
    obtain ⟨vs, hvs⟩ := Option.isSome_iff_exists.1 hv
    have h1 : touchOne (some i) x s = (.ok (), { s with
        db := some { sd with db := marked [x] i sd.db, commits := sd.commits ++ [marked [x] i sd.db] } }) := by
      unfold touchOne
      rw [hvs]
      simp only
      unfold VariableStore.touch
      rw [hd]
      simp only
      rw [touch_quiet hq hf hi]
      simp only [liftDb, Outcome.mapErr]
    obtain ⟨c, hc⟩ := touchAll_quiet l (s := { s with
        db := some { sd with db := marked [x] i sd.db, commits := sd.commits ++ [marked [x] i sd.db] } })
      rfl hq (fkOk_marked hf hi) hi hv
    refine ⟨c, ?_⟩
    unfold touchAll
    rw [andThen_of_ok h1, hc]
    simp only
    rw [marked_marked]

theorem touchAll_none : ∀ (l : List Str) {s : Session} (_ : s.db = none), touchAll none l s = (.ok (), s)
  | [], s, _ => rfl
  | x :: l, s, hd => by
    have h1 : touchOne none x s = (.ok (), s) := by
      unfold touchOne
      cases hv : s.vars with
      | none => rfl
      | some vs =>
        simp only
        unfold VariableStore.touch
        rw [hd]
        simp only [Outcome.mapErr]
        rw [← hv, ← hd]
    unfold touchAll
    rw [andThen_of_ok h1, touchAll_none l hd]

theorem marked_congr {l l' : List Str} (h : ∀ x, x ∈ l ↔ x ∈ l') (i : Int) (db : Db) : marked l i db = marked l' i db := by
  unfold marked
  simp only [h]

theorem Twins.isSome {s s' : Session} (h : Twins s s') : s.vars.isSome = s'.vars.isSome := by
  have := h.vars
  cases hv : s.vars <;> cases hv' : s'.vars <;> rw [hv, hv'] at this
  all_goals first | rfl | exact this.elim

/-- Touching the same variables in another order. -/
theorem touchVars_same {l l' : List Str} (h : ∀ x, x ∈ l ↔ x ∈ l') {id : Option Int} {s s' : Session} (ht : Twins s s')
    (hid : IdOk id s.db) :
    ((match s.vars with
        | some _ => touchAll id l
        | none => fun s => (.ok (), s) : Sess Unit) s).1 = .ok () ∧
    ((match s'.vars with
        | some _ => touchAll id l'
        | none => fun s => (.ok (), s) : Sess Unit) s').1 = .ok () ∧
    Twins ((match s.vars with
        | some _ => touchAll id l
        | none => fun s => (.ok (), s) : Sess Unit) s).2
      ((match s'.vars with
        | some _ => touchAll id l'
        | none => fun s => (.ok (), s) : Sess Unit) s').2 := by
  have hsome := ht.isSome
  cases hv : s.vars with
  | none =>
    rw [hv] at hsome
    cases hv' : s'.vars with
    | some _ => rw [hv'] at hsome; cases hsome
    | none => exact ⟨rfl, rfl, ht⟩
  | some vs =>
    rw [hv] at hsome
    cases hv' : s'.vars with
    | none => rw [hv'] at hsome; cases hsome
    | some vs' =>
      simp only
      have hdd := ht.db
      cases hd : s.db with
      | none =>
        rw [hd] at hid hdd
        cases hd' : s'.db with
        | some _ => rw [hd'] at hdd; exact hdd.elim
        | none =>
          have hn : id = none := hid
          subst hn
          rw [touchAll_none l hd, touchAll_none l' hd']
          exact ⟨rfl, rfl, ht⟩
      | some sd =>
        rw [hd] at hid hdd
        obtain ⟨hq, hr, i, rfl, hi⟩ := hid
        cases hd' : s'.db with
        | none => rw [hd'] at hdd; exact hdd.elim
        | some sd' =>
          rw [hd'] at hdd
          have hsd : SdSame sd sd' := hdd
          obtain ⟨c, hc⟩ := touchAll_quiet l hd hq (reachable_fk hr) hi (by rw [hv]; rfl)
          obtain ⟨c', hc'⟩ := touchAll_quiet l' hd' hsd.right (hsd.db ▸ reachable_fk hr) (hsd.db ▸ hi) (by rw [hv']; rfl)
          rw [hc, hc']
          exact ⟨rfl, rfl, ⟨ht.args, ht.inputs, ht.vars, ⟨by simp only; rw [hsd.db, marked_congr h], hsd.position, hq, hsd.right⟩⟩⟩

theorem touchVars_nil (id : Option Int) (s : Session) :
    ((match s.vars with
        | some _ => touchAll id []
        | none => fun s => (.ok (), s) : Sess Unit) s) = (.ok (), s) := by
  cases s.vars <;> rfl

/-! ## Purging -/

/-- Without the variables of the list. -/
def purged (l : List Str) (db : Db) : Db := { db with vars := db.vars.filter fun v => v.name ∉ l }

theorem fkOk_purged {l : List Str} {db : Db} (h : db.fkOk = true) : (purged l db).fkOk = true := by
  unfold Db.fkOk at h ⊢
  simp only [Bool.and_eq_true] at h ⊢
  refine ⟨⟨h.1.1, h.1.2⟩, ?_⟩
  rw [List.all_eq_true]
  intro v hv
  exact List.all_eq_true.1 h.2 v (List.mem_filter.1 hv).1

theorem purged_purged (x : Str) (l : List Str) (db : Db) : purged l (purged [x] db) = purged (x :: l) db := by
  unfold purged
  simp only [List.filter_filter, Db.mk.injEq, true_and]
  apply List.filter_congr
  intro v _
  by_cases h1 : v.name = x <;> by_cases h2 : v.name ∈ l <;> simp [h1, h2]

theorem purged_congr {l l' : List Str} (h : ∀ x, x ∈ l ↔ x ∈ l') (db : Db) : purged l db = purged l' db := by
  unfold purged
  simp only [h]

theorem purge_quiet {sd : SavedData} (hq : sd.env = []) (hf : sd.db.fkOk = true) (x : Str) :
    sd.clearVariable x = (.ok (), { sd with db := purged [x] sd.db, commits := sd.commits ++ [purged [x] sd.db] }) := by
  have : clearVariableTx x sd.db = .ok ((), purged [x] sd.db) := by
    unfold clearVariableTx exec
    have hfk := fkOk_purged (l := [x]) hf
    unfold purged at hfk ⊢
    simp only [List.mem_singleton] at hfk ⊢
    simp only [ne_eq, hfk, if_true]
  unfold SavedData.clearVariable
  rw [run_quiet hq, this]

theorem lookup_assocRemove (x y : Str) (vs : VariableStore) :
    (⟨assocRemove x vs.vars⟩ : VariableStore).lookup y = if y = x then none else vs.lookup y := by
  unfold VariableStore.lookup
  obtain ⟨l⟩ := vs
  simp only
  induction l with
  | nil => simp [assocRemove, assocGet]
  | cons kv l ih =>
    unfold assocRemove at ih ⊢
    rw [List.filter_cons]
    by_cases hk : kv.1 = x
    · simp only [hk, ne_eq, not_true_eq_false, decide_false, Bool.false_eq_true, if_false]
      rw [ih]
      by_cases hy : y = x
      · simp [hy]
      · rw [if_neg hy, if_neg hy]
        obtain ⟨k, v⟩ := kv
        simp only at hk
        subst hk
        simp [assocGet, Ne.symm hy]
    · simp only [hk, ne_eq, not_false_eq_true, decide_true, if_true]
      obtain ⟨k, v⟩ := kv
      simp only at hk
      by_cases hyk : y = k
      · subst hyk
        simp [assocGet, hk]
      · simp only [assocGet]
        rw [if_neg (Ne.symm hyk), if_neg (Ne.symm hyk), ih]

/-- What purging leaves. -/
theorem purgeLoop_quiet : ∀ (l : List Str) (vs : VariableStore) (sd : SavedData) (_ : sd.env = []) (_ : sd.db.fkOk = true),
    ∃ vs' c, purgeLoop l vs (some sd) = (.ok (msg doneMsg), vs', some { sd with db := purged l sd.db, commits := c }) ∧
      ∀ y, vs'.lookup y = if y ∈ l then none else vs.lookup y
  | [], vs, sd, hq, hf => ⟨vs, sd.commits, by
      unfold purgeLoop purged
      simp, by simp⟩
  | x :: l, vs, sd, hq, hf => by
    obtain ⟨vs', c, h1, h2⟩ := purgeLoop_quiet l ⟨assocRemove x vs.vars⟩
      { sd with db := purged [x] sd.db, commits := sd.commits ++ [purged [x] sd.db] } hq (fkOk_purged hf)
    refine ⟨vs', c, ?_, ?_⟩
    · unfold purgeLoop VariableStore.purge
      simp only
      rw [purge_quiet hq hf]
      simp only [liftDb, Outcome.mapErr]
      rw [h1]
      simp only
      rw [purged_purged]
    · intro y
      rw [h2, lookup_assocRemove]
      by_cases hy : y = x <;> by_cases hl : y ∈ l <;> simp [hy, hl]

theorem purgeLoop_none : ∀ (l : List Str) (vs : VariableStore),
    ∃ vs', purgeLoop l vs none = (.ok (msg doneMsg), vs', none) ∧
      ∀ y, vs'.lookup y = if y ∈ l then none else vs.lookup y
  | [], vs => ⟨vs, rfl, by simp⟩
  | x :: l, vs => by
    obtain ⟨vs', h1, h2⟩ := purgeLoop_none l ⟨assocRemove x vs.vars⟩
    refine ⟨vs', ?_, ?_⟩
    · unfold purgeLoop VariableStore.purge
      simp only
      rw [h1]
    · intro y
      rw [h2, lookup_assocRemove]
      by_cases hy : y = x <;> by_cases hl : y ∈ l <;> simp [hy, hl]

/-! ## Reloading -/

theorem reloadLine_unique {db : Db} (hu : Reachable db) {x t t' : Str} (h : ReloadLine db x t) (h' : ReloadLine db x t') :
    t = t' := by
  rcases h with ⟨q, h1, h2⟩ | ⟨h1, h2⟩ <;> rcases h' with ⟨q', h1', h2'⟩ | ⟨h1', h2'⟩
  · rw [h2, h2', stored_unique hu.unique h1 h1']
  · exact absurd h1 (h1' q)
  · exact absurd h1' (h1 q')
  · rw [h2, h2']

theorem forall₂_unique {α β : Type} {R : α → β → Prop} (hR : ∀ a b b', R a b → R a b' → b = b') :
    ∀ {l : List α} {t t' : List β}, List.Forall₂ R l t → List.Forall₂ R l t' → t = t'
  | [], _, _, .nil, .nil => rfl
  | _ :: _, _, _, .cons h hs, .cons h' hs' => by rw [hR _ _ _ h h', forall₂_unique hR hs hs']

theorem forall₂_left_mem {α β : Type} {R : α → β → Prop} : ∀ {l : List α} {t : List β}, List.Forall₂ R l t →
    ∀ {a}, a ∈ l → ∃ b ∈ t, R a b
  | [], _, .nil, _, h => by cases h
  | _ :: _, _, .cons h hs, _, ha => by
    rcases List.mem_cons.1 ha with rfl | ha
    · exact ⟨_, by simp, h⟩
    · obtain ⟨b, hb, hab⟩ := forall₂_left_mem hs ha
      exact ⟨b, by simp [hb], hab⟩

theorem forall₂_right_mem {α β : Type} {R : α → β → Prop} : ∀ {l : List α} {t : List β}, List.Forall₂ R l t →
    ∀ {b}, b ∈ t → ∃ a ∈ l, R a b
  | _, [], .nil, _, h => by cases h
  | _, _ :: _, .cons h hs, _, hb => by
    rcases List.mem_cons.1 hb with rfl | hb
    · exact ⟨_, by simp, h⟩
    · obtain ⟨b, hb, hab⟩ := forall₂_right_mem hs hb
      exact ⟨b, by simp [hb], hab⟩

theorem reload_position (vs : VariableStore) (x : Str) (sd : SavedData) : (vs.reload x sd).2.2.position = sd.position := by
  have : (sd.run (getVariableTx x)).2.position = sd.position := by
    unfold SavedData.run
    simp only
    split
    · rfl
    · split <;> rfl
  unfold VariableStore.reload SavedData.getVariable
  generalize sd.run (getVariableTx x) = c at this ⊢
  obtain ⟨r, sd1⟩ := c
  rcases r with (_ | v) | e | k | _ <;> exact this

theorem reloadLoop_position : ∀ (l : List Str) (vs : VariableStore) (sd : SavedData) (out : Str) (touched : List Str),
    (reloadLoop l vs sd out touched).2.2.position = sd.position
  | [], vs, sd, out, touched => rfl
  | x :: l, vs, sd, out, touched => by
    have h := reload_position vs x sd
    unfold reloadLoop
    simp only
    generalize vs.reload x sd = c at h ⊢
    obtain ⟨r, vs1, sd1⟩ := c
    simp only at h
    rcases r with r | e | k | _
    · simp only
      rw [reloadLoop_position l, h]
    · exact h
    · exact h
    · exact h

theorem texts_perm {db : Db} (hu : Reachable db) {l l' t t' : List Str} (hp : l.Perm l')
    (h : List.Forall₂ (ReloadLine db) l t) (h' : List.Forall₂ (ReloadLine db) l' t') : t.Perm t' := by
  obtain ⟨w, hw, hwt⟩ := List.perm_comp_forall₂ hp h'
  have := forall₂_unique (R := ReloadLine db) (fun a b b' h1 h2 => reloadLine_unique hu h1 h2) h hw
  subst this
  exact hwt

theorem natToStr_no_newline (n : Nat) : '\n' ∉ natToStr 10 n := by
  intro h
  obtain ⟨ds, hd⟩ : ∃ ds, Digits 10 (natToStr 10 n) ds := ⟨_, natToStr_digits (by decide) (by decide) n⟩
  obtain ⟨d, _, hd1, hd2⟩ := forall₂_left_mem hd h
  rcases hd1 with ⟨_, hd1⟩ | ⟨h1, _⟩
  · have : ('\n' : Char).toNat = 10 := rfl
    have : ('0' : Char).toNat = 48 := rfl
    omega
  · omega

theorem intDisplay_no_newline (n : Int) : '\n' ∉ intDisplay n := by
  unfold intDisplay
  rw [List.mem_append, not_or]
  refine ⟨?_, natToStr_no_newline _⟩
  split <;> decide

theorem ratDisplay_no_newline (q : Rat) : '\n' ∉ ratDisplay q := by
  unfold ratDisplay
  split
  · exact intDisplay_no_newline _
  · simp only [List.mem_append, List.mem_cons, not_or]
    exact ⟨intDisplay_no_newline _, by decide, intDisplay_no_newline _⟩

theorem reloadLine_no_newline {db : Db} {x t : Str} (hx : '\n' ∉ x) (h : ReloadLine db x t) : '\n' ∉ t := by
  rcases h with ⟨q, _, rfl⟩ | ⟨_, rfl⟩
  · simp only [List.mem_append, not_or]
    exact ⟨⟨⟨by decide, hx⟩, by decide⟩, ratDisplay_no_newline q⟩
  · simp only [List.mem_append, not_or]
    exact ⟨hx, by decide⟩

theorem reloadLines_ne_nil {db : Db} {l ts : List Str} (h : List.Forall₂ (ReloadLine db) l ts) : ∀ t ∈ ts, t ≠ [] := by
  intro t ht
  obtain ⟨x, _, hx⟩ := forall₂_right_mem h ht
  rcases hx with ⟨q, _, rfl⟩ | ⟨_, rfl⟩
  · simp
  · simp

theorem lexes_variable_no_newline {radix pos : Nat} {text : Str} {ts : List PTok} (h : Lexes radix pos text ts) :
    ∀ t ∈ ts, ∀ x, t.value = .variable x → '\n' ∉ x := by
  induction h with
  | done => simp
  | blank _ _ ih => exact ih
  | symbol hs _ ih =>
    intro t ht x hx
    rcases List.mem_cons.1 ht with rfl | ht
    · simp only at hx
      subst hx
      cases hs
    · exact ih t ht x hx
  | word _ hw _ hword _ ih =>
    intro t ht x hx
    rcases List.mem_cons.1 ht with rfl | ht
    · simp only at hx
      subst hx
      cases hword with
      | «variable» _ =>
        intro hn
        exact (hw _ hn).1 (.inr (.inr (.inl rfl)))
    · exact ih t ht x hx

theorem variableList_no_newline {text : Str} {ns : List (Positioned Str)} (h : tokenizeVariableList text = .ok ns) :
    ∀ x ∈ ns.map (·.value), '\n' ∉ x := by
  obtain ⟨_, _, ts, hl, hf⟩ := (C09_variable_list_iff text ns).1 h
  have hnn := lexes_variable_no_newline hl
  clear hl h
  induction hf with
  | nil => simp
  | cons hd _ ih =>
    intro x hx
    simp only [List.map_cons, List.mem_cons] at hx
    rcases hx with rfl | hx
    · exact hnn _ (by simp) _ hd.1
    · exact ih (fun t ht => hnn t (by simp [ht])) x hx

/-! ## Commands -/

/-- Corresponding outcomes. -/
def OutSame {α : Type} (Q : α → α → Prop) : Outcome Failure α → Outcome Failure α → Prop
  | .ok a, .ok b => Q a b
  | .err e, .err e' => e = e'
  | .panic k, .panic k' => k = k'
  | .diverge, .diverge => True
  | _, _ => False

/-- The message and the touched variables correspond. -/
def CmdSame (a b : CmdResult) : Prop := a = b ∧ a.2 = [] ∨ SameLines a.1 b.1 ∧ ∀ x, x ∈ a.2 ↔ x ∈ b.2

theorem OutSame.of_eq {α : Type} {Q : α → α → Prop} {r r' : Outcome Failure α} (h : r = r') (hq : ∀ a, r = .ok a → Q a a) :
    OutSame Q r r' := by
  subst h
  rcases r with a | e | k | _
  · exact hq a rfl
  · rfl
  · rfl
  · trivial

theorem Sim.lift' {σ α : Type} {R : σ → σ → Prop} {t t' : St σ α} (h : ∀ s s', R s s' → t s = ((t s).1, s) ∧ t' s' = ((t s).1, s')) :
    Sim R t t' := by
  intro s s' hs
  obtain ⟨h1, h2⟩ := h s s' hs
  rw [h2]
  refine ⟨rfl, ?_⟩
  rw [h1]
  exact hs

theorem executeHelp_same (ce : CommandExecutor) (arguments : Positioned Str) {s s' : Session} (h : Twins s s') :
    executeHelp ce arguments s = executeHelp ce arguments s' := by
  have h1 := h.isSome
  have h2 : s.db.isNone = s'.db.isNone := by
    have := h.db
    cases hv : s.db <;> cases hv' : s'.db <;> rw [hv, hv'] at this
    all_goals first | rfl | exact this.elim
  have h3 : s.vars.isNone = s'.vars.isNone := by
    cases hv : s.vars <;> cases hv' : s'.vars <;> rw [hv, hv'] at h1
    all_goals first | rfl | cases h1
  have hs : ∀ c : Cmd, c.shortHelp s = c.shortHelp s' := by
    intro c
    unfold Cmd.shortHelp
    rw [h2, h3]
  have hl : ∀ c : Cmd, c.longHelp s = c.longHelp s' := by
    intro c
    unfold Cmd.longHelp
    rw [h2, h3]
  unfold executeHelp
  simp only [hs, hl]

theorem Twins.withArgs {s s' : Session} (h : Twins s s') (a : Args) : Twins { s with args := a } { s' with args := a } :=
  ⟨rfl, h.inputs, h.vars, h.db⟩

theorem executeHistcap_same (arguments : Positioned Str) : Sim Twins (executeHistcap arguments) (executeHistcap arguments) := by
  intro s s' h
  unfold executeHistcap
  rcases intListArgs arguments.value >>= histcapArgument with input | e | k | _
  · simp only
    have hd := h.db
    cases hv : s.db with
    | none =>
      cases hv' : s'.db with
      | none => exact ⟨rfl, h⟩
      | some _ => rw [hv, hv'] at hd; exact hd.elim
    | some sd =>
      cases hv' : s'.db with
      | none => rw [hv, hv'] at hd; exact hd.elim
      | some sd' =>
        rw [hv, hv'] at hd
        simp only
        have hw : ∀ {sd1 sd1'}, SdSame sd1 sd1' → Twins { s with db := some sd1 } { s' with db := some sd1' } :=
          fun hsd => ⟨h.args, h.inputs, h.vars, hsd⟩
        cases input with
        | some n =>
          simp only
          unfold SavedData.setMaxHistorySize
          cases validateMaxHistorySize n with
          | error e => exact ⟨rfl, hw hd⟩
          | ok u =>
            obtain ⟨h1, h2⟩ := run_same hd (setMaxHistorySizeTx n)
            simp only
            generalize sd.run (setMaxHistorySizeTx n) = c at h1 h2 ⊢
            generalize sd'.run (setMaxHistorySizeTx n) = c' at h1 h2 ⊢
            obtain ⟨r, sd1⟩ := c
            obtain ⟨r', sd1'⟩ := c'
            simp only at h1 h2
            subst h1
            rcases r with _ | _ | _ | _ <;> exact ⟨rfl, hw h2⟩
        | none =>
          simp only
          unfold SavedData.getMaxHistorySize
          obtain ⟨h1, h2⟩ := run_same hd (selectMeta metaMaxHistorySize)
          generalize sd.run (selectMeta metaMaxHistorySize) = c at h1 h2 ⊢
          generalize sd'.run (selectMeta metaMaxHistorySize) = c' at h1 h2 ⊢
          obtain ⟨r, sd1⟩ := c
          obtain ⟨r', sd1'⟩ := c'
          simp only at h1 h2
          subst h1
          rcases r with _ | _ | _ | _ <;> exact ⟨rfl, hw h2⟩
  · exact ⟨rfl, h⟩
  · exact ⟨rfl, h⟩
  · exact ⟨rfl, h⟩

theorem executeBool_same (get : Args → Bool) (set : Args → Bool → Args) (arguments : Positioned Str) :
    Sim Twins (executeBool get set arguments) (executeBool get set arguments) := by
  intro s s' h
  unfold executeBool
  rw [← h.args]
  rcases boolArgument arguments with (_ | b) | e | k | _
  · exact ⟨rfl, h⟩
  · exact ⟨rfl, h.withArgs _⟩
  · exact ⟨rfl, h⟩
  · exact ⟨rfl, h⟩
  · exact ⟨rfl, h⟩

theorem executeRadix_same (arguments : Positioned Str) : Sim Twins (executeRadix arguments) (executeRadix arguments) := by
  intro s s' h
  unfold executeRadix
  rw [← h.args]
  rcases intListArgs arguments.value >>= radixArgument with (_ | b) | e | k | _
  · exact ⟨rfl, h⟩
  · exact ⟨rfl, h.withArgs _⟩
  · exact ⟨rfl, h⟩
  · exact ⟨rfl, h⟩
  · exact ⟨rfl, h⟩

theorem executeConvert_same (arguments : Positioned Str) :
    Sim Twins (executeConvertToRadix arguments) (executeConvertToRadix arguments) := by
  intro s s' h
  unfold executeConvertToRadix
  rw [← h.args]
  split
  · exact ⟨rfl, h.withArgs _⟩
  · rcases intListArgs arguments.value >>= radixArgument with (_ | b) | e | k | _
    · simp only
      cases s.args.convertToRadix <;> exact ⟨rfl, h⟩
    · exact ⟨rfl, h.withArgs _⟩
    · exact ⟨rfl, h⟩
    · exact ⟨rfl, h⟩
    · exact ⟨rfl, h⟩

theorem executePrecision_same (arguments : Positioned Str) :
    Sim Twins (executePrecision arguments) (executePrecision arguments) := by
  intro s s' h
  unfold executePrecision
  rw [← h.args]
  rcases intListArgs arguments.value >>= precisionArgument s.args.extraPrecision with (_ | ⟨b, c⟩) | e | k | _
  · exact ⟨rfl, h⟩
  · exact ⟨rfl, h.withArgs _⟩
  · exact ⟨rfl, h⟩
  · exact ⟨rfl, h⟩
  · exact ⟨rfl, h⟩

theorem executePurge_same {m m' : Machine} (ho : HashOk m) (ho' : HashOk m') (arguments : Positioned Str)
    {s s' : Session} (h : Twins s s') (hr : ∀ sd, s.db = some sd → Reachable sd.db) :
    (executePurgeVar m arguments s).1 = (executePurgeVar m' arguments s').1 ∧
      Twins (executePurgeVar m arguments s).2 (executePurgeVar m' arguments s').2 := by
  unfold executePurgeVar
  rcases tokenizeVariableList arguments.value with ts | e | k | _
  · simp only
    have hmem : ∀ x, x ∈ m.hashOrder (ts.map (·.value)) ↔ x ∈ m'.hashOrder (ts.map (·.value)) := fun x => by
      rw [hash_mem ho, hash_mem ho']
    generalize m.hashOrder (ts.map (·.value)) = l at hmem ⊢
    generalize m'.hashOrder (ts.map (·.value)) = l' at hmem ⊢
    have hv := h.vars
    cases hvs : s.vars with
    | none =>
      cases hvs' : s'.vars with
      | none => exact ⟨rfl, h⟩
      | some _ => rw [hvs, hvs'] at hv; exact hv.elim
    | some vs =>
      cases hvs' : s'.vars with
      | none => rw [hvs, hvs'] at hv; exact hv.elim
      | some vs' =>
        rw [hvs, hvs'] at hv
        simp only
        have hd := h.db
        cases hdb : s.db with
        | none =>
          cases hdb' : s'.db with
          | some _ => rw [hdb, hdb'] at hd; exact hd.elim
          | none =>
            obtain ⟨w, h1, h2⟩ := purgeLoop_none l vs
            obtain ⟨w', h1', h2'⟩ := purgeLoop_none l' vs'
            rw [h1, h1']
            refine ⟨rfl, ⟨h.args, h.inputs, fun y => ?_, trivial⟩⟩
            rw [h2, h2', hv y]
            simp only [hmem]
        | some sd =>
          cases hdb' : s'.db with
          | none => rw [hdb, hdb'] at hd; exact hd.elim
          | some sd' =>
            rw [hdb, hdb'] at hd
            have hsd : SdSame sd sd' := hd
            have hfk := reachable_fk (hr sd hdb)
            obtain ⟨w, c, h1, h2⟩ := purgeLoop_quiet l vs sd hsd.left hfk
            obtain ⟨w', c', h1', h2'⟩ := purgeLoop_quiet l' vs' sd' hsd.right (hsd.db ▸ hfk)
            rw [h1, h1']
            refine ⟨rfl, ⟨h.args, h.inputs, fun y => ?_, ⟨?_, hsd.position, hsd.left, hsd.right⟩⟩⟩
            · rw [h2, h2', hv y]
              simp only [hmem]
            · simp only
              rw [hsd.db, purged_congr hmem]
  · exact ⟨rfl, h⟩
  · exact ⟨rfl, h⟩
  · exact ⟨rfl, h⟩

/-- Reloading: the same values, and the same lines. -/
theorem executeReload_same {m m' : Machine} (ho : HashOk m) (ho' : HashOk m') (arguments : Positioned Str)
    {s s' : Session} (h : Twins s s') (hr : ∀ sd, s.db = some sd → Reachable sd.db) :
    OutSame (fun a b => SameLines a.1 b.1 ∧ ∀ x, x ∈ a.2 ↔ x ∈ b.2) (executeReloadVar m arguments s).1
        (executeReloadVar m' arguments s').1 ∧
      Twins (executeReloadVar m arguments s).2 (executeReloadVar m' arguments s').2 ∧
      (executeReloadVar m arguments s).2.db.map (·.db) = s.db.map (·.db) := by
  unfold executeReloadVar
  rcases hts : tokenizeVariableList arguments.value with ts | e | k | _
  · simp only
    have hnn := variableList_no_newline hts
    have hmem : ∀ x, x ∈ m.hashOrder (ts.map (·.value)) ↔ x ∈ m'.hashOrder (ts.map (·.value)) := fun x => by
      rw [hash_mem ho, hash_mem ho']
    have hperm : (m.hashOrder (ts.map (·.value))).Perm (m'.hashOrder (ts.map (·.value))) := (ho _).trans (ho' _).symm
    have hnl : ∀ x ∈ m.hashOrder (ts.map (·.value)), '\n' ∉ x := fun x hx => hnn x ((hash_mem ho).1 hx)
    generalize m.hashOrder (ts.map (·.value)) = l at hmem hperm hnl ⊢
    generalize m'.hashOrder (ts.map (·.value)) = l' at hmem hperm ⊢
    have hd := h.db
    cases hdb : s.db with
    | none =>
      cases hdb' : s'.db with
      | some _ => rw [hdb, hdb'] at hd; exact hd.elim
      | none => exact ⟨rfl, h, by rw [hdb]⟩
    | some sd =>
      cases hdb' : s'.db with
      | none => rw [hdb, hdb'] at hd; exact hd.elim
      | some sd' =>
        rw [hdb, hdb'] at hd
        have hsd : SdSame sd sd' := hd
        simp only
        have hv := h.vars
        cases hvs : s.vars with
        | none =>
          cases hvs' : s'.vars with
          | none => exact ⟨rfl, h, by rw [hdb]⟩
          | some _ => rw [hvs, hvs'] at hv; exact hv.elim
        | some vs =>
          cases hvs' : s'.vars with
          | none => rw [hvs, hvs'] at hv; exact hv.elim
          | some vs' =>
            rw [hvs, hvs'] at hv
            simp only
            have hreach := hr sd hdb
            obtain ⟨texts, w, sd1, h1, h2, h3, h4, h5⟩ := reloadLoop_quiet l sd hsd.left hreach vs [] []
            obtain ⟨texts', w', sd1', h1', h2', h3', h4', h5'⟩ :=
              reloadLoop_quiet l' sd' hsd.right (hsd.db ▸ hreach) vs' [] []
            have hp := reloadLoop_position l vs sd [] []
            have hp' := reloadLoop_position l' vs' sd' [] []
            rw [h1] at hp ⊢
            rw [h1'] at hp' ⊢
            simp only at hp hp' ⊢
            rw [← hsd.db] at h4' h5' h2'
            refine ⟨⟨⟨texts, texts', texts_perm hreach hperm h4 h4', ?_, ?_, ?_⟩, ?_⟩,
              ⟨h.args, h.inputs, fun y => ?_, ⟨?_, ?_, h3, h3'⟩⟩, ?_⟩
            · intro t ht
              obtain ⟨x, hx, hxt⟩ := forall₂_right_mem h4 ht
              exact reloadLine_no_newline (hnl x hx) hxt
            · exact joinAfter_nil _ (reloadLines_ne_nil h4)
            · exact joinAfter_nil _ (reloadLines_ne_nil h4')
            · simpa using hmem
            · by_cases hy : y ∈ l
              · have hy' := (hmem y).1 hy
                by_cases hst : ∃ q, Stored sd.db y q
                · obtain ⟨q, hq⟩ := hst
                  rw [((h5 y).2 hy).1 q hq, ((h5' y).2 hy').1 q hq]
                · rw [((h5 y).2 hy).2 (fun q hq => hst ⟨q, hq⟩), ((h5' y).2 hy').2 (fun q hq => hst ⟨q, hq⟩), hv y]
              · rw [(h5 y).1 hy, (h5' y).1 (fun hc => hy ((hmem y).2 hc)), hv y]
            · rw [h2, h2']
            · rw [hp, hp', hsd.position]
            · simp [h2]
  · exact ⟨rfl, h, rfl⟩
  · exact ⟨rfl, h, rfl⟩
  · exact ⟨trivial, h, rfl⟩

/-- Commands other than reloading: the same outcome. -/
theorem executeOther_same {m m' : Machine} (ho : HashOk m) (ho' : HashOk m') (ce : CommandExecutor) (c : Cmd)
    (hc : c ≠ .reloadVar) (arguments : Positioned Str) {s s' : Session} (h : Twins s s')
    (hr : ∀ sd, s.db = some sd → Reachable sd.db) :
    (c.execute m ce arguments s).1 = (c.execute m' ce arguments s').1 ∧
      Twins (c.execute m ce arguments s).2 (c.execute m' ce arguments s').2 := by
  cases c with
  | help =>
    unfold Cmd.execute
    simp only
    exact ⟨executeHelp_same ce arguments h, h⟩
  | reloadVar => exact absurd rfl hc
  | purgeVar => exact executePurge_same ho ho' arguments h hr
  | histcap => exact executeHistcap_same arguments s s' h
  | fractional => exact executeBool_same _ _ arguments s s' h
  | radix => exact executeRadix_same arguments s s' h
  | convertToRadix => exact executeConvert_same arguments s s' h
  | upper => exact executeBool_same _ _ arguments s s' h
  | commas => exact executeBool_same _ _ arguments s s' h
  | precision => exact executePrecision_same arguments s s' h

theorem andThen_same {α : Type} {A B : Sess Unit} {F G : Unit → Sess α} {s s' : Session} (h1 : (A s).1 = .ok ())
    (h2 : (B s').1 = .ok ()) (h3 : Twins (A s).2 (B s').2) (hF : Sim Twins (F ()) (G ())) :
    ((A.andThen F) s).1 = ((B.andThen G) s').1 ∧ Twins ((A.andThen F) s).2 ((B.andThen G) s').2 := by
  have e1 : A s = (.ok (), (A s).2) := by rw [← h1]
  have e2 : B s' = (.ok (), (B s').2) := by rw [← h2]
  rw [andThen_of_ok e1, andThen_of_ok e2]
  exact hF _ _ h3

theorem touch_answer {A B : Sess Unit} {t t' : Str} {s s' : Session} (h1 : (A s).1 = .ok ())
    (h2 : (B s').1 = .ok ()) (h3 : Twins (A s).2 (B s').2) :
    ((A.andThen fun _ s => (.ok t, s)) s).1 = .ok t ∧ ((B.andThen fun _ s => (.ok t', s)) s').1 = .ok t' ∧
      Twins ((A.andThen fun _ s => (.ok t, s)) s).2 ((B.andThen fun _ s => (.ok t', s)) s').2 := by
  have e1 : A s = (.ok (), (A s).2) := by rw [← h1]
  have e2 : B s' = (.ok (), (B s').2) := by rw [← h2]
  rw [andThen_of_ok e1, andThen_of_ok e2]
  exact ⟨rfl, rfl, h3⟩

theorem touch_answer' {A B : Sess Unit} {t : Str} {s s' : Session} (h1 : A s = (.ok (), s))
    (h2 : B s' = (.ok (), s')) (h3 : Twins s s') :
    ((A.andThen fun _ s => (.ok t, s)) s).1 = .ok t ∧ ((B.andThen fun _ s => (.ok t, s)) s').1 = .ok t ∧
      Twins ((A.andThen fun _ s => (.ok t, s)) s).2 ((B.andThen fun _ s => (.ok t, s)) s').2 :=
  touch_answer (by rw [h1]) (by rw [h2]) (by rw [h1, h2]; exact h3)

theorem calculateTokens_same {m m' : Machine} (hm : SameMachine m m') (ho : HashOk m) (ho' : HashOk m') {id : Option Int}
    (tokens : List PTok) {s s' : Session} (h : Twins s s') (hid : IdOk id s.db) :
    (calculateTokens m id tokens s).1 = (calculateTokens m' id tokens s').1 ∧
      Twins (calculateTokens m id tokens s).2 (calculateTokens m' id tokens s').2 := by
  have hmem : ∀ x, x ∈ m.hashOrder (variableNames tokens) ↔ x ∈ m'.hashOrder (variableNames tokens) := fun x => by
    rw [hash_mem ho, hash_mem ho']
  obtain ⟨h1, h2, h3⟩ := touchVars_same hmem h hid
  unfold calculateTokens
  refine andThen_same h1 h2 h3 ?_
  intro s s' h3
  split
  · exact ⟨rfl, h3⟩
  · refine (Sim.andThen (.lift _) fun tree => (executeTree_same hm tree id).andThen fun v => ?_) _ _ h3
    rintro w w' hw
    refine ⟨?_, hw⟩
    simp only
    rw [hw.args]

/-- The answers of two machines to the same line. -/
def AnswerSame (reload : Prop) (r r' : Outcome Failure Str) : Prop :=
  r = r' ∨ reload ∧ ∃ t t', r = .ok t ∧ r' = .ok t' ∧ SameLines t t'

theorem calculateCommand_same {m m' : Machine} (ho : HashOk m) (ho' : HashOk m') (ce : CommandExecutor) {id : Option Int}
    (name arguments : Positioned Str) {s s' : Session} (h : Twins s s') (hid : IdOk id s.db) :
    AnswerSame (ce.resolve name.value = some .reloadVar) (calculateCommand m ce id name arguments s).1
        (calculateCommand m' ce id name arguments s').1 ∧
      Twins (calculateCommand m ce id name arguments s).2 (calculateCommand m' ce id name arguments s').2 := by
  have hr : ∀ sd, s.db = some sd → Reachable sd.db := fun sd hsd => by
    rw [hsd] at hid
    exact hid.2.1
  unfold calculateCommand CommandExecutor.executeCommand
  cases hres : ce.resolve name.value with
  | none => exact ⟨.inl rfl, h⟩
  | some c =>
    by_cases hc : c = .reloadVar
    · subst hc
      obtain ⟨h1, h2, h3⟩ := executeReload_same ho ho' arguments h hr
      unfold St.andThen
      simp only [Cmd.execute]
      generalize executeReloadVar m arguments s = o at h1 h2 h3 ⊢
      generalize executeReloadVar m' arguments s' = o' at h1 h2 ⊢
      obtain ⟨r, s1⟩ := o
      obtain ⟨r', s1'⟩ := o'
      simp only at h1 h2 h3
      rcases r with ⟨t, l⟩ | e | k | _ <;> rcases r' with ⟨t', l'⟩ | e' | k' | _
      all_goals first
        | exact h1.elim
        | skip
      · obtain ⟨g1, g2⟩ := h1
        simp only at g1 g2 ⊢
        have hid1 : IdOk id s1.db := by
          cases hd : s.db with
          | none =>
            rw [hd] at hid h3
            cases hd1 : s1.db with
            | none => exact hid
            | some _ => rw [hd1] at h3; cases h3
          | some sd =>
            rw [hd] at hid h3
            cases hd1 : s1.db with
            | none => rw [hd1] at h3; cases h3
            | some sd1 =>
              rw [hd1] at h3
              simp only [Option.map_some, Option.some.injEq] at h3
              have henv : sd1.env = [] := by
                have := h2.db
                rw [hd1] at this
                cases hd1' : s1'.db with
                | none => rw [hd1'] at this; exact this.elim
                | some sd1' => rw [hd1'] at this; exact this.left
              refine ⟨henv, ?_⟩
              rw [h3]
              exact hid.2
        obtain ⟨k1, k2, k3⟩ := touchVars_same g2 h2 hid1
        obtain ⟨j1, j2, j3⟩ := touch_answer (t := t) (t' := t') k1 k2 k3
        exact ⟨.inr ⟨by simp, t, t', j1, j2, g1⟩, j3⟩
      · have : e = e' := h1
        subst this
        exact ⟨.inl rfl, h2⟩
      · have : k = k' := h1
        subst this
        exact ⟨.inl rfl, h2⟩
      · exact ⟨.inl rfl, h2⟩
    · obtain ⟨h1, h2⟩ := executeOther_same ho ho' ce c hc arguments h hr
      have ht := fun out touched s' => msg_touched (out := out) (touched := touched) (s' := s') hc m ce arguments s
      unfold St.andThen
      simp only
      generalize c.execute m ce arguments s = o at h1 h2 ht ⊢
      generalize c.execute m' ce arguments s' = o' at h1 h2 ⊢
      obtain ⟨r, s1⟩ := o
      obtain ⟨r', s1'⟩ := o'
      simp only at h1 h2 ht
      subst h1
      rcases r with ⟨t, l⟩ | e | k | _
      · have hl : l = [] := ht _ _ _ rfl
        subst hl
        simp only
        have e1 := touchVars_nil id s1
        have e2 := touchVars_nil id s1'
        obtain ⟨j1, j2, j3⟩ := touch_answer' (t := t) e1 e2 h2
        exact ⟨.inl (j1.trans j2.symm), j3⟩
      · exact ⟨.inl rfl, h2⟩
      · exact ⟨.inl rfl, h2⟩
      · exact ⟨.inl rfl, h2⟩

theorem recorded_idOk {s s1 : Session} {id : Option Int} (hi : s.inputs.isSome = true ∨ s.db = none) (hq : Quiet s)
    (hr : ∀ sd, s.db = some sd → Reachable sd.db) (h : recordInput s = (.ok id, s1)) : IdOk id s1.db := by
  cases hd : s.db with
  | none =>
    unfold recordInput at h
    cases hin : s.inputs with
    | none =>
      rw [hin] at h
      simp only [Prod.mk.injEq, Outcome.ok.injEq] at h
      obtain ⟨rfl, rfl⟩ := h
      rw [hd]
      rfl
    | some i =>
      rw [hin, hd] at h
      unfold InputHistory.inputFinished at h
      simp only at h
      rcases hc : (i.currentLine : Outcome RuntimeErr Str) with line | e | k | _
      all_goals
        rw [hc] at h
        simp only [Outcome.mapErr, Prod.mk.injEq, Outcome.ok.injEq, reduceCtorEq, false_and] at h
      obtain ⟨rfl, rfl⟩ := h
      rfl
  | some sd =>
    obtain ⟨i, hin⟩ : ∃ i, s.inputs = some i := by
      rcases hi with hi | hi
      · exact Option.isSome_iff_exists.1 hi
      · rw [hd] at hi; cases hi
    rcases hc : (i.currentLine : Outcome RuntimeErr Str) with line | e | k | _
    · obtain ⟨j, hj⟩ := recordInput_quiet hin hc hd (hr sd hd) hq
      obtain ⟨st, hrep⟩ := (hr sd hd).rep
      obtain ⟨sd1, _, g2, g3⟩ := recordInput_cases hin hc hd
      unfold SavedData.addToInputHistory at g2 g3
      obtain ⟨db', hx, hrep'⟩ := hrep.add line
      have hdb' : (DbOp.add line).apply sd.db = db' := commit_ok hx
      rw [run_quiet (hq sd hd), hx, h] at g3
      simp only [Outcome.ok.injEq] at g3
      rw [hj] at h
      simp only [Prod.mk.injEq, Outcome.ok.injEq] at h
      obtain ⟨h1, rfl⟩ := h
      refine ⟨hq sd hd, Reachable.apply (hr sd hd) (.add line), _, g3, ?_⟩
      simp only
      rw [hasId_iff, hdb', hrep'.mem_ids]
      have h1 := hrep'.wf.capPos
      have h2 := hrep'.le_len
      unfold Store.step Store.trim at h1 h2 ⊢
      unfold Store.Has
      simp only [List.length_append, List.length_singleton] at h1 h2 ⊢
      omega
    all_goals
      unfold recordInput at h
      rw [hin] at h
      unfold InputHistory.inputFinished at h
      simp only at h
      rw [hc] at h
      simp [Outcome.mapErr] at h

/-- Corresponding outcomes and states after one line. -/
theorem calculate_same {m m' : Machine} (hm : SameMachine m m') (ho : HashOk m) (ho' : HashOk m') (ce : CommandExecutor)
    (line : Str) {s s' : Session} (h : Twins s s') (hi : s.inputs.isSome = true ∨ s.db = none)
    (hr : ∀ sd, s.db = some sd → Reachable sd.db) :
    AnswerSame (∃ name arguments, tokenize line s.args.radix = .ok (.command name arguments) ∧
        ce.resolve name.value = some .reloadVar) (calculate m ce line s).1 (calculate m' ce line s').1 ∧
      Twins (calculate m ce line s).2 (calculate m' ce line s').2 := by
  have hq : Quiet s := by
    intro sd hsd
    have := h.db
    rw [hsd] at this
    cases hd' : s'.db with
    | none => rw [hd'] at this; exact this.elim
    | some sd' => rw [hd'] at this; exact this.left
  rw [calculate_eq, calculate_eq]
  obtain ⟨h1, h2⟩ := recordInput_same s s' h
  have hargs := (recordInput_args s).1
  have hok := fun id s1 => recorded_idOk (id := id) (s1 := s1) hi hq hr
  unfold St.andThen
  generalize recordInput s = c at h1 h2 hok hargs ⊢
  generalize recordInput s' = c' at h1 h2 ⊢
  obtain ⟨r, s1⟩ := c
  obtain ⟨r', s1'⟩ := c'
  simp only at h1 h2 hargs
  subst h1
  rcases r with id | e | k | _
  · have hid := hok id s1 rfl
    simp only
    unfold afterRecording
    rw [← h2.args, hargs]
    rcases tokenize line s.args.radix with (ts | ⟨name, arguments⟩) | e | k | _
    · obtain ⟨g1, g2⟩ := calculateTokens_same hm ho ho' ts h2 hid
      exact ⟨.inl g1, g2⟩
    · obtain ⟨g1, g2⟩ := calculateCommand_same ho ho' ce name arguments h2 hid
      refine ⟨?_, g2⟩
      rcases g1 with g1 | ⟨g0, g1⟩
      · exact .inl g1
      · exact .inr ⟨⟨name, arguments, rfl, g0⟩, g1⟩
    · exact ⟨.inl rfl, h2⟩
    · exact ⟨.inl rfl, h2⟩
    · exact ⟨.inl rfl, h2⟩
  · exact ⟨.inl rfl, h2⟩
  · exact ⟨.inl rfl, h2⟩
  · exact ⟨.inl rfl, h2⟩

theorem SameSession.twins {s s' : Session} (h : SameSession s s') (hq : Quiet s) (hq' : Quiet s') : Twins s s' := by
  refine ⟨h.args, h.inputs, ?_, ?_⟩
  · have h1 := h.store
    have h2 := h.values
    unfold sessionValue at h2
    cases hv : s.vars <;> cases hv' : s'.vars <;> rw [hv, hv'] at h1 <;> rw [hv, hv'] at h2
    · trivial
    · cases h1
    · cases h1
    · exact h2
  · have h1 := h.saved
    have h2 := h.position
    cases hd : s.db <;> cases hd' : s'.db <;> rw [hd, hd'] at h1 h2
    · trivial
    · cases h1
    · cases h1
    · simp only [Option.map_some, Option.some.injEq] at h1 h2
      exact ⟨h1, h2, hq _ hd, hq' _ hd'⟩

theorem Twins.same {s s' : Session} (h : Twins s s') : SameSession s s' ∧ Quiet s ∧ Quiet s' := by
  refine ⟨⟨h.args, h.inputs, h.isSome, fun x => ?_, ?_, ?_⟩, fun sd hsd => ?_, fun sd hsd => ?_⟩
  · have h2 := h.vars
    unfold sessionValue
    cases hv : s.vars <;> cases hv' : s'.vars <;> rw [hv, hv'] at h2
    all_goals first | rfl | exact h2.elim | exact h2 x
  · have h2 := h.db
    cases hd : s.db <;> cases hd' : s'.db <;> rw [hd, hd'] at h2
    all_goals first | rfl | exact h2.elim | simp [SdSame.db h2]
  · have h2 := h.db
    cases hd : s.db <;> cases hd' : s'.db <;> rw [hd, hd'] at h2
    all_goals first | rfl | exact h2.elim | simp [SdSame.position h2]
  · have h2 := h.db
    rw [hsd] at h2
    cases hd' : s'.db with
    | none => rw [hd'] at h2; exact h2.elim
    | some sd' => rw [hd'] at h2; exact SdSame.left h2
  · have h2 := h.db
    rw [hsd] at h2
    cases hd' : s.db with
    | none => rw [hd'] at h2; exact h2.elim
    | some sd' => rw [hd'] at h2; exact SdSame.right h2

end Bcalc
