import Verif.Model.Variable
import Verif.Proof.Digits

/-! # Reasoning about transactions; the stored variables can always be decoded -/

namespace Bcalc

/-- A transaction that succeeds keeps a property of the database. -/
def Tx.Keeps {α : Type} (P : Db → Prop) (t : Tx α) : Prop :=
  ∀ db a db', P db → t db = .ok (a, db') → P db'

theorem Tx.andThen_ok {α β : Type} {t : Tx α} {f : α → Tx β} {db : Db} {b : β} {db' : Db}
    (h : t.andThen f db = .ok (b, db')) :
    ∃ a db1, t db = .ok (a, db1) ∧ f a db1 = .ok (b, db') := by
  unfold Tx.andThen at h
  split at h
  · rename_i a db1 h1; exact ⟨a, db1, h1, h⟩
  · cases h
  · cases h
  · cases h

theorem Tx.andThen_of_ok {α β : Type} {t : Tx α} {f : α → Tx β} {db : Db} {a : α} {db1 : Db}
    (h : t db = .ok (a, db1)) : t.andThen f db = f a db1 := by
  unfold Tx.andThen
  rw [h]

theorem Tx.Keeps.andThen {α β : Type} {P : Db → Prop} {t : Tx α} {f : α → Tx β}
    (h : t.Keeps P) (hf : ∀ a, (f a).Keeps P) : (t.andThen f).Keeps P := by
  intro db b db' hp hx
  obtain ⟨a, db1, h1, h2⟩ := Tx.andThen_ok hx
  exact hf a db1 b db' (h db a db1 hp h1) h2

theorem exec_ok {f : Db → Db} {db : Db} {u : Unit} {db' : Db} (h : exec f db = .ok (u, db')) :
    db' = f db ∧ (f db).fkOk = true := by
  unfold exec at h
  simp only at h
  split at h
  · rename_i hk; simp at h; exact ⟨h.symm, hk⟩
  · cases h

theorem keeps_exec {P : Db → Prop} {f : Db → Db} (h : ∀ db, P db → P (f db)) : (exec f).Keeps P := by
  intro db u db' hp hx
  rw [(exec_ok hx).1]
  exact h db hp

/-- A transaction that only reads. -/
def Tx.ReadOnly {α : Type} (t : Tx α) : Prop := ∀ db a db', t db = .ok (a, db') → db' = db

theorem Tx.ReadOnly.keeps {α : Type} {P : Db → Prop} {t : Tx α} (h : t.ReadOnly) : t.Keeps P := by
  intro db a db' hp hx
  rw [h db a db' hx]; exact hp

theorem readOnly_selectTag (k : Nat) : (selectTag k).ReadOnly := by
  intro db a db' h
  unfold selectTag at h
  split at h <;> simp at h
  exact h.2.symm

theorem readOnly_selectTagNotNull (k : Nat) : (selectTagNotNull k).ReadOnly := by
  intro db a db' h
  unfold selectTagNotNull at h
  split at h <;> simp at h
  exact h.2.symm

theorem readOnly_selectMeta (k : Nat) : (selectMeta k).ReadOnly := by
  intro db a db' h
  unfold selectMeta at h
  split at h <;> simp at h
  exact h.2.symm

theorem readOnly_selectNext (i : Int) : (selectNext i).ReadOnly := by
  intro db a db' h
  unfold selectNext at h
  split at h
  · simp at h
  · split at h <;> simp at h
    exact h.2.symm

theorem readOnly_selectInputAndPrev (i : Int) : (selectInputAndPrev i).ReadOnly := by
  intro db a db' h
  unfold selectInputAndPrev at h
  simp at h
  exact h.2.symm

theorem readOnly_getVariable (name : Str) : (getVariableTx name).ReadOnly := by
  intro db a db' h
  unfold getVariableTx at h
  split at h
  · simp at h; exact h.2.symm
  · rename_i row _
    cases h1 : parseStored "numerator".toList name row.numer with
    | ok n =>
      rw [h1] at h; simp only [Outcome.bind_ok] at h
      cases h2 : parseStored "denominator".toList name row.denom with
      | ok d =>
        rw [h2] at h; simp only [Outcome.bind_ok] at h
        cases h3 : (ratioNew n d : Outcome DbError Rat) with
        | ok q => rw [h3] at h; simp at h; exact h.2.symm
        | _ => rw [h3] at h; simp at h
      | _ => rw [h2] at h; simp at h
    | _ => rw [h1] at h; simp at h

/-- Each statement of the eviction loop keeps the property. -/
structure StmtKeeps (P : Db → Prop) : Prop where
  clearPrev : ∀ i db, P db → P { db with
    history := db.history.map fun r => if r.id = i then { r with prev := none } else r }
  updateTag : ∀ k v db, P db → P { db with tags := updateKey k (some v) db.tags }
  deleteHistory : ∀ i db, P db → P { db with
    history := db.history.filter fun r => r.id ≠ i
    vars := db.vars.filter fun v => v.lastUsedBy ≠ i }
  insert : ∀ id input prev db, P db → P { db with
      history := db.history ++ [{ id := id, input := input, next := none, prev := prev }] }
  updateNext : ∀ i v db, P db → P { db with
    history := db.history.map fun r => if r.id = i then { r with next := some v } else r }
  setMeta : ∀ m db, P db → P { db with metaInt := m }
  setTags : ∀ m db, P db → P { db with tags := m }

theorem keeps_enforceLoop {P : Db → Prop} (hP : StmtKeeps P) (cap : Int) :
    ∀ f, (enforceLoop cap f).Keeps P := by
  intro f
  induction f with
  | zero => intro db a db' _ h; cases h
  | succ f ih =>
    intro db a db' hp h
    unfold enforceLoop at h
    split at h
    · simp at h; rw [← h]; exact hp
    · revert h
      refine (Tx.Keeps.andThen (readOnly_selectTagNotNull _).keeps fun oldBack =>
        Tx.Keeps.andThen (readOnly_selectNext _).keeps fun newBack =>
        Tx.Keeps.andThen (keeps_exec fun db => hP.clearPrev _ db) fun _ =>
        Tx.Keeps.andThen (keeps_exec fun db => hP.updateTag _ _ db) fun _ =>
        Tx.Keeps.andThen (keeps_exec fun db => hP.deleteHistory _ db) fun _ => ih) db a db' hp

theorem keeps_enforceHistorySize {P : Db → Prop} (hP : StmtKeeps P) :
    enforceHistorySize.Keeps P := by
  refine Tx.Keeps.andThen (readOnly_selectMeta _).keeps fun cap => ?_
  intro db a db' hp h
  simp only at h
  split at h
  · cases h
  · exact keeps_enforceLoop hP cap _ db a db' hp h

theorem keeps_insertHistory {P : Db → Prop} (hP : StmtKeeps P) (input : Str) (prev : Option Int) :
    (insertHistory input prev).Keeps P := by
  intro db a db' hp h
  unfold insertHistory at h
  simp only at h
  split at h
  · rename_i hx
    simp at h
    rw [← h.2, (exec_ok hx).1]
    exact hP.insert _ _ _ db hp
  · cases h
  · cases h
  · cases h

theorem keeps_add {P : Db → Prop} (hP : StmtKeeps P) (input : Str) :
    (addToInputHistoryTx input).Keeps P := by
  refine Tx.Keeps.andThen (readOnly_selectTag _).keeps fun orig => ?_
  refine Tx.Keeps.andThen (keeps_insertHistory hP _ _) fun added => ?_
  refine Tx.Keeps.andThen (keeps_exec fun db => hP.updateTag _ _ db) fun _ => ?_
  refine Tx.Keeps.andThen ?_ fun _ => ?_
  · cases orig with
    | none => exact keeps_exec fun db => hP.updateTag _ _ db
    | some o => exact keeps_exec fun db => hP.updateNext _ _ db
  · refine Tx.Keeps.andThen (keeps_enforceHistorySize hP) fun _ => ?_
    intro db a db' hp h
    simp at h; rw [← h.2]; exact hp

theorem keeps_setCap {P : Db → Prop} (hP : StmtKeeps P) (n : Int) :
    (setMaxHistorySizeTx n).Keeps P :=
  Tx.Keeps.andThen (keeps_exec fun db => hP.setMeta _ db) fun _ => keeps_enforceHistorySize hP

theorem keeps_open {P : Db → Prop} (hP : StmtKeeps P) : openTx.Keeps P := by
  refine Tx.Keeps.andThen (keeps_exec fun db => hP.setMeta _ db) fun _ => ?_
  refine Tx.Keeps.andThen (readOnly_selectMeta _).keeps fun v => ?_
  split
  · intro db a db' _ h; cases h
  · refine Tx.Keeps.andThen (keeps_exec fun db => hP.setMeta _ db) fun _ => ?_
    refine Tx.Keeps.andThen (keeps_exec fun db => hP.setMeta _ db) fun _ => ?_
    refine Tx.Keeps.andThen (keeps_exec fun db => hP.setTags _ db) fun _ => ?_
    refine Tx.Keeps.andThen (keeps_exec fun db => hP.setTags _ db) fun _ => ?_
    exact (readOnly_selectTag _).keeps

theorem Tx.Keeps.commit {α : Type} {P : Db → Prop} {t : Tx α} (h : t.Keeps P) {db : Db} (hp : P db) :
    P (t.commit db) := by
  unfold Tx.commit
  split
  · rename_i hx; exact h _ _ _ hp hx
  · exact hp

/-- Every stored variable is the encoding of a rational number. -/
def VarsOk (db : Db) : Prop :=
  ∀ row ∈ db.vars, ∃ q : Rat, row.numer = intDisplay q.num ∧ row.denom = intDisplay q.den

theorem varsOk_stmt : StmtKeeps VarsOk where
  clearPrev := fun _ _ h => h
  updateTag := fun _ _ _ h => h
  deleteHistory := by
    intro i db h row hrow
    exact h row (List.mem_filter.1 hrow).1
  insert := fun _ _ _ _ h => h
  updateNext := fun _ _ _ h => h
  setMeta := fun _ _ h => h
  setTags := fun _ _ h => h

theorem varsOk_setVariable (var : Variable) (id : Int) : (setVariableTx var id).Keeps VarsOk := by
  refine keeps_exec fun db h row hrow => ?_
  simp only [List.mem_append, List.mem_filter, List.mem_singleton] at hrow
  rcases hrow with hrow | rfl
  · exact h row hrow.1
  · exact ⟨var.value, rfl, rfl⟩

theorem varsOk_touchVariable (name : Str) (id : Int) : (touchVariableTx name id).Keeps VarsOk := by
  refine keeps_exec fun db h row hrow => ?_
  simp only [List.mem_map] at hrow
  obtain ⟨v, hv, rfl⟩ := hrow
  obtain ⟨q, hq⟩ := h v hv
  refine ⟨q, ?_⟩
  split <;> exact hq

theorem varsOk_clearVariable (name : Str) : (clearVariableTx name).Keeps VarsOk := by
  refine keeps_exec fun db h row hrow => ?_
  exact h row (List.mem_filter.1 hrow).1

theorem varsOk_apply (op : DbOp) {db : Db} (h : VarsOk db) : VarsOk (op.apply db) := by
  cases op with
  | openDb => exact (keeps_open varsOk_stmt).commit h
  | add input => exact (keeps_add varsOk_stmt input).commit h
  | setVar var id => exact (varsOk_setVariable var id).commit h
  | touch name id => exact (varsOk_touchVariable name id).commit h
  | clear name => exact (varsOk_clearVariable name).commit h
  | setCap n =>
    unfold DbOp.apply
    simp only
    split
    · exact h
    · exact (keeps_setCap varsOk_stmt n).commit h

theorem foldl_apply {P : Db → Prop} (hop : ∀ (op : DbOp) db, P db → P (op.apply db))
    (ops : List DbOp) {db : Db} (h : P db) : P (ops.foldl (fun db op => op.apply db) db) := by
  induction ops generalizing db with
  | nil => exact h
  | cons op ops ih => exact ih (hop op db h)

theorem parseStored_ok (what name : Str) (n : Int) :
    parseStored what name (intDisplay n) = .ok n := by
  unfold parseStored variableStorageRadix
  rw [parseBigInt_intDisplay]
  rfl

/-- Reading a variable when its row is the encoding of a number. -/
theorem getVariableTx_ok {name : Str} {db : Db} {row : VarRow} {q : Rat}
    (hf : db.vars.find? (fun v => v.name == name) = some row)
    (hn : row.numer = intDisplay q.num) (hd : row.denom = intDisplay q.den) :
    getVariableTx name db = .ok (some ⟨name, q⟩, db) := by
  unfold getVariableTx
  rw [hf]
  simp only
  rw [hn, hd, parseStored_ok, parseStored_ok]
  simp only [Outcome.bind_ok]
  unfold ratioNew
  have : (q.den : Int) ≠ 0 := by exact_mod_cast q.den_nz
  rw [if_neg this]
  simp [Rat.num_divInt_den]

/-- On a database with decodable variables reading one always succeeds. -/
theorem getVariableTx_total {db : Db} (h : VarsOk db) (name : Str) :
    (∃ q, getVariableTx name db = .ok (some ⟨name, q⟩, db)) ∨
      getVariableTx name db = .ok (none, db) := by
  cases hf : db.vars.find? (fun v => v.name == name) with
  | none => right; unfold getVariableTx; rw [hf]
  | some row =>
    obtain ⟨q, hn, hd⟩ := h row (List.mem_of_find?_eq_some hf)
    exact .inl ⟨q, getVariableTx_ok hf hn hd⟩

/-! ## The connection -/

/-- The database other processes leave for the next operation. -/
def SavedData.seen (sd : SavedData) : Db :=
  sd.nextEnv.others.foldl (fun db op => op.apply db) sd.db

theorem run_cases {α : Type} (sd : SavedData) (tx : Tx α) :
    (sd.nextEnv.fault = true ∧
      sd.run tx = (.err .environment, { sd with env := sd.env.tail, db := sd.seen })) ∨
    (sd.nextEnv.fault = false ∧
      sd.run tx = match tx sd.seen with
        | .ok (a, db') =>
          (.ok a, { sd with env := sd.env.tail, db := db', commits := sd.commits ++ [db'] })
        | .err e => (.err e, { sd with env := sd.env.tail, db := sd.seen })
        | .panic k => (.panic k, { sd with env := sd.env.tail, db := sd.seen })
        | .diverge => (.diverge, { sd with env := sd.env.tail, db := sd.seen })) := by
  unfold SavedData.run SavedData.seen
  simp only
  cases sd.nextEnv.fault with
  | true => left; simp
  | false =>
    right
    simp only [Bool.false_eq_true, if_false, true_and]
    rcases tx _ with ⟨_, _⟩ | _ | _ | _ <;> rfl

theorem run_db {α : Type} {P : Db → Prop} (hop : ∀ (op : DbOp) db, P db → P (op.apply db))
    {sd : SavedData} {tx : Tx α} (htx : tx.Keeps P) (h : P sd.db) : P (sd.run tx).2.db := by
  have hs : P sd.seen := foldl_apply hop _ h
  rcases run_cases sd tx with ⟨_, hr⟩ | ⟨_, hr⟩
  · rw [hr]; exact hs
  · rw [hr]
    split
    · rename_i hx; exact htx _ _ _ hs hx
    · exact hs
    · exact hs
    · exact hs

end Bcalc
