import Verif.Proof.SessionVars

/-! # The stored variables under database operations -/

namespace Bcalc
open Spec

/-- No two rows have the same name (`PRIMARY KEY`). -/
def UniqueNames (db : Db) : Prop := (db.vars.map (·.name)).Nodup

/-! ## Which rows there are after an operation -/

/-- Only rows of `l` are left, in order. -/
def RowsOf (l : List VarRow) (db : Db) : Prop := db.vars.Sublist l

theorem rowsOf_stmt (l : List VarRow) : StmtKeeps (RowsOf l) where
  clearPrev := fun _ _ h => h
  updateTag := fun _ _ _ h => h
  deleteHistory := by
    intro i db h
    exact List.Sublist.trans List.filter_sublist h
  insert := fun _ _ _ _ h => h
  updateNext := fun _ _ _ h => h
  setMeta := fun _ _ h => h
  setTags := fun _ _ h => h

theorem rows_add (input : Str) (db : Db) : ((DbOp.add input).apply db).vars.Sublist db.vars :=
  (keeps_add (rowsOf_stmt db.vars) input).commit (P := RowsOf db.vars) (List.Sublist.refl _)

theorem rows_open (db : Db) : (DbOp.openDb.apply db).vars.Sublist db.vars :=
  (keeps_open (rowsOf_stmt db.vars)).commit (P := RowsOf db.vars) (List.Sublist.refl _)

theorem rows_setCap (n : Int) (db : Db) : ((DbOp.setCap n).apply db).vars.Sublist db.vars := by
  unfold DbOp.apply
  simp only
  split
  · exact List.Sublist.refl _
  · exact (keeps_setCap (rowsOf_stmt db.vars) n).commit (P := RowsOf db.vars) (List.Sublist.refl _)

theorem exec_commit (f : Db → Db) (db : Db) :
    (exec f).commit db = f db ∨ (exec f).commit db = db := by
  unfold Tx.commit exec
  simp only
  split
  · rename_i h
    split at h
    · simp at h; exact .inl h.symm
    · cases h
  · exact .inr rfl

theorem rows_clear (x : Str) (db : Db) : ((DbOp.clear x).apply db).vars.Sublist db.vars := by
  unfold DbOp.apply clearVariableTx
  simp only
  rcases exec_commit _ db with h | h
  · rw [h]; exact List.filter_sublist
  · rw [h]

theorem names_touch (x : Str) (i : Int) (db : Db) :
    ((DbOp.touch x i).apply db).vars.map (fun r => (r.name, r.numer, r.denom)) =
      db.vars.map (fun r => (r.name, r.numer, r.denom)) := by
  unfold DbOp.apply touchVariableTx
  simp only
  rcases exec_commit _ db with h | h
  · rw [h]
    simp only [List.map_map]
    apply List.map_congr_left
    intro r _
    simp only [Function.comp]
    split <;> rfl
  · rw [h]

theorem stored_iff_mem (db : Db) (x : Str) (q : Rat) :
    Stored db x q ↔ (x, intDisplay q.num, intDisplay (q.den : Int)) ∈
      db.vars.map (fun r => (r.name, r.numer, r.denom)) := by
  unfold Stored
  rw [List.mem_map]
  constructor
  · rintro ⟨r, hr, rfl, h1, h2⟩; exact ⟨r, hr, by rw [h1, h2]⟩
  · rintro ⟨r, hr, h⟩
    simp only [Prod.mk.injEq] at h
    exact ⟨r, hr, h.1, h.2.1, h.2.2⟩

theorem stored_touch (y : Str) (i : Int) (db : Db) (x : Str) (q : Rat) :
    Stored ((DbOp.touch y i).apply db) x q ↔ Stored db x q := by
  rw [stored_iff_mem, stored_iff_mem, names_touch]

theorem stored_of_sublist {db db' : Db} (h : db'.vars.Sublist db.vars) {x : Str} {q : Rat}
    (hs : Stored db' x q) : Stored db x q := by
  obtain ⟨r, hr, h'⟩ := hs
  exact ⟨r, h.subset hr, h'⟩

theorem stored_clear (y : Str) (db : Db) (x : Str) (q : Rat) (hxy : x ≠ y) :
    Stored ((DbOp.clear y).apply db) x q ↔ Stored db x q := by
  refine ⟨stored_of_sublist (rows_clear y db), ?_⟩
  rintro ⟨r, hr, h⟩
  unfold DbOp.apply clearVariableTx
  simp only
  rcases exec_commit _ db with h' | h'
  · rw [h']
    exact ⟨r, List.mem_filter.2 ⟨hr, by simpa [h.1] using hxy⟩, h⟩
  · rw [h']; exact ⟨r, hr, h⟩

theorem stored_setVar (var : Variable) (i : Int) (db : Db) (x : Str) (q : Rat) (hxy : x ≠ var.name) :
    Stored ((DbOp.setVar var i).apply db) x q ↔ Stored db x q := by
  unfold DbOp.apply setVariableTx
  simp only
  rcases exec_commit _ db with h' | h'
  · rw [h']
    constructor
    · rintro ⟨r, hr, h⟩
      simp only [List.mem_append, List.mem_filter, List.mem_singleton] at hr
      rcases hr with hr | rfl
      · exact ⟨r, hr.1, h⟩
      · exact absurd h.1.symm hxy
    · rintro ⟨r, hr, h⟩
      refine ⟨r, ?_, h⟩
      simp only [List.mem_append, List.mem_filter]
      exact .inl ⟨hr, by simpa [h.1] using hxy⟩
  · rw [h']

/-- An operation that does not store the variable does not give it a stored value. -/
theorem stored_apply {op : DbOp} {x : Str} (h : ¬ Stores x op) {db : Db} {q : Rat}
    (hs : Stored (op.apply db) x q) : Stored db x q := by
  cases op with
  | openDb => exact stored_of_sublist (rows_open db) hs
  | add input => exact stored_of_sublist (rows_add input db) hs
  | setVar var i =>
    refine (stored_setVar var i db x q (fun h' => h ⟨var.value, i, ?_⟩)).1 hs
    rw [h']
  | touch y i => exact (stored_touch y i db x q).1 hs
  | clear y => exact stored_of_sublist (rows_clear y db) hs
  | setCap n => exact stored_of_sublist (rows_setCap n db) hs

theorem stored_evolves {kind : DbOp → Prop} {x : Str} (hk : ∀ op, kind op → ¬ Stores x op) {db db' : Db}
    (h : Evolves kind db db') {q : Rat} (hs : Stored db' x q) : Stored db x q :=
  h.keeps (P := fun d => Stored d x q → Stored db x q)
    (fun _ _ ho ih hs => ih (stored_apply (hk _ ho) hs)) (fun h => h) hs

theorem not_stored_clear {x : Str} {db db' : Db} {u : Unit} (h : clearVariableTx x db = .ok (u, db'))
    (q : Rat) : ¬ Stored db' x q := by
  rw [(exec_ok h).1]
  rintro ⟨r, hr, hn, _⟩
  have := (List.mem_filter.1 hr).2
  simp [hn] at this

theorem stored_of_set {var : Variable} {i : Int} {db db' : Db} {u : Unit}
    (h : setVariableTx var i db = .ok (u, db')) : Stored db' var.name var.value := by
  rw [(exec_ok h).1]
  exact ⟨_, List.mem_append_right _ (List.mem_singleton.2 rfl), rfl, rfl, rfl⟩

/-! ## Uniqueness -/

theorem uniqueNames_sublist {db db' : Db} (h : db'.vars.Sublist db.vars) (hu : UniqueNames db) :
    UniqueNames db' := (h.map _).nodup hu

theorem uniqueNames_apply (op : DbOp) {db : Db} (h : UniqueNames db) : UniqueNames (op.apply db) := by
  cases op with
  | openDb => exact uniqueNames_sublist (rows_open db) h
  | add input => exact uniqueNames_sublist (rows_add input db) h
  | setVar var i =>
    unfold DbOp.apply setVariableTx
    simp only
    rcases exec_commit _ db with h' | h'
    · rw [h']
      unfold UniqueNames
      simp only [List.map_append, List.map_cons, List.map_nil]
      rw [List.nodup_append]
      refine ⟨(List.filter_sublist.map _).nodup h, by simp, ?_⟩
      intro a ha b hb hab
      simp only [List.mem_singleton] at hb
      obtain ⟨r, hr, rfl⟩ := List.mem_map.1 ha
      have := (List.mem_filter.1 hr).2
      simp at this
      exact this (hab.trans hb)
    · rw [h']; exact h
  | touch y i =>
    unfold UniqueNames at h ⊢
    have := congrArg (List.map (fun t : Str × Str × Str => t.1)) (names_touch y i db)
    simp only [List.map_map, Function.comp_def] at this
    rw [this]; exact h
  | clear y => exact uniqueNames_sublist (rows_clear y db) h
  | setCap n => exact uniqueNames_sublist (rows_setCap n db) h

theorem Spec.Reachable.varsOk {db : Db} (h : Reachable db) : VarsOk db := by
  obtain ⟨ops, rfl⟩ := h
  exact foldl_apply (fun op _ => varsOk_apply op) ops (varsOk_apply .openDb (by intro r hr; simp at hr))

theorem Spec.Reachable.unique {db : Db} (h : Reachable db) : UniqueNames db := by
  obtain ⟨ops, rfl⟩ := h
  exact foldl_apply (fun op _ => uniqueNames_apply op) ops
    (uniqueNames_apply .openDb (by simp [UniqueNames]))

theorem Spec.Reachable.apply {db : Db} (h : Reachable db) (op : DbOp) : Reachable (op.apply db) := by
  obtain ⟨ops, rfl⟩ := h
  exact ⟨ops ++ [op], by simp [after]⟩

theorem Spec.Reachable.evolves {kind : DbOp → Prop} {db db' : Db} (h : Reachable db)
    (he : Evolves kind db db') : Reachable db' :=
  he.keeps (fun op _ _ h => h.apply op) h

theorem intDisplay_inj {a b : Int} (h : intDisplay a = intDisplay b) : a = b := by
  have h1 := parseStored_ok [] [] a
  have h2 := parseStored_ok [] [] b
  rw [h, h2] at h1
  simpa using h1.symm

theorem stored_unique {db : Db} (hu : UniqueNames db) {x : Str} {q q' : Rat} (h : Stored db x q)
    (h' : Stored db x q') : q = q' := by
  obtain ⟨r, hr, rfl, h1, h2⟩ := h
  obtain ⟨r', hr', hn, h1', h2'⟩ := h'
  have : r' = r := List.inj_on_of_nodup_map hu hr' hr hn
  subst this
  rw [h1] at h1'
  rw [h2] at h2'
  exact Rat.ext (intDisplay_inj h1') (by exact_mod_cast intDisplay_inj h2')

/-! ## Reading -/

theorem getVariable_of_stored {db : Db} (hu : UniqueNames db) {x : Str} {q : Rat}
    (h : Stored db x q) : getVariableTx x db = .ok (some ⟨x, q⟩, db) := by
  obtain ⟨r, hr, rfl, h1, h2⟩ := h
  cases hf : db.vars.find? (fun v => v.name == r.name) with
  | none =>
    have := List.find?_eq_none.1 hf r hr
    simp at this
  | some r' =>
    have hm := List.mem_of_find?_eq_some hf
    have hn := List.find?_some hf
    simp only [beq_iff_eq] at hn
    have : r' = r := List.inj_on_of_nodup_map hu hm hr hn
    subst this
    exact getVariableTx_ok hf h1 h2

theorem getVariable_none {db : Db} {x : Str} (h : ∀ row ∈ db.vars, row.name ≠ x) :
    getVariableTx x db = .ok (none, db) := by
  have : db.vars.find? (fun v => v.name == x) = none := by
    rw [List.find?_eq_none]
    intro r hr
    simpa using h r hr
  unfold getVariableTx
  rw [this]

theorem not_stored {db : Db} (hv : VarsOk db) {x : Str} (h : ∀ q, ¬ Stored db x q) :
    getVariableTx x db = .ok (none, db) := by
  apply getVariable_none
  intro r hr hn
  obtain ⟨q, h1, h2⟩ := hv r hr
  exact h q ⟨r, hr, hn, h1, h2⟩

theorem stored_of_getVariable {db : Db} (hv : VarsOk db) {x : Str} {var : Variable} {db' : Db}
    (h : getVariableTx x db = .ok (some var, db')) : Stored db x var.value := by
  cases hf : db.vars.find? (fun v => v.name == x) with
  | none => unfold getVariableTx at h; rw [hf] at h; simp at h
  | some r =>
    have hm := List.mem_of_find?_eq_some hf
    have hn := List.find?_some hf
    simp only [beq_iff_eq] at hn
    obtain ⟨q, h1, h2⟩ := hv r hm
    rw [getVariableTx_ok hf h1 h2] at h
    simp at h
    rw [← h.1]
    exact ⟨r, hm, hn, h1, h2⟩

/-! ## Alone -/

theorem seen_quiet {sd : SavedData} (h : sd.env = []) : sd.seen = sd.db := by
  unfold SavedData.seen SavedData.nextEnv
  rw [h]; rfl

theorem run_quiet {α : Type} {sd : SavedData} (h : sd.env = []) (tx : Tx α) :
    sd.run tx = match tx sd.db with
        | .ok (a, db') => (.ok a, { sd with db := db', commits := sd.commits ++ [db'] })
        | .err e => (.err e, sd)
        | .panic k => (.panic k, sd)
        | .diverge => (.diverge, sd) := by
  rcases run_cases sd tx with ⟨hf, _⟩ | ⟨_, hr⟩
  · unfold SavedData.nextEnv at hf; rw [h] at hf; simp at hf
  · rw [hr, seen_quiet h]
    obtain ⟨db, pos, env, com⟩ := sd
    simp only at h
    subst h
    rfl

theorem not_scheduled {sd : SavedData} (h : sd.env = []) (op : DbOp) : ¬ Scheduled sd op := by
  rintro ⟨e, he, _⟩
  rw [h] at he
  simp at he

theorem SdRel.quiet {own : DbOp → Prop} {a b : SavedData} (h : SdRel own a b) (hq : a.env = []) :
    b.env = [] ∧ Evolves own a.db b.db := by
  obtain ⟨k, hk⟩ := h.env
  refine ⟨by rw [hk, hq]; simp, h.db.mono ?_⟩
  rintro op (ho | ho)
  · exact absurd ho (not_scheduled hq op)
  · exact ho

theorem run_ok {α : Type} {sd sd' : SavedData} {tx : Tx α} {a : α} (h : sd.run tx = (.ok a, sd')) :
    tx sd.seen = .ok (a, sd'.db) ∧ sd'.env = sd.env.tail := by
  rcases run_cases sd tx with ⟨_, hr⟩ | ⟨_, hr⟩
  · rw [hr] at h; simp at h
  · rw [hr] at h
    revert h
    rcases hg : tx sd.seen with ⟨a', db'⟩ | _ | _ | _
    · simp only [Prod.mk.injEq, Outcome.ok.injEq]
      rintro ⟨rfl, rfl⟩
      exact ⟨⟨rfl, rfl⟩, rfl⟩
    all_goals simp

theorem scheduled_tail {sd : SavedData} {sd' : SavedData} (h : sd'.env = sd.env.tail) {op : DbOp}
    (ho : Scheduled sd' op) : Scheduled sd op := by
  obtain ⟨e, he, ho⟩ := ho
  rw [h] at he
  exact ⟨e, List.mem_of_mem_tail he, ho⟩

theorem getVariable_seen {sd : SavedData} {x : Str} {var : Variable} (hv : VarsOk sd.db)
    (h : (sd.getVariable x).1 = .ok (some var)) : Stored sd.seen x var.value := by
  have hs : VarsOk sd.seen := foldl_apply (fun op _ => varsOk_apply op) _ hv
  unfold SavedData.getVariable at h
  rcases run_cases sd (getVariableTx x) with ⟨_, hr⟩ | ⟨_, hr⟩
  · rw [hr] at h; cases h
  · rw [hr] at h
    revert h
    rcases hg : getVariableTx x sd.seen with ⟨a, db'⟩ | _ | _ | _
    · intro h
      simp at h
      subst h
      exact stored_of_getVariable hs hg
    all_goals intro h; cases h

end Bcalc
