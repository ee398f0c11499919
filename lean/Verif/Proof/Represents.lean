import Verif.Proof.Store

/-! # Every reachable database represents the saved data its operations make -/

namespace Bcalc
open Spec

/-- Inputs with their numbers. -/
def numbered : Nat → List Str → List (Int × Str)
  | _, [] => []
  | k, s :: l => ((k : Int) + 1, s) :: numbered (k + 1) l

theorem numbered_snd (k : Nat) (l : List Str) : (numbered k l).map Prod.snd = l := by
  induction l generalizing k with
  | nil => rfl
  | cons s l ih => simp [numbered, ih]

theorem numbered_length (k : Nat) (l : List Str) : (numbered k l).length = l.length := by
  have := congrArg List.length (numbered_snd k l)
  simpa using this

theorem numbered_ids (k : Nat) (l : List Str) (i : Int) :
    i ∈ (numbered k l).map Prod.fst ↔ (k : Int) < i ∧ i ≤ k + l.length := by
  induction l generalizing k with
  | nil => simp [numbered]
  | cons s l ih =>
    simp only [numbered, List.map_cons, List.mem_cons, ih, List.length_cons]
    push_cast
    omega

theorem numbered_pairwise (k : Nat) (l : List Str) : ((numbered k l).map Prod.fst).Pairwise (· < ·) := by
  induction l generalizing k with
  | nil => simp [numbered]
  | cons s l ih =>
    simp only [numbered, List.map_cons, List.pairwise_cons]
    refine ⟨fun i hi => ?_, ih _⟩
    have := (numbered_ids _ _ _).1 hi
    push_cast at this
    omega

theorem numbered_append (k : Nat) (l l' : List Str) :
    numbered k (l ++ l') = numbered k l ++ numbered (k + l.length) l' := by
  induction l generalizing k with
  | nil => simp [numbered]
  | cons s l ih =>
    simp only [List.cons_append, numbered, ih, List.length_cons]
    rw [show k + 1 + l.length = k + (l.length + 1) by omega]

theorem numbered_drop (k n : Nat) (l : List Str) :
    (numbered k l).drop n = numbered (k + n) (l.drop n) := by
  induction l generalizing k n with
  | nil => simp [numbered]
  | cons s l ih =>
    cases n with
    | zero => rfl
    | succ n =>
      simp only [numbered, List.drop_succ_cons, ih]
      rw [show k + 1 + n = k + (n + 1) by omega]

theorem numbered_last (k : Nat) (l : List Str) (h : l ≠ []) :
    (numbered k l).getLast?.map Prod.fst = some ((k : Int) + l.length) := by
  obtain ⟨l', s, rfl⟩ : ∃ l' s, l = l' ++ [s] := ⟨l.dropLast, l.getLast h, (List.dropLast_append_getLast h).symm⟩
  rw [numbered_append]
  simp [numbered]
  omega

theorem numbered_mem (k : Nat) (l : List Str) (i : Int) (s : Str) :
    (i, s) ∈ numbered k l ↔ ∃ n : Nat, i = k + n + 1 ∧ l[n]? = some s := by
  induction l generalizing k with
  | nil => simp [numbered]
  | cons t l ih =>
    simp only [numbered, List.mem_cons, Prod.mk.injEq, ih]
    constructor
    · rintro (⟨rfl, rfl⟩ | ⟨n, rfl, h⟩)
      · exact ⟨0, by simp, rfl⟩
      · exact ⟨n + 1, by push_cast; omega, h⟩
    · rintro ⟨n, rfl, h⟩
      cases n with
      | zero => left; simp at h; simp [h]
      | succ n => right; exact ⟨n, by push_cast; omega, h⟩

/-- The saved history with the numbers. -/
def Spec.Store.entries (st : Store) : List (Int × Str) :=
  numbered (st.recorded.length - st.kept) st.history

theorem entries_length (st : Store) (h : st.kept ≤ st.recorded.length) :
    st.entries.length = st.kept := by
  unfold Store.entries Store.history
  rw [numbered_length, List.length_drop]
  omega

theorem entries_ids (st : Store) (h : st.kept ≤ st.recorded.length) (i : Int) :
    i ∈ st.entries.map Prod.fst ↔ st.Has i := by
  unfold Store.entries Store.Has Store.history
  rw [numbered_ids, List.length_drop]
  omega

/-- The database represents the saved data. -/
structure Rep (st : Store) (db : Db) : Prop where
  le_len : st.kept ≤ st.recorded.length
  le_cap : st.kept ≤ st.cap
  pos : st.recorded ≠ [] → 1 ≤ st.kept
  wf : HistWF db st.entries st.cap
  unique : UniqueNames db
  varsOk : VarsOk db
  vars : ∀ x q i, st.vars x = some (q, i) ↔ ∃ row ∈ db.vars, row.name = x ∧
    row.numer = intDisplay q.num ∧ row.denom = intDisplay q.den ∧ row.lastUsedBy = i

theorem Rep.nextNo {st : Store} {db : Db} (h : Rep st db) :
    nextNo st.entries = st.recorded.length + 1 := by
  unfold Bcalc.nextNo
  by_cases hr : st.recorded = []
  · have : st.entries = [] := by
      unfold Store.entries Store.history
      rw [hr]; simp [numbered]
    rw [this, hr]; rfl
  · have hp := h.pos hr
    have hl := h.le_len
    unfold Store.entries
    rw [numbered_last]
    · unfold Store.history
      rw [List.length_drop]
      simp only [Option.getD_some]
      omega
    · unfold Store.history
      intro h0
      have := congrArg List.length h0
      rw [List.length_drop] at this
      simp at this
      omega

theorem Rep.front {st : Store} {db : Db} (h : Rep st db) :
    st.entries.getLast?.map Prod.fst =
      if st.recorded = [] then none else some (st.recorded.length : Int) := by
  by_cases hr : st.recorded = []
  · have : st.entries = [] := by
      unfold Store.entries Store.history
      rw [hr]; simp [numbered]
    rw [this, if_pos hr]; rfl
  · have hp := h.pos hr
    have hl := h.le_len
    rw [if_neg hr]
    unfold Store.entries
    rw [numbered_last]
    · unfold Store.history
      rw [List.length_drop]
      congr 1
      omega
    · unfold Store.history
      intro h0
      have := congrArg List.length h0
      rw [List.length_drop] at this
      simp at this
      omega

theorem newest_newest {α : Type} (l : List α) (a b : Nat) :
    newest b (newest a l) = newest (min a b) l := by
  unfold newest
  rw [List.drop_drop, List.length_drop]
  congr 1
  omega

/-- The entries after trimming. -/
theorem entries_trim (st : Store) (h : st.kept ≤ st.recorded.length) :
    st.trim.entries = newest st.cap st.entries := by
  unfold newest
  rw [entries_length st h]
  unfold Store.entries Store.history Store.trim
  simp only
  rw [numbered_drop, List.drop_drop]
  congr 1
  · omega
  · congr 1; omega

theorem trim_vars {st : Store} {db db' : Db} (hl : st.kept ≤ st.recorded.length)
    (hv : ∀ x q i, st.vars x = some (q, i) ↔ ∃ row ∈ db.vars, row.name = x ∧
      row.numer = intDisplay q.num ∧ row.denom = intDisplay q.den ∧ row.lastUsedBy = i)
    (hf : db'.vars = db.vars.filter fun v => decide (v.lastUsedBy ∈ st.trim.entries.map Prod.fst))
    (x : Str) (q : Rat) (i : Int) :
    st.trim.vars x = some (q, i) ↔ ∃ row ∈ db'.vars, row.name = x ∧
      row.numer = intDisplay q.num ∧ row.denom = intDisplay q.den ∧ row.lastUsedBy = i := by
  have hl' : st.trim.kept ≤ st.trim.recorded.length := by
    unfold Store.trim; simp only; omega
  have h1 : st.trim.vars x = some (q, i) ↔ st.vars x = some (q, i) ∧ st.trim.Has i := by
    unfold Store.trim
    simp only
    cases hx : st.vars x with
    | none => simp
    | some v =>
      obtain ⟨q', i'⟩ := v
      simp only [Option.some.injEq, Prod.mk.injEq]
      by_cases hh : ({ st with kept := min st.kept st.cap } : Store).Has i'
      · rw [if_pos hh]
        simp only [Option.some.injEq, Prod.mk.injEq]
        constructor
        · rintro ⟨rfl, rfl⟩; exact ⟨⟨rfl, rfl⟩, hh⟩
        · exact fun h => h.1
      · rw [if_neg hh]
        constructor
        · simp
        · rintro ⟨⟨rfl, rfl⟩, h⟩; exact absurd h hh
  rw [h1, hv, hf]
  simp only [List.mem_filter, decide_eq_true_eq]
  constructor
  · rintro ⟨⟨row, hr, h1, h2, h3, h4⟩, h⟩
    refine ⟨row, ⟨hr, ?_⟩, h1, h2, h3, h4⟩
    rw [entries_ids _ hl', h4]; exact h
  · rintro ⟨row, ⟨hr, hm⟩, h1, h2, h3, h4⟩
    refine ⟨⟨row, hr, h1, h2, h3, h4⟩, ?_⟩
    rw [entries_ids _ hl', h4] at hm; exact hm

theorem commit_ok {α : Type} {tx : Tx α} {db db' : Db} {a : α} (h : tx db = .ok (a, db')) :
    tx.commit db = db' := by
  unfold Tx.commit; rw [h]

theorem Rep.step_open {st : Store} {db : Db} (h : Rep st db) : Rep (st.step .openDb) (DbOp.openDb.apply db) := by
  have : DbOp.openDb.apply db = db := commit_ok (open_ok h.wf)
  rw [this]; exact h

/-- Recording an input: what it gives and what it leaves. -/
theorem Rep.add {st : Store} {db : Db} (h : Rep st db) (s : Str) :
    ∃ db', addToInputHistoryTx s db = .ok ((st.recorded.length : Int) + 1, db') ∧
      Rep (st.step (.add s)) db' := by
  obtain ⟨db', hx, hE⟩ := add_ok h.wf s
  rw [h.nextNo] at hx hE
  refine ⟨db', hx, ?_⟩
  have ha : DbOp.apply (.add s) db = db' := commit_ok hx
  have hl := h.le_len
  have hlc := h.le_cap
  have hcp := h.wf.capPos
  set st1 : Store := { st with recorded := st.recorded ++ [s], kept := st.kept + 1 } with hst1
  have hl1 : st1.kept ≤ st1.recorded.length := by rw [hst1]; simp; omega
  have he1 : st1.entries = st.entries ++ [((st.recorded.length : Int) + 1, s)] := by
    rw [hst1]
    unfold Store.entries Store.history
    simp only [List.length_append, List.length_cons, List.length_nil]
    rw [show st.recorded.length + (0 + 1) - (st.kept + 1) = st.recorded.length - st.kept by omega]
    rw [List.drop_append_of_le_length (by omega), numbered_append]
    congr 1
    simp only [numbered, List.length_drop]
    congr 2
    omega
  change Rep st1.trim db'
  refine ⟨?_, ?_, ?_, ?_, ?_, ?_, ?_⟩
  · unfold Store.trim; simp only; omega
  · unfold Store.trim; simp only; omega
  · intro _
    unfold Store.trim
    rw [hst1]; simp only; omega
  · rw [entries_trim st1 hl1, he1]; exact hE.wf
  · rw [← ha]; exact uniqueNames_apply _ h.unique
  · rw [← ha]; exact varsOk_apply _ h.varsOk
  · refine trim_vars hl1 h.vars ?_
    rw [entries_trim st1 hl1, he1]
    exact hE.vars

/-- Changing the capacity. -/
theorem Rep.setCap {st : Store} {db : Db} (h : Rep st db) (n : Int) (hn : 1 ≤ n) :
    ∃ db', setMaxHistorySizeTx n db = .ok ((), db') ∧ Rep (st.step (.setCap n)) db' := by
  obtain ⟨k, rfl⟩ := Int.eq_ofNat_of_zero_le (show 0 ≤ n by omega)
  obtain ⟨db', hx, hw, hv⟩ := setCap_ok h.wf k (by omega)
  refine ⟨db', hx, ?_⟩
  have ha : DbOp.apply (.setCap k) db = db' := by
    unfold DbOp.apply
    have : validateMaxHistorySize (k : Int) = .ok () := by
      unfold validateMaxHistorySize; rw [if_neg (by omega)]
    simp only [this]
    exact commit_ok hx
  have hl := h.le_len
  have hlc := h.le_cap
  set st1 : Store := { st with cap := k } with hst1
  have hl1 : st1.kept ≤ st1.recorded.length := by rw [hst1]; exact hl
  have he1 : st1.entries = st.entries := rfl
  have hs : st.step (.setCap k) = st1.trim := by
    unfold Store.step
    simp only
    rw [if_neg (by omega)]
    rfl
  rw [hs]
  refine ⟨?_, ?_, ?_, ?_, ?_, ?_, ?_⟩
  · unfold Store.trim; simp only; omega
  · unfold Store.trim; simp only; omega
  · intro hne
    have : st.recorded ≠ [] := hne
    have := h.pos this
    unfold Store.trim
    rw [hst1]; simp only; omega
  · rw [entries_trim st1 hl1, he1]; exact hw
  · rw [← ha]; exact uniqueNames_apply _ h.unique
  · rw [← ha]; exact varsOk_apply _ h.varsOk
  · refine trim_vars hl1 h.vars ?_
    rw [entries_trim st1 hl1, he1]
    exact hv

theorem Rep.mem_ids {st : Store} {db : Db} (h : Rep st db) (i : Int) : i ∈ db.ids ↔ st.Has i := by
  rw [h.wf.ids, entries_ids st h.le_len]

theorem Rep.fk_vars {st : Store} {db : Db} (h : Rep st db) (vars : List VarRow) :
    Fk { db with vars := vars } ↔ ∀ v ∈ vars, st.Has v.lastUsedBy := by
  have hfk := h.wf.fk
  have hi : ({ db with vars := vars } : Db).ids = db.ids := rfl
  constructor
  · intro hk v hv
    have := hk.vars v hv
    rwa [hi, h.mem_ids] at this
  · intro hv
    exact ⟨hfk.hist, hfk.tags, fun v hm => by rw [hi, h.mem_ids]; exact hv v hm⟩

theorem Rep.has_vars {st : Store} {db : Db} (h : Rep st db) : ∀ v ∈ db.vars, st.Has v.lastUsedBy :=
  fun v hv => (entries_ids st h.le_len _).1 (h.wf.vars v hv)

/-- The wf part with other variables. -/
theorem Rep.wf_vars {st : Store} {db : Db} (h : Rep st db) (vars : List VarRow)
    (hv : ∀ v ∈ vars, st.Has v.lastUsedBy) : HistWF { db with vars := vars } st.entries st.cap :=
  ⟨h.wf.hist, h.wf.incr, h.wf.tags, h.wf.minVersion, h.wf.version, h.wf.hcap, h.wf.capPos,
    fun v hm => (entries_ids st h.le_len _).2 (hv v hm)⟩

theorem Rep.row {st : Store} {db : Db} (h : Rep st db) {r : VarRow} (hr : r ∈ db.vars) :
    ∃ q, st.vars r.name = some (q, r.lastUsedBy) ∧ r.numer = intDisplay q.num ∧ r.denom = intDisplay q.den := by
  obtain ⟨q, h1, h2⟩ := h.varsOk r hr
  exact ⟨q, (h.vars _ _ _).2 ⟨r, hr, rfl, h1, h2, rfl⟩, h1, h2⟩

/-- Storing a variable. -/
theorem Rep.setVar {st : Store} {db : Db} (h : Rep st db) (var : Variable) (i : Int) :
    (st.Has i ∧ ∃ db', setVariableTx var i db = .ok ((), db') ∧ Rep (st.step (.setVar var i)) db') ∨
    (¬ st.Has i ∧ setVariableTx var i db = .err .constraint ∧ st.step (.setVar var i) = st) := by
  set rows' := db.vars.filter (fun v => v.name ≠ var.name) ++
      [{ name := var.name, numer := intDisplay var.value.num,
         denom := intDisplay var.value.den, lastUsedBy := i }] with hrows
  have hmem : ∀ v, v ∈ rows' ↔ (v ∈ db.vars ∧ v.name ≠ var.name) ∨
      v = ⟨var.name, intDisplay var.value.num, intDisplay var.value.den, i⟩ := by
    intro v; rw [hrows]; simp
  by_cases hi : st.Has i
  · left
    refine ⟨hi, { db with vars := rows' }, ?_, ?_⟩
    · refine exec_of_fk ((h.fk_vars _).2 ?_)
      intro v hv
      rcases (hmem v).1 hv with hv | rfl
      · exact h.has_vars v hv.1
      · exact hi
    · have hstep : st.step (.setVar var i) =
          { st with vars := fun x => if x = var.name then some (var.value, i) else st.vars x } := by
        unfold Store.step; simp only; rw [if_pos hi]
      have hv' : ∀ v ∈ rows', st.Has v.lastUsedBy := by
        intro v hv
        rcases (hmem v).1 hv with hv | rfl
        · exact h.has_vars v hv.1
        · exact hi
      have hx : setVariableTx var i db = .ok ((), { db with vars := rows' }) :=
        exec_of_fk ((h.fk_vars _).2 hv')
      have ha : DbOp.apply (.setVar var i) db = { db with vars := rows' } := commit_ok hx
      rw [hstep]
      refine ⟨h.le_len, h.le_cap, h.pos, h.wf_vars _ hv', ?_, ?_, ?_⟩
      · rw [← ha]; exact uniqueNames_apply _ h.unique
      · rw [← ha]; exact varsOk_apply _ h.varsOk
      · intro x q j
        simp only
        by_cases hx : x = var.name
        · subst hx
          rw [if_pos rfl]
          simp only [Option.some.injEq, Prod.mk.injEq]
          constructor
          · rintro ⟨rfl, rfl⟩
            exact ⟨_, (hmem _).2 (.inr rfl), rfl, rfl, rfl, rfl⟩
          · rintro ⟨row, hr, hn, h1, h2, h3⟩
            rcases (hmem row).1 hr with hr | rfl
            · exact absurd hn hr.2
            · exact ⟨Rat.ext (intDisplay_inj h1) (by exact_mod_cast intDisplay_inj h2), h3⟩
        · rw [if_neg hx, h.vars]
          constructor
          · rintro ⟨row, hr, hn, h'⟩
            exact ⟨row, (hmem row).2 (.inl ⟨hr, by rw [hn]; exact hx⟩), hn, h'⟩
          · rintro ⟨row, hr, hn, h'⟩
            rcases (hmem row).1 hr with hr | rfl
            · exact ⟨row, hr.1, hn, h'⟩
            · exact absurd hn.symm hx
  · right
    refine ⟨hi, ?_, ?_⟩
    · refine exec_not_fk fun hk => hi ?_
      exact (h.fk_vars _).1 hk _ ((hmem _).2 (.inr rfl))
    · unfold Store.step; simp only; rw [if_neg hi]

/-- Marking a variable as used. -/
theorem Rep.touch {st : Store} {db : Db} (h : Rep st db) (x : Str) (i : Int) :
    (((st.Has i ∨ st.vars x = none) ∧ ∃ db', touchVariableTx x i db = .ok ((), db') ∧
      Rep (st.step (.touch x i)) db')) ∨
    (¬ st.Has i ∧ st.vars x ≠ none ∧ touchVariableTx x i db = .err .constraint ∧
      st.step (.touch x i) = st) := by
  set rows' := db.vars.map fun v => if v.name = x then { v with lastUsedBy := i } else v with hrows
  by_cases hx : st.vars x = none
  · left
    refine ⟨.inr hx, db, ?_, ?_⟩
    · have : rows' = db.vars := by
        rw [hrows]
        conv_rhs => rw [← List.map_id db.vars]
        apply List.map_congr_left
        intro r hr
        obtain ⟨q, hq, _⟩ := h.row hr
        rw [if_neg]
        · rfl
        · rintro hn; rw [hn, hx] at hq; cases hq
      have hx := exec_of_fk (f := fun db => { db with
        vars := db.vars.map fun v => if v.name = x then { v with lastUsedBy := i } else v }) (db := db)
        (by
          change Fk { db with vars := rows' }
          rw [this]; exact h.wf.fk)
      unfold touchVariableTx
      rw [hx]
      change Outcome.ok ((), ({ db with vars := rows' } : Db)) = _
      rw [this]
    · have : st.step (.touch x i) = st := by
        unfold Store.step
        simp only
        split
        · have : (fun y => if y = x then (st.vars y).map (fun v => (v.1, i)) else st.vars y) = st.vars := by
            funext y
            split
            · rename_i hy; rw [hy, hx]; rfl
            · rfl
          rw [this]
        · rfl
      rw [this]; exact h
  · by_cases hi : st.Has i
    · left
      have hv' : ∀ v ∈ rows', st.Has v.lastUsedBy := by
        intro v hv
        rw [hrows, List.mem_map] at hv
        obtain ⟨r, hr, rfl⟩ := hv
        split
        · exact hi
        · exact h.has_vars r hr
      have hok : touchVariableTx x i db = .ok ((), { db with vars := rows' }) :=
        exec_of_fk ((h.fk_vars _).2 hv')
      have ha : DbOp.apply (.touch x i) db = { db with vars := rows' } := commit_ok hok
      refine ⟨.inl hi, _, hok, ?_⟩
      have hstep : st.step (.touch x i) =
          { st with vars := fun y => if y = x then (st.vars y).map (fun v => (v.1, i)) else st.vars y } := by
        unfold Store.step; simp only; rw [if_pos hi]
      rw [hstep]
      refine ⟨h.le_len, h.le_cap, h.pos, h.wf_vars _ hv', ?_, ?_, ?_⟩
      · rw [← ha]; exact uniqueNames_apply _ h.unique
      · rw [← ha]; exact varsOk_apply _ h.varsOk
      · intro y q j
        simp only
        have hm : ∀ row, row ∈ rows' ↔ ∃ r ∈ db.vars,
            (if r.name = x then { r with lastUsedBy := i } else r) = row := by
          intro row; rw [hrows, List.mem_map]
        by_cases hy : y = x
        · subst hy
          rw [if_pos rfl]
          simp only [Option.map_eq_some_iff, Prod.mk.injEq]
          constructor
          · rintro ⟨⟨q', j'⟩, hv, rfl, rfl⟩
            obtain ⟨r, hr, hn, h1, h2, _⟩ := (h.vars _ _ _).1 hv
            refine ⟨{ r with lastUsedBy := i }, (hm _).2 ⟨r, hr, by rw [if_pos hn]⟩, hn, h1, h2, rfl⟩
          · rintro ⟨row, hr, hn, h1, h2, h3⟩
            obtain ⟨r, hr', rfl⟩ := (hm _).1 hr
            by_cases hc : r.name = y
            · rw [if_pos hc] at h1 h2 h3
              exact ⟨(q, r.lastUsedBy), (h.vars _ _ _).2 ⟨r, hr', hc, h1, h2, rfl⟩, rfl, h3⟩
            · rw [if_neg hc] at hn; exact absurd hn hc
        · rw [if_neg hy, h.vars]
          constructor
          · rintro ⟨r, hr, hn, h'⟩
            exact ⟨r, (hm _).2 ⟨r, hr, by rw [if_neg (by rw [hn]; exact hy)]⟩, hn, h'⟩
          · rintro ⟨row, hr, hn, h'⟩
            obtain ⟨r, hr', rfl⟩ := (hm _).1 hr
            by_cases hc : r.name = x
            · rw [if_pos hc] at hn; exact absurd (hn.symm.trans hc) hy
            · rw [if_neg hc] at hn h'; exact ⟨r, hr', hn, h'⟩
    · right
      refine ⟨hi, hx, ?_, ?_⟩
      · refine exec_not_fk fun hk => hi ?_
        obtain ⟨⟨q, j⟩, hv⟩ := Option.ne_none_iff_exists'.1 hx
        obtain ⟨r, hr, hn, _⟩ := (h.vars _ _ _).1 hv
        have := (h.fk_vars _).1 hk { r with lastUsedBy := i }
          (List.mem_map.2 ⟨r, hr, by rw [if_pos hn]⟩)
        exact this
      · unfold Store.step; simp only; rw [if_neg hi]

/-- Removing a variable. -/
theorem Rep.clear {st : Store} {db : Db} (h : Rep st db) (x : Str) :
    ∃ db', clearVariableTx x db = .ok ((), db') ∧ Rep (st.step (.clear x)) db' := by
  set rows' := db.vars.filter fun v => v.name ≠ x with hrows
  have hm : ∀ row, row ∈ rows' ↔ row ∈ db.vars ∧ row.name ≠ x := by
    intro row; rw [hrows]; simp
  have hv' : ∀ v ∈ rows', st.Has v.lastUsedBy := fun v hv => h.has_vars v ((hm v).1 hv).1
  have hok : clearVariableTx x db = .ok ((), { db with vars := rows' }) :=
    exec_of_fk ((h.fk_vars _).2 hv')
  have ha : DbOp.apply (.clear x) db = { db with vars := rows' } := commit_ok hok
  refine ⟨_, hok, ?_⟩
  refine ⟨h.le_len, h.le_cap, h.pos, h.wf_vars _ hv', ?_, ?_, ?_⟩
  · rw [← ha]; exact uniqueNames_apply _ h.unique
  · rw [← ha]; exact varsOk_apply _ h.varsOk
  · intro y q j
    simp only [Store.step]
    by_cases hy : y = x
    · rw [if_pos hy]
      constructor
      · intro h; cases h
      · rintro ⟨row, hr, hn, _⟩
        exact absurd (hn.trans hy) ((hm row).1 hr).2
    · rw [if_neg hy, h.vars]
      constructor
      · rintro ⟨r, hr, hn, h'⟩; exact ⟨r, (hm r).2 ⟨hr, by rw [hn]; exact hy⟩, hn, h'⟩
      · rintro ⟨r, hr, h'⟩; exact ⟨r, ((hm r).1 hr).1, h'⟩

theorem Rep.step {st : Store} {db : Db} (h : Rep st db) (op : DbOp) : Rep (st.step op) (op.apply db) := by
  cases op with
  | openDb => exact h.step_open
  | add s => obtain ⟨db', hx, hr⟩ := h.add s; rw [show DbOp.apply (.add s) db = db' from commit_ok hx]; exact hr
  | setVar var i =>
    rcases h.setVar var i with ⟨_, db', hx, hr⟩ | ⟨_, hx, hs⟩
    · rw [show DbOp.apply (.setVar var i) db = db' from commit_ok hx]; exact hr
    · rw [hs]
      have : DbOp.apply (.setVar var i) db = db := by
        unfold DbOp.apply Tx.commit; simp only [hx]
      rw [this]; exact h
  | touch x i =>
    rcases h.touch x i with ⟨_, db', hx, hr⟩ | ⟨_, _, hx, hs⟩
    · rw [show DbOp.apply (.touch x i) db = db' from commit_ok hx]; exact hr
    · rw [hs]
      have : DbOp.apply (.touch x i) db = db := by
        unfold DbOp.apply Tx.commit; simp only [hx]
      rw [this]; exact h
  | clear x => obtain ⟨db', hx, hr⟩ := h.clear x; rw [show DbOp.apply (.clear x) db = db' from commit_ok hx]; exact hr
  | setCap n =>
    by_cases hn : n < 1
    · have h1 : st.step (.setCap n) = st := by unfold Store.step; simp only; rw [if_pos hn]
      have h2 : DbOp.apply (.setCap n) db = db := by
        unfold DbOp.apply validateMaxHistorySize; simp only; rw [if_pos hn]
      rw [h1, h2]; exact h
    · obtain ⟨db', hx, hr⟩ := h.setCap n (by omega)
      have : DbOp.apply (.setCap n) db = db' := by
        unfold DbOp.apply validateMaxHistorySize; simp only; rw [if_neg hn]; exact commit_ok hx
      rw [this]; exact hr

theorem newDb_eq : newDb = ⟨[(2, 1), (1, 1), (3, 100)], [], [(1, none), (2, none)], []⟩ := by decide

theorem rep_fresh : Rep .fresh newDb := by
  rw [newDb_eq]
  refine ⟨by decide, by decide, by simp [Store.fresh], ?_, by simp [UniqueNames], ?_, ?_⟩
  · exact ⟨rfl, by simp [Store.entries, Store.history, Store.fresh, numbered], rfl, rfl, rfl, rfl, by decide, by simp⟩
  · intro r hr; simp at hr
  · intro x q i; simp [Store.fresh]

theorem Rep.after {st : Store} {db : Db} (h : Rep st db) (ops : List DbOp) :
    Rep (ops.foldl Store.step st) (Spec.after ops db) := by
  induction ops generalizing st db with
  | nil => exact h
  | cons op ops ih => exact ih (h.step op)

theorem rep_after (ops : List DbOp) : Rep (storeAfter ops) (after ops newDb) := rep_fresh.after ops

theorem Spec.Reachable.rep {db : Db} (h : Reachable db) : ∃ st, Rep st db := by
  obtain ⟨ops, rfl⟩ := h
  exact ⟨_, rep_after ops⟩

end Bcalc
