import Verif.Proof.Scroll
import Verif.Props.Variables

/-! # C45–C49, C52: the saved data -/

namespace Bcalc
open Spec

/-- A database with three inputs recorded, capacity 2, and a variable last used by the newest input. -/
def exDb3 : Db := after [.setCap 2, .add "1".toList, .setVar ⟨"$x".toList, 1 / 3⟩ 1, .add "$x = 5".toList,
  .setVar ⟨"$y".toList, 5⟩ 2, .touch "$y".toList 2, .add "$y".toList, .touch "$y".toList 3] newDb

example : Reachable exDb3 := ⟨_, rfl⟩

/-! ## C45 The saved history is exactly the newest inputs -/

/-- Whatever operations the sessions perform, in whatever order, the history in the database is the one
that the user expects. -/
theorem C45_history (ops : List DbOp) :
    historyOf (after ops newDb) = (storeAfter ops).history ∧
      CapacityIs (after ops newDb) (storeAfter ops).cap :=
  ⟨(rep_after ops).historyOf, (rep_after ops).capacity⟩

/-- The same when following the links from the front: the newest input comes first. -/
theorem C45_newest_first (ops : List DbOp) :
    ∃ front, lookupKey tagFront (after ops newDb).tags = some front ∧
      Walk (after ops newDb) front (storeAfter ops).history.reverse :=
  (rep_after ops).walk

example : historyOf exDb3 = ["$x = 5".toList, "$y".toList] := by decide +kernel

/-- Adding an input puts it in front and drops only the oldest entries beyond the capacity. -/
theorem C45_add (db : Db) (hr : Reachable db) (s : Str) :
    ∃ cap, 1 ≤ cap ∧ CapacityIs db cap ∧ CapacityIs ((DbOp.add s).apply db) cap ∧
      historyOf ((DbOp.add s).apply db) = lastN cap (historyOf db ++ [s]) ∧
      (historyOf db).length ≤ cap := by
  obtain ⟨st, h⟩ := hr.rep
  have h' := h.step (.add s)
  have hl := h.le_len
  refine ⟨st.cap, h.wf.capPos, h.capacity, h'.capacity, ?_, ?_⟩
  · rw [h'.historyOf, h.historyOf]
    unfold lastN Store.history
    simp only [Store.step, Store.trim, List.length_append, List.length_drop, List.length_cons,
      List.length_nil]
    rw [← List.drop_append_of_le_length (by omega), List.drop_drop]
    congr 1
    have := h.wf.capPos
    omega
  · rw [h.historyOf]
    unfold Store.history
    rw [List.length_drop]
    have := h.le_cap
    omega

/-- The operations that are not about the history leave it alone. -/
theorem C45_others (db : Db) (hr : Reachable db) (op : DbOp) (ha : ∀ s, op ≠ .add s)
    (hc : ∀ n, op ≠ .setCap n) :
    historyOf (op.apply db) = historyOf db ∧ ∀ cap, CapacityIs db cap → CapacityIs (op.apply db) cap := by
  obtain ⟨st, h⟩ := hr.rep
  have h' := h.step op
  have hs : (st.step op).history = st.history ∧ (st.step op).cap = st.cap := by
    cases op with
    | openDb => exact ⟨rfl, rfl⟩
    | add s => exact absurd rfl (ha s)
    | setVar var i => unfold Store.step; simp only; split <;> exact ⟨rfl, rfl⟩
    | touch x i => unfold Store.step; simp only; split <;> exact ⟨rfl, rfl⟩
    | clear x => exact ⟨rfl, rfl⟩
    | setCap n => exact absurd rfl (hc n)
  refine ⟨by rw [h'.historyOf, h.historyOf, hs.1], fun cap hcap => ?_⟩
  have h2 := h.capacity
  unfold CapacityIs at hcap h2
  rw [hcap] at h2
  simp only [Option.some.injEq, Int.natCast_inj] at h2
  rw [h2, ← hs.2]
  exact h'.capacity

theorem lineOp_add {m : Machine} {ce : CommandExecutor} {id : Option Int} {ts : List PTok} {op : DbOp}
    (h : TokensOp m id ts op) : ∀ t, op ≠ .add t := by
  rintro t rfl
  rcases h with ⟨_, _, _, _, h⟩ | ⟨_, _, _, _, _, _, _, h⟩ <;> cases h

theorem commandOp_add {m : Machine} {ce : CommandExecutor} {id : Option Int}
    {name arguments : Positioned Str} {op : DbOp}
    (h : CommandOp m ce id name arguments op) : ∀ t, op ≠ .add t := by
  rintro t rfl
  rcases h with ⟨_, _, (⟨_, _, _, _, _, h⟩ | ⟨_, _, h⟩)⟩ | ⟨_, _, _, _, h⟩ <;> cases h

/-- What recording does to the database. -/
theorem recordInput_cases {s : Session} {h : InputHistory} {text : Str} {sd : SavedData}
    (hi : s.inputs = some h) (hc : (h.currentLine : Outcome RuntimeErr Str) = .ok text)
    (hd : s.db = some sd) :
    ∃ sd1, (recordInput s).2 = { s with
        inputs := some { h with internal := h.internal ++ [text], current := [some []], index := 0 }
        db := some sd1 } ∧
      (sd.addToInputHistory text).2 = sd1 ∧
      (recordInput s).1 = match (sd.addToInputHistory text).1 with
        | .ok i => .ok (some i)
        | .err e => .err (.runtime (.db e))
        | .panic k => .panic k
        | .diverge => .diverge := by
  unfold recordInput
  rw [hi]
  simp only
  unfold InputHistory.inputFinished
  rw [hc]
  simp only
  rw [hd]
  simp only [vecIndex_last]
  rcases ha : sd.addToInputHistory text with ⟨r, sd'⟩
  cases r <;> exact ⟨sd', rfl, rfl, rfl⟩

/-- Entering a line in a session: the text of the line is recorded, once, and before anything else the
session does; whatever else is recorded comes from other sessions.  If it cannot be recorded, the
session does nothing to the database. -/
theorem C45_session (m : Machine) (ce : CommandExecutor) (line : Str) (s : Session) (h : InputHistory)
    (text : Str) (sd : SavedData) (hi : s.inputs = some h)
    (hc : (h.currentLine : Outcome RuntimeErr Str) = .ok text) (hd : s.db = some sd)
    (hr : Reachable sd.db) :
    ∃ sd' ops, (calculate m ce line s).2.db = some sd' ∧ sd'.db = after ops sd.db ∧
      (((∀ op ∈ ops, Scheduled sd op) ∧ (calculate m ce line s).1 = .err (.runtime (.db .environment))) ∨
       ∃ ops1 ops2, ops = ops1 ++ .add text :: ops2 ∧ (∀ op ∈ ops1, Scheduled sd op) ∧
        ∀ op ∈ ops2, Scheduled sd op ∨ ∀ t, op ≠ .add t) := by
  obtain ⟨sd1, h1, h2, h3⟩ := recordInput_cases hi hc hd
  obtain ⟨ha, _⟩ := recordInput_args s
  rcases hrec : recordInput s with ⟨r, s1⟩
  rw [hrec] at h1 h3 ha
  simp only at h1 h3 ha
  have hcalc := calculate_eq m ce line
  unfold SavedData.addToInputHistory at h2 h3
  have hs1 : s1.db = some sd1 := by rw [h1]
  rcases run_cases sd (addToInputHistoryTx text) with ⟨_, hx⟩ | ⟨_, hx⟩
  · rw [hx] at h2 h3
    simp only at h2 h3
    refine ⟨sd1, sd.nextEnv.others, ?_, ?_, .inl ⟨fun op ho => nextEnv_scheduled ho, ?_⟩⟩
    · rw [hcalc, andThen_of_err (by rw [hrec, h3])]
      exact hs1
    · rw [← h2]; rfl
    · rw [hcalc, andThen_of_err (by rw [hrec, h3])]
  · obtain ⟨st, hrep⟩ := hr.rep
    obtain ⟨st1, hrep1, _⟩ := hrep.evolves (seen_evolves (fun _ => False) sd)
    obtain ⟨db', hadd, _⟩ := hrep1.add text
    rw [hadd] at hx
    simp only at hx
    rw [hx] at h2 h3
    simp only at h2 h3
    have hdb1 : sd1.db = after (sd.nextEnv.others ++ [.add text]) sd.db := by
      rw [← h2]
      unfold after
      rw [List.foldl_append]
      simp only [List.foldl_cons, List.foldl_nil]
      exact (commit_ok hadd).symm
    have henv1 : sd1.env = sd.env.tail := by rw [← h2]
    rw [hcalc, andThen_of_ok (by rw [hrec, h3])]
    -- the rest
    have hrest : SessRel (fun op => ∀ t, op ≠ .add t) s1
        (afterRecording m ce line (some ((st1.recorded.length : Int) + 1)) s1).2 := by
      unfold afterRecording
      rw [ha]
      cases ht : tokenize line s.args.radix with
      | ok t =>
        cases t with
        | tokens ts => exact (calculateTokens_db m _ ts s1).mono fun op h => lineOp_add (ce := ce) h
        | command name arguments =>
          exact (calculateCommand_db m ce _ name arguments s1).mono fun op h => commandOp_add h
      | err e => exact SessRel.refl _ _
      | panic k => exact SessRel.refl _ _
      | diverge => exact SessRel.refl _ _
    rcases hq : afterRecording m ce line (some ((st1.recorded.length : Int) + 1)) s1 with ⟨r2, s2⟩
    rw [hq] at hrest
    unfold SessRel at hrest
    rw [hs1] at hrest
    simp only at hrest ⊢
    cases hd2 : s2.db with
    | none => rw [hd2] at hrest; exact hrest.elim
    | some sd2 =>
      rw [hd2] at hrest
      obtain ⟨ops2, ho, hdb2⟩ := SdRel.db hrest
      refine ⟨sd2, (sd.nextEnv.others ++ [.add text]) ++ ops2, rfl, ?_, .inr ⟨sd.nextEnv.others, ops2,
        by simp, fun op ho => nextEnv_scheduled ho, ?_⟩⟩
      · rw [hdb2, hdb1]; unfold after; rw [← List.foldl_append]
      · intro op hop
        exact (ho op hop).imp (scheduled_tail henv1) id

/-! ## C46 Database operations never corrupt or wedge the database -/

/-- The history is a doubly linked list. -/
theorem C46_linked (db : Db) (hr : Reachable db) : Linked db := by
  obtain ⟨st, h⟩ := hr.rep
  exact h.wf.linked

/-- All references resolve. -/
theorem C46_references (db : Db) (hr : Reachable db) :
    (∀ r ∈ db.history, ∀ i, r.next = some i ∨ r.prev = some i → ∃ r' ∈ db.history, r'.id = i) ∧
    (∀ t ∈ db.tags, ∀ i, t.2 = some i → ∃ r' ∈ db.history, r'.id = i) ∧
    (∀ v ∈ db.vars, ∃ r' ∈ db.history, r'.id = v.lastUsedBy) := by
  obtain ⟨st, h⟩ := hr.rep
  have hfk := h.wf.fk
  have hm : ∀ i, i ∈ db.ids → ∃ r' ∈ db.history, r'.id = i := fun i hi => List.mem_map.1 hi
  refine ⟨?_, fun t ht i hi => hm i (hfk.tags t ht i hi), fun v hv => hm _ (hfk.vars v hv)⟩
  intro r hr i hi
  rcases hi with hi | hi
  · exact hm i ((hfk.hist r hr).1 i hi)
  · exact hm i ((hfk.hist r hr).2 i hi)

/-- Recording an input, changing the capacity, asking for it, removing or reading a variable and opening
the database always succeed. -/
theorem C46_operations (db : Db) (hr : Reachable db) :
    (∀ s, ∃ i, addToInputHistoryTx s db = .ok (i, (DbOp.add s).apply db)) ∧
    (∀ n, 1 ≤ n → setMaxHistorySizeTx n db = .ok ((), (DbOp.setCap n).apply db)) ∧
    (∃ n : Nat, 1 ≤ n ∧ selectMeta metaMaxHistorySize db = .ok ((n : Int), db)) ∧
    (∀ x, clearVariableTx x db = .ok ((), (DbOp.clear x).apply db)) ∧
    (∀ x, ∃ v, getVariableTx x db = .ok (v, db)) ∧
    (∃ front, openTx db = .ok (front, db)) := by
  obtain ⟨st, h⟩ := hr.rep
  refine ⟨fun s => ?_, fun n hn => ?_, ?_, fun x => ?_, fun x => ?_, ?_⟩
  · obtain ⟨db', hx, _⟩ := h.add s
    exact ⟨_, by rw [hx, show DbOp.apply (.add s) db = db' from commit_ok hx]⟩
  · obtain ⟨db', hx, _⟩ := h.setCap n hn
    have : DbOp.apply (.setCap n) db = db' := by
      unfold DbOp.apply validateMaxHistorySize; simp only; rw [if_neg (by omega)]; exact commit_ok hx
    rw [hx, this]
  · refine ⟨st.cap, h.wf.capPos, ?_⟩
    unfold selectMeta
    rw [h.wf.hcap]
  · obtain ⟨db', hx, _⟩ := h.clear x
    rw [hx, show DbOp.apply (.clear x) db = db' from commit_ok hx]
  · rcases getVariableTx_total h.varsOk x with ⟨q, hq⟩ | hq
    · exact ⟨_, hq⟩
    · exact ⟨_, hq⟩
  · exact ⟨_, open_ok h.wf⟩

/-- Storing a variable succeeds exactly if the input it is attributed to is still in the history;
otherwise the database refuses it and stays as it is.  (This happens only if other sessions have
dropped the input in the meantime.) -/
theorem C46_setVariable (db : Db) (hr : Reachable db) (var : Variable) (i : Int) :
    ((∃ r ∈ db.history, r.id = i) →
      setVariableTx var i db = .ok ((), (DbOp.setVar var i).apply db)) ∧
    ((¬ ∃ r ∈ db.history, r.id = i) →
      setVariableTx var i db = .err .constraint ∧ (DbOp.setVar var i).apply db = db) := by
  obtain ⟨st, h⟩ := hr.rep
  have hm : (∃ r ∈ db.history, r.id = i) ↔ st.Has i := by
    rw [← h.mem_ids]; unfold Db.ids; rw [List.mem_map]
  rw [hm]
  rcases h.setVar var i with ⟨hh, db', hx, _⟩ | ⟨hh, hx, _⟩
  · refine ⟨fun _ => by rw [hx, show DbOp.apply (.setVar var i) db = db' from commit_ok hx], ?_⟩
    exact fun hn => absurd hh hn
  · refine ⟨fun h => absurd h hh, fun _ => ⟨hx, ?_⟩⟩
    unfold DbOp.apply Tx.commit
    simp only [hx]

/-- The same for marking a variable as used; a variable that is not stored need not be marked. -/
theorem C46_touchVariable (db : Db) (hr : Reachable db) (x : Str) (i : Int) :
    ((∃ r ∈ db.history, r.id = i) ∨ (∀ v ∈ db.vars, v.name ≠ x) →
      touchVariableTx x i db = .ok ((), (DbOp.touch x i).apply db)) ∧
    (¬ ((∃ r ∈ db.history, r.id = i) ∨ (∀ v ∈ db.vars, v.name ≠ x)) →
      touchVariableTx x i db = .err .constraint ∧ (DbOp.touch x i).apply db = db) := by
  obtain ⟨st, h⟩ := hr.rep
  have hm : (∃ r ∈ db.history, r.id = i) ↔ st.Has i := by
    rw [← h.mem_ids]; unfold Db.ids; rw [List.mem_map]
  have hv : (∀ v ∈ db.vars, v.name ≠ x) ↔ st.vars x = none := by
    constructor
    · intro hn
      cases hs : st.vars x with
      | none => rfl
      | some v =>
        obtain ⟨r, hr, hn', _⟩ := (h.vars x v.1 v.2).1 hs
        exact absurd hn' (hn r hr)
    · intro hs v hv hn
      obtain ⟨q, hq, _⟩ := h.row hv
      rw [hn, hs] at hq
      cases hq
  rw [hm, hv]
  rcases h.touch x i with ⟨hh, db', hx, _⟩ | ⟨hh1, hh2, hx, _⟩
  · refine ⟨fun _ => by rw [hx, show DbOp.apply (.touch x i) db = db' from commit_ok hx], ?_⟩
    exact fun hn => absurd hh hn
  · refine ⟨fun h => absurd h (by simp [hh1, hh2]), fun _ => ⟨hx, ?_⟩⟩
    unfold DbOp.apply Tx.commit
    simp only [hx]

/-- In a session: whatever other sessions do in between, recording an input, changing the capacity and
asking for it fail only for outside reasons. -/
theorem C46_connection (sd : SavedData) (hr : Reachable sd.db) :
    (∀ s, (∃ i, (sd.addToInputHistory s).1 = .ok i) ∨ (sd.addToInputHistory s).1 = .err .environment) ∧
    (∀ n, 1 ≤ n → (sd.setMaxHistorySize n).1 = .ok () ∨ (sd.setMaxHistorySize n).1 = .err .environment) ∧
    ((∃ n, 1 ≤ n ∧ sd.getMaxHistorySize.1 = .ok n) ∨ sd.getMaxHistorySize.1 = .err .environment) := by
  have hs : Reachable sd.seen := hr.evolves (seen_evolves (fun _ => False) sd)
  obtain ⟨h1, h2, ⟨n, hn, h3⟩, _⟩ := C46_operations sd.seen hs
  refine ⟨fun s => ?_, fun k hk => ?_, ?_⟩
  · unfold SavedData.addToInputHistory
    rcases run_cases sd (addToInputHistoryTx s) with ⟨_, hx⟩ | ⟨_, hx⟩
    · rw [hx]; exact .inr rfl
    · obtain ⟨i, hi⟩ := h1 s
      rw [hx, hi]; exact .inl ⟨i, rfl⟩
  · unfold SavedData.setMaxHistorySize
    have : validateMaxHistorySize k = .ok () := by
      unfold validateMaxHistorySize; rw [if_neg (by omega)]
    rw [this]
    simp only
    rcases run_cases sd (setMaxHistorySizeTx k) with ⟨_, hx⟩ | ⟨_, hx⟩
    · rw [hx]; exact .inr rfl
    · rw [hx, h2 k hk]; exact .inl rfl
  · unfold SavedData.getMaxHistorySize
    rcases run_cases sd (selectMeta metaMaxHistorySize) with ⟨_, hx⟩ | ⟨_, hx⟩
    · rw [hx]; exact .inr rfl
    · rw [hx, h3]; exact .inl ⟨n, by exact_mod_cast hn, rfl⟩

/-- Handling an input leaves a database that operations can bring about, whatever happens meanwhile. -/
theorem C46_session (m : Machine) (ce : CommandExecutor) (line : Str) (s : Session) (sd : SavedData)
    (hd : s.db = some sd) (hr : Reachable sd.db) :
    ∃ sd', (calculate m ce line s).2.db = some sd' ∧ Reachable sd'.db := by
  have h := calculate_db m ce line s
  unfold SessRel at h
  rw [hd] at h
  cases hd' : (calculate m ce line s).2.db with
  | none => rw [hd'] at h; exact h.elim
  | some sd' => rw [hd'] at h; exact ⟨sd', rfl, hr.evolves (SdRel.db h)⟩

example : Linked exDb3 := C46_linked _ ⟨_, rfl⟩

example : exDb3.history = [⟨2, "$x = 5".toList, some 3, none⟩, ⟨3, "$y".toList, none, some 2⟩] ∧
    exDb3.tags = [(tagFront, some 3), (tagBack, some 2)] ∧
    exDb3.vars.map (fun v => (v.name, v.lastUsedBy)) = [("$y".toList, 3)] := by decide +kernel

/-! ## C47 History ids are never reused -/

/-- The id given to an input is one more than the number of inputs ever recorded before it. -/
theorem C47_id (ops : List DbOp) (s : Str) (i : Int) (db' : Db)
    (h : addToInputHistoryTx s (after ops newDb) = .ok (i, db')) :
    i = (storeAfter ops).recorded.length + 1 := by
  obtain ⟨db1, hx, _⟩ := (rep_after ops).add s
  rw [hx] at h
  simp only [Outcome.ok.injEq, Prod.mk.injEq] at h
  exact h.1.symm

/-- So it is larger than every one given before. -/
theorem C47_increasing (db db1 db2 db3 : Db) (hr : Reachable db) (s s' : Str) (i j : Int)
    (h1 : addToInputHistoryTx s db = .ok (i, db1)) (h2 : Evolves (fun _ => True) db1 db2)
    (h3 : addToInputHistoryTx s' db2 = .ok (j, db3)) : i < j := by
  obtain ⟨st, h⟩ := hr.rep
  obtain ⟨db1', hx, hrep1⟩ := h.add s
  rw [hx] at h1
  simp only [Outcome.ok.injEq, Prod.mk.injEq] at h1
  obtain ⟨rfl, rfl⟩ := h1
  obtain ⟨st2, hrep2, hb⟩ := hrep1.evolves h2
  obtain ⟨db3', hx3, _⟩ := hrep2.add s'
  rw [hx3] at h3
  simp only [Outcome.ok.injEq, Prod.mk.injEq] at h3
  obtain ⟨rfl, rfl⟩ := h3
  have hlen := hb.recorded.length_le
  have : (st.step (.add s)).recorded.length = st.recorded.length + 1 := by
    simp [Store.step, Store.trim]
  omega

theorem Rep.mem {st : Store} {db : Db} (h : Rep st db) {r : HistRow} (hr : r ∈ db.history) :
    st.Has r.id ∧ st.recorded[(r.id - 1).toNat]? = some r.input := by
  rcases h.find r.id with ⟨hh, s, n, hs, hf⟩ | ⟨hn, hf⟩
  · refine ⟨hh, ?_⟩
    have hm := List.mem_of_find?_eq_some hf
    have hnd : (db.history.map (·.id)).Nodup := by
      have : db.history.map (·.id) = db.ids := rfl
      rw [this, h.wf.ids]
      exact h.wf.incr.imp (fun h => Int.ne_of_lt h)
    have := List.inj_on_of_nodup_map hnd hr hm rfl
    rw [this]
    exact hs
  · have := List.find?_eq_none.1 hf r hr
    simp at this

/-- An id never comes to denote a different input. -/
theorem C47_same_input (db db' : Db) (hr : Reachable db) (he : Evolves (fun _ => True) db db')
    (r r' : HistRow) (h : r ∈ db.history) (h' : r' ∈ db'.history) (hid : r'.id = r.id) :
    r'.input = r.input := by
  obtain ⟨st, hrep⟩ := hr.rep
  obtain ⟨st', hrep', hb⟩ := hrep.evolves he
  have h1 := before_get hb (hrep.mem h).2
  have h2 := (hrep'.mem h').2
  rw [hid, h1] at h2
  simpa using h2.symm

/-- An id that has been dropped does not come back. -/
theorem C47_gone (db db1 db2 : Db) (hr : Reachable db) (r : HistRow) (h : r ∈ db.history)
    (he1 : Evolves (fun _ => True) db db1) (hg : ∀ r1 ∈ db1.history, r1.id ≠ r.id)
    (he2 : Evolves (fun _ => True) db1 db2) : ∀ r2 ∈ db2.history, r2.id ≠ r.id := by
  obtain ⟨st, hrep⟩ := hr.rep
  obtain ⟨st1, hrep1, hb1⟩ := hrep.evolves he1
  obtain ⟨st2, hrep2, hb2⟩ := hrep1.evolves he2
  intro r2 h2 hid
  have h1 : ¬ st1.Has r.id := by
    rw [← hrep1.mem_ids]
    intro hm
    obtain ⟨r1, hm1, hid1⟩ := List.mem_map.1 hm
    exact hg r1 hm1 hid1
  have ha := (hrep.mem h).1
  have hb := (hrep2.mem h2).1
  rw [hid] at hb
  have hl1 := hb1.recorded.length_le
  have hl2 := hb2.low
  have hk1 := hrep1.le_len
  have hk2 := hrep2.le_len
  unfold Store.Has at ha hb h1
  unfold Store.low at hl2
  omega

example : addToInputHistoryTx "x".toList exDb3 = .ok (4, (DbOp.add "x".toList).apply exDb3) := by
  decide +kernel

/-! ## C48 Scrollback shows the earlier sessions' inputs, newest first -/

/-- What the requests show are the newest inputs that were in the history when the session opened the
database, newest first. -/
theorem C48_newest_first (db : Db) (hr : Reachable db) (env : List EnvStep) (sd sd' : SavedData)
    (shown : List Str) (h : SavedData.openDb db env = .ok sd) (hs : Scroll sd shown sd') :
    shown <+: (historyOf sd.db).reverse := by
  obtain ⟨st, hrep, hinv⟩ := open_inv hr h
  rw [hrep.historyOf]
  exact (hinv.scroll hrep.le_len hs).pre

/-- A request that finds nothing means that the remaining inputs have been dropped from the history. -/
theorem C48_complete (db : Db) (hr : Reachable db) (env : List EnvStep) (sd sd' sd'' : SavedData)
    (shown : List Str) (h : SavedData.openDb db env = .ok sd) (hs : Scroll sd shown sd')
    (hn : sd'.getPrevInputHistory = (.ok none, sd'')) :
    ∀ r ∈ sd.db.history.reverse.drop shown.length, ∀ r' ∈ sd''.db.history, r'.id ≠ r.id := by
  obtain ⟨st, hrep, hinv⟩ := open_inv hr h
  have h1 := hinv.scroll hrep.le_len hs
  have h2 := h1.request hrep.le_len
  rw [hn] at h2
  simp only [answer, List.append_nil] at h2
  obtain ⟨st2, hrep2, hb2, hat⟩ := h2.rep
  have hpos : sd''.position = none := by
    rcases request_cases sd' with ⟨hp, hx⟩ | ⟨i, hp, ⟨_, hx⟩ | ⟨_, _, sd3, hx, _, hpos, _⟩ | ⟨_, r, _, sd3, hx, _⟩⟩
    · rw [hx] at hn; simp only [Prod.mk.injEq] at hn; rw [← hn.2]; exact hp
    · rw [hx] at hn; simp at hn
    · rw [hx] at hn; simp only [Prod.mk.injEq] at hn; rw [← hn.2]; exact hpos
    · rw [hx] at hn; simp at hn
  rw [hpos] at hat
  intro r hr r' hr' hid
  have hl0 := hrep.le_len
  have hl2 := hrep2.le_len
  have hh' := (hrep2.mem hr').1
  rw [hid] at hh'
  -- the number of the row
  have hrid : r.id ≤ (st.recorded.length : Int) - shown.length ∧ shown.length < st.kept := by
    have hrows : sd.db.history = rows none st.entries := hrep.wf.hist
    rw [hrows] at hr
    obtain ⟨n, hn⟩ := List.mem_iff_getElem?.1 hr
    rw [List.getElem?_drop] at hn
    have hlen : (rows none st.entries).length = st.kept := by
      rw [rows_length, entries_length st hl0]
    have hlt : shown.length + n < (rows none st.entries).length := by
      have := (List.getElem?_eq_some_iff.1 hn).1
      simpa using this
    rw [List.getElem?_reverse hlt, rows_get] at hn
    cases he : st.entries[(rows none st.entries).length - 1 - (shown.length + n)]? with
    | none => rw [he] at hn; cases hn
    | some e =>
      rw [he] at hn
      simp only [Option.map_some, Option.some.injEq] at hn
      rw [← hn]
      simp only
      rw [hlen] at he hlt
      unfold Store.entries at he
      have hidx : ∀ (k : Nat) (l : List Str) (j : Nat) (e : Int × Str),
          (numbered k l)[j]? = some e → e.1 = k + j + 1 := by
        intro k l
        induction l generalizing k with
        | nil => intro j e h; simp [numbered] at h
        | cons t l ih =>
          intro j e h
          cases j with
          | zero => simp [numbered] at h; rw [← h]; simp
          | succ j =>
            simp only [numbered, List.getElem?_cons_succ] at h
            rw [ih _ _ _ h]; push_cast; omega
      have := hidx _ _ _ _ he
      omega
  have hlow := hb2.recorded.length_le
  unfold Store.Has at hh'
  rcases hat with hat | hat
  · omega
  · unfold Store.low at hat
    omega

/-- After that, all further requests find nothing. -/
theorem C48_end (sd sd1 sd2 : SavedData) (shown : List Str)
    (h : sd.getPrevInputHistory = (.ok none, sd1)) (hs : Scroll sd1 shown sd2) :
    shown = [] ∧ sd2.getPrevInputHistory.1 = .ok none := by
  have hpos : sd1.position = none := by
    rcases request_cases sd with ⟨hp, hx⟩ | ⟨i, hp, ⟨_, hx⟩ | ⟨_, _, sd3, hx, _, hpos, _⟩ | ⟨_, r, _, sd3, hx, _⟩⟩
    · rw [hx] at h; simp only [Prod.mk.injEq] at h; rw [← h.2]; exact hp
    · rw [hx] at h; simp at h
    · rw [hx] at h; simp only [Prod.mk.injEq] at h; rw [← h.2]; exact hpos
    · rw [hx] at h; simp at h
  have key : ∀ sd : SavedData, sd.position = none → sd.getPrevInputHistory = (.ok none, sd) := by
    intro sd hp
    unfold SavedData.getPrevInputHistory
    rw [hp]
  have : shown = [] ∧ sd2.position = none := by
    induction hs with
    | now => exact ⟨rfl, hpos⟩
    | meanwhile _ hp _ ih => exact ⟨ih.1, hp.trans ih.2⟩
    | request _ ih =>
      obtain ⟨h1, h2⟩ := ih
      rw [key _ h2, h1]
      exact ⟨rfl, h2⟩
  exact ⟨this.1, by rw [key _ this.2]⟩

/-- Requests fail only for outside reasons, and then the next one takes it up again. -/
theorem C48_failure (sd : SavedData) :
    (∃ o, sd.getPrevInputHistory.1 = .ok o) ∨
    (sd.getPrevInputHistory.1 = .err .environment ∧ sd.getPrevInputHistory.2.position = sd.position) := by
  rcases request_cases sd with ⟨_, hx⟩ | ⟨i, hp, ⟨_, hx⟩ | ⟨_, _, sd3, hx, _⟩ | ⟨_, r, _, sd3, hx, _⟩⟩
  · exact .inl ⟨none, by rw [hx]⟩
  · exact .inr ⟨by rw [hx], by rw [hx]⟩
  · exact .inl ⟨none, by rw [hx]⟩
  · exact .inl ⟨some r.input, by rw [hx]⟩

/-- Scrolling back all the way while another session adds an input, which drops the oldest. -/
example : ∃ sd, SavedData.openDb exDb3 [] = .ok sd ∧ sd.getPrevInputHistory.1 = .ok (some "$y".toList) ∧
    let sd2 := sd.getPrevInputHistory.2
    let sd3 := { sd2 with db := (DbOp.add "new".toList).apply sd2.db }
    sd2.getPrevInputHistory.1 = .ok (some "$x = 5".toList) ∧ sd3.getPrevInputHistory.1 = .ok none :=
  ⟨⟨exDb3, some 3, [], [exDb3]⟩, by decide +kernel, by decide +kernel, by decide +kernel⟩

/-! ## C49 Variables live as long as their last use -/

/-- Which variables are stored, with which value and last used by which input. -/
theorem C49_exact (ops : List DbOp) (x : Str) (q : Rat) (i : Int) :
    (storeAfter ops).vars x = some (q, i) ↔ ∃ row ∈ (after ops newDb).vars, row.name = x ∧
      row.numer = intDisplay q.num ∧ row.denom = intDisplay q.den ∧ row.lastUsedBy = i :=
  (rep_after ops).vars x q i

/-- The input that last set or used a stored variable is in the history. -/
theorem C49_alive (db : Db) (hr : Reachable db) : ∀ v ∈ db.vars, ∃ r ∈ db.history, r.id = v.lastUsedBy :=
  (C46_references db hr).2.2

/-- Dropping inputs (which recording an input or changing the capacity may do) removes exactly the
variables last used by them. -/
theorem C49_evict (db : Db) (hr : Reachable db) (op : DbOp)
    (ho : (∃ s, op = .add s) ∨ ∃ n, op = .setCap n) :
    (op.apply db).vars =
      db.vars.filter fun v => (op.apply db).history.any fun r => r.id == v.lastUsedBy := by
  obtain ⟨st, h⟩ := hr.rep
  have hany : ∀ (db' : Db) (i : Int), (db'.history.any fun r => r.id == i) = decide (i ∈ db'.ids) := by
    intro db' i
    rw [Bool.eq_iff_iff, decide_eq_true_iff]
    exact hasId_iff db' i
  simp only [hany]
  rcases ho with ⟨s, rfl⟩ | ⟨n, rfl⟩
  · obtain ⟨db', hx, hE⟩ := add_ok h.wf s
    rw [show DbOp.apply (.add s) db = db' from commit_ok hx, hE.wf.ids]
    exact hE.vars
  · by_cases hn : n < 1
    · have h2 : DbOp.apply (.setCap n) db = db := by
        unfold DbOp.apply validateMaxHistorySize; simp only; rw [if_pos hn]
      rw [h2]
      symm
      rw [List.filter_eq_self]
      intro v hv
      rw [h.wf.ids]
      simpa using h.wf.vars v hv
    · obtain ⟨k, rfl⟩ := Int.eq_ofNat_of_zero_le (show 0 ≤ n by omega)
      obtain ⟨db', hx, hw, hv⟩ := setCap_ok h.wf k (by omega)
      have : DbOp.apply (.setCap k) db = db' := by
        unfold DbOp.apply validateMaxHistorySize; simp only; rw [if_neg hn]; exact commit_ok hx
      rw [this, hw.ids]
      exact hv

/-- A variable that is set or used is from then on last used by that input; the other variables are not
changed. -/
theorem C49_used (db : Db) :
    (∀ var i db', setVariableTx var i db = .ok ((), db') → db'.vars =
      db.vars.filter (fun v => v.name ≠ var.name) ++
        [⟨var.name, intDisplay var.value.num, intDisplay var.value.den, i⟩]) ∧
    (∀ x i db', touchVariableTx x i db = .ok ((), db') → db'.vars =
      db.vars.map fun v => if v.name = x then ⟨v.name, v.numer, v.denom, i⟩ else v) := by
  constructor
  · intro var i db' h
    rw [(exec_ok h).1]
  · intro x i db' h
    rw [(exec_ok h).1]

/-- The stored variable is last used by that input. -/
def LastUsedBy (db : Db) (x : Str) (i : Int) : Prop := ∀ v ∈ db.vars, v.name = x → v.lastUsedBy = i

theorem lastUsedBy_touch {db : Db} {x y : Str} {i : Int} (h : LastUsedBy db x i) :
    LastUsedBy ((DbOp.touch y i).apply db) x i := by
  unfold DbOp.apply touchVariableTx
  simp only
  rcases exec_commit _ db with hx | hx
  · rw [hx]
    intro v hv hn
    obtain ⟨r, hr, rfl⟩ := List.mem_map.1 hv
    split at hn
    · rw [if_pos (by assumption)]
    · rw [if_neg (by assumption)]; exact h r hr hn
  · rw [hx]; exact h

theorem lastUsedBy_set {db : Db} {x : Str} {var : Variable} {i : Int} (h : LastUsedBy db x i) :
    LastUsedBy ((DbOp.setVar var i).apply db) x i := by
  unfold DbOp.apply setVariableTx
  simp only
  rcases exec_commit _ db with hx | hx
  · rw [hx]
    intro v hv hn
    rcases List.mem_append.1 hv with hv | hv
    · exact h v (List.mem_filter.1 hv).1 hn
    · simp only [List.mem_singleton] at hv
      rw [hv]
  · rw [hx]; exact h

theorem touchAll_marks {x : Str} {i : Int} : ∀ (l : List Str) (s s' : Session) (sd : SavedData)
    (_ : s.db = some sd) (_ : sd.env = []) (_ : s.vars.isSome)
    (_ : touchAll (some i) l s = (.ok (), s')), ∃ sd', s'.db = some sd' ∧ sd'.env = [] ∧
      ((LastUsedBy sd.db x i ∨ x ∈ l) → LastUsedBy sd'.db x i)
  | [], s, s', sd, hd, he, _, h => by
    unfold touchAll at h
    simp only [Prod.mk.injEq, true_and] at h
    subst h
    refine ⟨sd, hd, he, ?_⟩
    rintro (h | h)
    · exact h
    · simp at h
  | y :: l, s, s', sd, hd, he, hv, h => by
    unfold touchAll at h
    obtain ⟨_, s1, h1, h⟩ := andThen_ok h
    unfold touchOne at h1
    cases hvs : s.vars with
    | none => rw [hvs] at hv; cases hv
    | some vs =>
      rw [hvs] at h1
      simp only at h1
      unfold VariableStore.touch at h1
      rw [hd] at h1
      simp only at h1
      unfold SavedData.touchVariable at h1
      rw [run_quiet he] at h1
      rcases hx : touchVariableTx y i sd.db with ⟨_, db'⟩ | e | k | _
      · rw [hx] at h1
        simp only [liftDb, Outcome.mapErr, Prod.mk.injEq, Outcome.ok.injEq, true_and] at h1
        have hdb' : db' = (DbOp.touch y i).apply sd.db := (commit_ok hx).symm
        obtain ⟨sd', hd', he', hm⟩ := touchAll_marks (x := x) l s1 s'
          { sd with db := db', commits := sd.commits ++ [db'] } (by rw [← h1]) he (by rw [← h1]; rfl) h
        refine ⟨sd', hd', he', ?_⟩
        rintro (hl | hl)
        · exact hm (.inl (by rw [hdb']; exact lastUsedBy_touch hl))
        · rcases List.mem_cons.1 hl with rfl | hl
          · refine hm (.inl ?_)
            intro v hv hn
            simp only at hv
            rw [(exec_ok hx).1] at hv
            obtain ⟨r, hr, rfl⟩ := List.mem_map.1 hv
            split at hn
            · rw [if_pos (by assumption)]
            · exact absurd hn (by assumption)
          · exact hm (.inr hl)
      all_goals
        rw [hx] at h1
        simp only [liftDb, Outcome.mapErr, Prod.mk.injEq, reduceCtorEq, false_and] at h1

/-- If recording the input succeeds, there is a number for it. -/
theorem recordInput_id {s s1 : Session} {h : InputHistory} {sd : SavedData} {id : Option Int}
    (hi : s.inputs = some h) (hd : s.db = some sd) (h1 : recordInput s = (.ok id, s1)) :
    ∃ i, id = some i := by
  rcases hc : (h.currentLine : Outcome RuntimeErr Str) with text | e | k | _
  · obtain ⟨sd1, _, _, h3⟩ := recordInput_cases hi hc hd
    rw [h1] at h3
    simp only at h3
    rcases ha : (sd.addToInputHistory text).1 with i | e | k | _
    · rw [ha] at h3
      simp only [Outcome.ok.injEq] at h3
      exact ⟨i, h3⟩
    all_goals rw [ha] at h3; cases h3
  all_goals
    unfold recordInput at h1
    rw [hi] at h1
    simp only at h1
    unfold InputHistory.inputFinished at h1
    rw [hc] at h1
    simp [Outcome.mapErr] at h1

/-- In a session: after an expression has been evaluated, each stored variable that occurs in it is last
used by this input, whose number is `i`. -/
theorem C49_session (m : Machine) (hm : HashOk m) (ce : CommandExecutor) (line : Str) (s s' : Session)
    (out : Str) (ts : List PTok) (ht : tokenize line s.args.radix = .ok (.tokens ts))
    (h : calculate m ce line s = (.ok out, s')) (hv : s.vars.isSome) (hq : Quiet s) (sd : SavedData)
    (hd : s.db = some sd) (inp : InputHistory) (hi : s.inputs = some inp)
    (x : Str) (p : Position) (hx : ⟨.variable x, p⟩ ∈ ts) :
    ∃ i sd', recordInput s = (.ok (some i), (recordInput s).2) ∧ s'.db = some sd' ∧
      LastUsedBy sd'.db x i := by
  have hne : ts ≠ [] := by rintro rfl; simp at hx
  obtain ⟨ha, hvars⟩ := recordInput_args s
  have hrel := recordInput_db s
  rw [calculate_eq] at h
  obtain ⟨id, s1, h1, h⟩ := andThen_ok h
  obtain ⟨i, rfl⟩ := recordInput_id hi hd h1
  rw [h1] at ha hvars hrel
  simp only at ha hvars
  unfold SessRel at hrel
  simp only at hrel
  rw [hd] at hrel
  refine ⟨i, ?_⟩
  cases hd1 : s1.db with
  | none => rw [hd1] at hrel; exact hrel.elim
  | some sd1 =>
    rw [hd1] at hrel
    have henv : sd1.env = [] := (SdRel.quiet hrel (hq sd hd)).1
    unfold afterRecording at h
    rw [ha, ht] at h
    simp only at h
    have hvs : s1.vars.isSome := by rw [hvars]; exact hv
    unfold calculateTokens at h
    obtain ⟨_, s2, h2, h⟩ := andThen_ok h
    have h2' : touchAll (some i) (m.hashOrder (variableNames ts)) s1 = (.ok (), s2) := by
      obtain ⟨vs, hvs⟩ := Option.isSome_iff_exists.1 hvs
      rw [hvs] at h2
      exact h2
    obtain ⟨sd2, hd2, he2, hm2⟩ := touchAll_marks (x := x) _ s1 s2 sd1 hd1 henv hvs h2'
    have hlast := hm2 (.inr ((hash_mem hm).2
      (List.mem_filterMap.2 ⟨⟨.variable x, p⟩, hx, rfl⟩)))
    rw [if_neg hne] at h
    obtain ⟨tree, s3, h3, h⟩ := andThen_ok h
    simp only [St.lift, Prod.mk.injEq] at h3
    obtain ⟨h3, rfl⟩ := h3
    obtain ⟨v, s4, h4, h⟩ := andThen_ok h
    simp only [Prod.mk.injEq] at h
    obtain ⟨_, rfl⟩ := h
    have ht := treeExecute_db m s2.args tree (some i) ⟨s2.vars, s2.db⟩
    unfold executeTree at h4
    simp only [Prod.mk.injEq] at h4
    unfold EnvRel at ht
    simp only at ht
    rw [hd2] at ht h4
    have hdb : s4.db = (tree.execute m s2.args (some i) ⟨s2.vars, some sd2⟩).2.db := by rw [← h4.2]
    rw [← hdb] at ht
    cases hd4 : s4.db with
    | none => rw [hd4] at ht; exact ht.elim
    | some sd4 =>
      rw [hd4] at ht
      refine ⟨sd4, by rw [h1], rfl, ?_⟩
      refine Spec.Evolves.keeps (P := fun db => LastUsedBy db x i) ?_ (SdRel.quiet ht he2).2 hlast
      rintro op db ⟨var, v, i', _, hid, rfl⟩ hl
      cases hid
      exact lastUsedBy_set hl

/-! ## C52 Opening is idempotent and version-safe -/

/-- Opening a database that some sessions have used succeeds and changes nothing in it. -/
theorem C52_existing (db : Db) (hr : Reachable db) :
    DbOp.openDb.apply db = db ∧ ∃ sd, SavedData.openDb db [] = .ok sd ∧ sd.db = db := by
  obtain ⟨st, h⟩ := hr.rep
  refine ⟨commit_ok (open_ok h.wf), ?_⟩
  unfold SavedData.openDb
  rw [run_quiet rfl, open_ok h.wf]
  exact ⟨_, rfl, rfl⟩

/-- With other sessions at work: opening leaves what they made of it. -/
theorem C52_concurrent (db : Db) (hr : Reachable db) (env : List EnvStep) (sd : SavedData)
    (h : SavedData.openDb db env = .ok sd) :
    sd.db = after (env.head?.elim [] (·.others)) db := by
  unfold SavedData.openDb at h
  obtain ⟨st, hrep⟩ := hr.rep
  obtain ⟨st1, hrep1, _⟩ := hrep.evolves
    (seen_evolves (fun _ => False) { db := db, position := none, env := env, commits := [] })
  rcases run_cases { db := db, position := none, env := env, commits := [] } openTx with ⟨_, hx⟩ | ⟨_, hx⟩
  · rw [hx] at h; cases h
  · rw [open_ok hrep1.wf] at hx
    rw [hx] at h
    simp only [Outcome.ok.injEq] at h
    subst h
    cases env <;> rfl

/-- A new database has no inputs and no variables, and the capacity is 100. -/
theorem C52_fresh : ∃ sd, SavedData.openDb ⟨[], [], [], []⟩ [] = .ok sd ∧ sd.db = newDb ∧
    historyOf sd.db = [] ∧ sd.db.vars = [] ∧ CapacityIs sd.db 100 ∧ sd.position = none :=
  ⟨⟨newDb, none, [], [newDb]⟩, by decide +kernel, rfl, by decide +kernel, by decide +kernel,
    by unfold CapacityIs; decide +kernel, rfl⟩

/-- What `INSERT OR IGNORE` leaves alone. -/
theorem lookupKey_insertOrIgnore {α : Type} (k k' : Nat) (v w : α) (t : List (Nat × α))
    (h : lookupKey k' t = some w) : lookupKey k' (insertOrIgnore k v t) = some w := by
  unfold insertOrIgnore
  split
  · exact h
  · have : ∀ t : List (Nat × α), lookupKey k' t = some w → lookupKey k' (t ++ [(k, v)]) = some w := by
      intro t
      induction t with
      | nil => intro h; cases h
      | cons a t ih =>
        intro h
        obtain ⟨a1, a2⟩ := a
        simp only [List.cons_append, lookupKey] at h ⊢
        split
        · rename_i hk; rw [if_pos hk] at h; exact h
        · rename_i hk; rw [if_neg hk] at h; exact ih h
    exact this t h

theorem lookupKey_insertOrIgnore_none {α : Type} (k : Nat) (v : α) (t : List (Nat × α))
    (h : lookupKey k t = none) : lookupKey k (insertOrIgnore k v t) = some v := by
  unfold insertOrIgnore
  rw [h]
  simp only
  induction t with
  | nil => simp [lookupKey]
  | cons a t ih =>
    obtain ⟨a1, a2⟩ := a
    simp only [List.cons_append, lookupKey] at h ⊢
    split
    · rename_i hk; rw [if_pos hk] at h; cases h
    · rename_i hk; rw [if_neg hk] at h; exact ih h

theorem lookupKey_inserted {α : Type} (k : Nat) (v : α) (t : List (Nat × α)) :
    ∃ w, lookupKey k (insertOrIgnore k v t) = some w := by
  cases h : lookupKey k t with
  | some w => exact ⟨w, lookupKey_insertOrIgnore _ _ _ _ _ h⟩
  | none => exact ⟨v, lookupKey_insertOrIgnore_none _ _ _ h⟩

/-- The tables after a successful opening. -/
def openedDb (db : Db) : Db := { db with
  metaInt := insertOrIgnore metaMaxHistorySize defaultMaxHistorySize
    (insertOrIgnore metaVersion currentDbVersion
      (insertOrIgnore metaMinimumVersion minimumCompatibleDbVersion db.metaInt))
  tags := insertOrIgnore tagBack none (insertOrIgnore tagFront none db.tags) }

theorem initMeta_cases (k : Nat) (v : Int) (db : Db) :
    initMeta k v db = .ok ((), { db with metaInt := insertOrIgnore k v db.metaInt }) ∧ db.fkOk = true ∨
    initMeta k v db = .err .constraint ∧ db.fkOk = false := by
  unfold initMeta exec
  have : ({ db with metaInt := insertOrIgnore k v db.metaInt } : Db).fkOk = db.fkOk := rfl
  simp only [this]
  cases db.fkOk <;> simp

theorem refOk_none (db : Db) : db.refOk none = true := rfl

theorem initTag_cases (k : Nat) (db : Db) (h : db.fkOk = true) :
    initTag k db = .ok ((), { db with tags := insertOrIgnore k none db.tags }) := by
  unfold initTag
  refine exec_of_fk ?_
  unfold insertOrIgnore
  split
  · exact (fkOk_iff _).1 h
  · have h := (fkOk_iff _).1 h
    rw [← fkOk_iff] at h ⊢
    unfold Db.fkOk Db.refOk Db.hasId at *
    simp only [Bool.and_eq_true, List.all_append, List.all_cons, List.all_nil, Bool.and_true] at h ⊢
    exact h

theorem openTx_cases (db : Db) :
    (db.fkOk = false ∧ openTx db = .err .constraint) ∨
    (∃ v, lookupKey metaMinimumVersion db.metaInt = some v ∧ v > currentDbVersion ∧
      openTx db = .err (.inconsistency
        "Database version is not compatible with executable version".toList)) ∨
    ((∀ v, lookupKey metaMinimumVersion db.metaInt = some v → v ≤ currentDbVersion) ∧ db.fkOk = true ∧
      ∃ f, lookupKey tagFront (openedDb db).tags = some f ∧ openTx db = .ok (f, openedDb db)) := by
  unfold openTx
  simp only [Tx.andThen]
  rcases initMeta_cases metaMinimumVersion minimumCompatibleDbVersion db with ⟨h1, hf⟩ | ⟨h1, hf⟩
  swap
  · left; rw [h1]; exact ⟨hf, rfl⟩
  right
  rw [h1]
  simp only
  unfold selectMeta
  obtain ⟨v, hv⟩ := lookupKey_inserted metaMinimumVersion minimumCompatibleDbVersion db.metaInt
  rw [hv]
  simp only
  by_cases hgt : v > currentDbVersion
  · left
    rw [if_pos hgt]
    refine ⟨v, ?_, hgt, rfl⟩
    cases hl : lookupKey metaMinimumVersion db.metaInt with
    | some w =>
      rw [lookupKey_insertOrIgnore _ _ _ _ _ hl] at hv
      exact hv
    | none =>
      rw [lookupKey_insertOrIgnore_none _ _ _ hl] at hv
      cases hv
      revert hgt
      decide
  · right
    rw [if_neg hgt]
    refine ⟨fun w hw => ?_, hf, ?_⟩
    · have := lookupKey_insertOrIgnore metaMinimumVersion metaMinimumVersion minimumCompatibleDbVersion w
        db.metaInt hw
      rw [hv] at this
      cases this
      omega
    · simp only [Tx.andThen]
      rcases initMeta_cases metaVersion currentDbVersion { db with metaInt := insertOrIgnore metaMinimumVersion minimumCompatibleDbVersion db.metaInt } with ⟨h2, _⟩ | ⟨_, hf'⟩
      swap
      · exact absurd (hf.symm.trans hf') (by decide)
      rw [h2]
      simp only
      rcases initMeta_cases metaMaxHistorySize defaultMaxHistorySize { db with metaInt := insertOrIgnore metaVersion currentDbVersion (insertOrIgnore metaMinimumVersion minimumCompatibleDbVersion db.metaInt) } with ⟨h3, hf3⟩ | ⟨_, hf'⟩
      swap
      · exact absurd (hf.symm.trans hf') (by decide)
      rw [h3]
      simp only
      have hf4 : ({ db with metaInt := insertOrIgnore metaMaxHistorySize defaultMaxHistorySize (insertOrIgnore metaVersion currentDbVersion (insertOrIgnore metaMinimumVersion minimumCompatibleDbVersion db.metaInt)) } : Db).fkOk = true := hf
      rw [initTag_cases tagFront _ hf4]
      simp only
      rw [initTag_cases tagBack _ (by
        have := initTag_cases tagFront _ hf4
        unfold initTag at this
        exact (exec_ok this).2)]
      simp only
      obtain ⟨w, hw⟩ := lookupKey_inserted tagFront none db.tags
      have hw' := lookupKey_insertOrIgnore tagBack tagFront none w _ hw
      refine ⟨w, hw', ?_⟩
      unfold selectTag
      simp only
      rw [hw']
      rfl

/-- Whatever is in the database: opening does not change the history, the variables, or any stored
capacity, version or end of the history. -/
theorem C52_keeps (db : Db) :
    (DbOp.openDb.apply db).history = db.history ∧ (DbOp.openDb.apply db).vars = db.vars ∧
    (∀ k v, lookupKey k db.metaInt = some v → lookupKey k (DbOp.openDb.apply db).metaInt = some v) ∧
    (∀ k v, lookupKey k db.tags = some v → lookupKey k (DbOp.openDb.apply db).tags = some v) := by
  have hsame : ∀ e, openTx db = .err e → DbOp.openDb.apply db = db := by
    intro e h
    unfold DbOp.apply Tx.commit
    simp only
    rw [h]
  rcases openTx_cases db with ⟨_, h⟩ | ⟨v, _, _, h⟩ | ⟨_, _, f, _, h⟩
  · rw [hsame _ h]; exact ⟨rfl, rfl, fun _ _ h => h, fun _ _ h => h⟩
  · rw [hsame _ h]; exact ⟨rfl, rfl, fun _ _ h => h, fun _ _ h => h⟩
  · rw [show DbOp.openDb.apply db = openedDb db from commit_ok h]
    refine ⟨rfl, rfl, fun k v hk => ?_, fun k v hk => ?_⟩
    · exact lookupKey_insertOrIgnore _ _ _ _ _ (lookupKey_insertOrIgnore _ _ _ _ _
        (lookupKey_insertOrIgnore _ _ _ _ _ hk))
    · exact lookupKey_insertOrIgnore _ _ _ _ _ (lookupKey_insertOrIgnore _ _ _ _ _ hk)

/-- Whatever is in the database: opening it once more changes nothing and gives the same. -/
theorem C52_idempotent (db db' : Db) (f : Option Int) (h : openTx db = .ok (f, db')) :
    openTx db' = .ok (f, db') := by
  rcases openTx_cases db with ⟨_, h'⟩ | ⟨v, _, _, h'⟩ | ⟨hv, hf, f', hf', h'⟩
  · rw [h] at h'; cases h'
  · rw [h] at h'; cases h'
  rw [h] at h'
  simp only [Outcome.ok.injEq, Prod.mk.injEq] at h'
  obtain ⟨rfl, rfl⟩ := h'
  obtain ⟨v1, h1⟩ := lookupKey_inserted metaMinimumVersion minimumCompatibleDbVersion db.metaInt
  obtain ⟨v2, h2⟩ := lookupKey_inserted metaVersion currentDbVersion
    (insertOrIgnore metaMinimumVersion minimumCompatibleDbVersion db.metaInt)
  obtain ⟨v3, h3⟩ := lookupKey_inserted metaMaxHistorySize defaultMaxHistorySize
    (insertOrIgnore metaVersion currentDbVersion
      (insertOrIgnore metaMinimumVersion minimumCompatibleDbVersion db.metaInt))
  obtain ⟨v5, h5⟩ := lookupKey_inserted tagBack none (insertOrIgnore tagFront none db.tags)
  have h1' := lookupKey_insertOrIgnore metaMaxHistorySize _ defaultMaxHistorySize _ _
    (lookupKey_insertOrIgnore metaVersion _ currentDbVersion _ _ h1)
  have h2' := lookupKey_insertOrIgnore metaMaxHistorySize _ defaultMaxHistorySize _ _ h2
  have hsame : openedDb (openedDb db) = openedDb db := by
    have e1 : insertOrIgnore metaMinimumVersion minimumCompatibleDbVersion (openedDb db).metaInt =
        (openedDb db).metaInt := insertOrIgnore_of_some h1'
    have e2 : insertOrIgnore metaVersion currentDbVersion (openedDb db).metaInt =
        (openedDb db).metaInt := insertOrIgnore_of_some h2'
    have e3 : insertOrIgnore metaMaxHistorySize defaultMaxHistorySize (openedDb db).metaInt =
        (openedDb db).metaInt := insertOrIgnore_of_some h3
    have e4 : insertOrIgnore tagFront none (openedDb db).tags = (openedDb db).tags :=
      insertOrIgnore_of_some hf'
    have e5 : insertOrIgnore tagBack none (openedDb db).tags = (openedDb db).tags :=
      insertOrIgnore_of_some h5
    have : ∀ d : Db, insertOrIgnore metaMinimumVersion minimumCompatibleDbVersion d.metaInt = d.metaInt →
        insertOrIgnore metaVersion currentDbVersion d.metaInt = d.metaInt →
        insertOrIgnore metaMaxHistorySize defaultMaxHistorySize d.metaInt = d.metaInt →
        insertOrIgnore tagFront none d.tags = d.tags → insertOrIgnore tagBack none d.tags = d.tags →
        openedDb d = d := by
      intro d a b c e f
      unfold openedDb
      rw [a, b, c, e, f]
    exact this _ e1 e2 e3 e4 e5
  have hfk : (openedDb db).fkOk = true := by
    have : (openedDb db).fkOk = ({ db with tags := (openedDb db).tags } : Db).fkOk := rfl
    rw [this]
    have a1 := initTag_cases tagFront db hf
    unfold initTag at a1
    have a2 := initTag_cases tagBack _ (exec_ok a1).2
    unfold initTag at a2
    exact (exec_ok a2).2
  rcases openTx_cases (openedDb db) with ⟨h', _⟩ | ⟨v, hv', hgt, _⟩ | ⟨_, _, f2, hf2, h'⟩
  · rw [hfk] at h'; cases h'
  · exfalso
    rw [show lookupKey metaMinimumVersion (openedDb db).metaInt = some v1 from h1'] at hv'
    cases hv'
    cases hl : lookupKey metaMinimumVersion db.metaInt with
    | some w =>
      rw [lookupKey_insertOrIgnore _ _ _ _ _ hl] at h1
      cases h1
      have := hv _ hl
      omega
    | none =>
      have := lookupKey_insertOrIgnore_none metaMinimumVersion minimumCompatibleDbVersion _ hl
      rw [this] at h1
      cases h1
      revert hgt
      decide
  · rw [h', hsame]
    rw [hsame, hf'] at hf2
    cases hf2
    rfl

/-- A database that declares a newer minimum version is refused, and left untouched. -/
theorem C52_refused (db : Db) (v : Int) (hv : lookupKey metaMinimumVersion db.metaInt = some v)
    (hn : v > currentDbVersion) :
    (∃ e, SavedData.openDb db [] = .err e) ∧ DbOp.openDb.apply db = db := by
  have : ∃ e, openTx db = .err e := by
    rcases openTx_cases db with ⟨_, h⟩ | ⟨_, _, _, h⟩ | ⟨h, _⟩
    · exact ⟨_, h⟩
    · exact ⟨_, h⟩
    · exact absurd (h v hv) (by omega)
  obtain ⟨e, he⟩ := this
  constructor
  · unfold SavedData.openDb
    rw [run_quiet rfl, he]
    exact ⟨e, rfl⟩
  · unfold DbOp.apply Tx.commit
    simp only
    rw [he]

/-- One that nothing is wrong with otherwise is refused for this reason. -/
theorem C52_message (db : Db) (v : Int) (hv : lookupKey metaMinimumVersion db.metaInt = some v)
    (hn : v > currentDbVersion) (hf : db.fkOk = true) :
    SavedData.openDb db [] = .err (.inconsistency
      "Database version is not compatible with executable version".toList) := by
  rcases openTx_cases db with ⟨h, _⟩ | ⟨_, _, _, h⟩ | ⟨h, _⟩
  · rw [hf] at h; cases h
  · unfold SavedData.openDb
    rw [run_quiet rfl, h]
  · exact absurd (h v hv) (by omega)

/-- A database with inputs and a variable, but of a newer version. -/
example : SavedData.openDb { exDb3 with metaInt := [(2, 2), (1, 2), (3, 3)] } [] = .err (.inconsistency
    "Database version is not compatible with executable version".toList) := by decide +kernel

example : DbOp.openDb.apply exDb3 = exDb3 ∧ exDb3.history ≠ [] := by decide +kernel

end Bcalc
