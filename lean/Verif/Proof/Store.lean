import Verif.Spec.Store
import Verif.Proof.Stored

/-! # The database represents the saved data -/

namespace Bcalc
open Spec

/-- The rows of a doubly linked list of numbered inputs. -/
def rows : Option Int → List (Int × Str) → List HistRow
  | _, [] => []
  | p, (i, s) :: es => ⟨i, s, es.head?.map Prod.fst, p⟩ :: rows (some i) es

theorem rows_ids (p : Option Int) (es : List (Int × Str)) :
    (rows p es).map (fun r => (r.id, r.input)) = es := by
  induction es generalizing p with
  | nil => rfl
  | cons e es ih => simp [rows, ih]

theorem rows_length (p : Option Int) (es : List (Int × Str)) : (rows p es).length = es.length := by
  have := congrArg List.length (rows_ids p es)
  simpa using this

/-- The ids of the history. -/
def Db.ids (db : Db) : List Int := db.history.map (·.id)

theorem hasId_iff (db : Db) (i : Int) : db.hasId i = true ↔ i ∈ db.ids := by
  unfold Db.hasId Db.ids
  simp [List.any_eq_true]

theorem refOk_iff (db : Db) (o : Option Int) : db.refOk o = true ↔ ∀ i, o = some i → i ∈ db.ids := by
  cases o with
  | none => simp [Db.refOk]
  | some i => simp [Db.refOk, hasId_iff]

/-- All references resolve. -/
structure Fk (db : Db) : Prop where
  hist : ∀ r ∈ db.history, (∀ i, r.next = some i → i ∈ db.ids) ∧ (∀ i, r.prev = some i → i ∈ db.ids)
  tags : ∀ t ∈ db.tags, ∀ i, t.2 = some i → i ∈ db.ids
  vars : ∀ v ∈ db.vars, v.lastUsedBy ∈ db.ids

theorem fkOk_iff (db : Db) : db.fkOk = true ↔ Fk db := by
  unfold Db.fkOk
  simp only [Bool.and_eq_true, List.all_eq_true, refOk_iff, hasId_iff]
  constructor
  · rintro ⟨⟨h1, h2⟩, h3⟩; exact ⟨h1, h2, h3⟩
  · rintro ⟨h1, h2, h3⟩; exact ⟨⟨h1, h2⟩, h3⟩

theorem exec_of_fk {f : Db → Db} {db : Db} (h : Fk (f db)) : exec f db = .ok ((), f db) := by
  unfold exec
  simp only
  rw [if_pos ((fkOk_iff _).2 h)]

theorem exec_not_fk {f : Db → Db} {db : Db} (h : ¬ Fk (f db)) : exec f db = .err .constraint := by
  unfold exec
  simp only
  rw [if_neg (fun h' => h ((fkOk_iff _).1 h'))]

/-- The database holds the inputs `es` (oldest first) as a linked list, with the capacity. -/
structure HistWF (db : Db) (es : List (Int × Str)) (cap : Nat) : Prop where
  hist : db.history = rows none es
  incr : (es.map Prod.fst).Pairwise (· < ·)
  tags : db.tags = [(tagFront, es.getLast?.map Prod.fst), (tagBack, es.head?.map Prod.fst)]
  minVersion : lookupKey metaMinimumVersion db.metaInt = some 1
  version : lookupKey metaVersion db.metaInt = some 1
  hcap : lookupKey metaMaxHistorySize db.metaInt = some (cap : Int)
  capPos : 1 ≤ cap
  vars : ∀ v ∈ db.vars, v.lastUsedBy ∈ es.map Prod.fst

theorem HistWF.ids {db : Db} {es : List (Int × Str)} {cap : Nat} (h : HistWF db es cap) :
    db.ids = es.map Prod.fst := by
  unfold Db.ids
  rw [h.hist]
  have := congrArg (List.map Prod.fst) (rows_ids none es)
  simpa [List.map_map, Function.comp_def] using this

theorem rows_refs {p : Option Int} {es : List (Int × Str)} {r : HistRow} (h : r ∈ rows p es) :
    (∀ i, r.next = some i → i ∈ es.map Prod.fst) ∧
      (∀ i, r.prev = some i → p = some i ∨ i ∈ es.map Prod.fst) := by
  induction es generalizing p with
  | nil => simp [rows] at h
  | cons e es ih =>
    obtain ⟨j, s⟩ := e
    simp only [rows, List.mem_cons] at h
    rcases h with rfl | h
    · refine ⟨?_, fun i hi => .inl hi⟩
      intro i hi
      simp only at hi
      cases es with
      | nil => simp at hi
      | cons e' es => simp at hi; simp [← hi]
    · obtain ⟨h1, h2⟩ := ih h
      refine ⟨fun i hi => by simpa using .inr (by simpa using h1 i hi), fun i hi => ?_⟩
      right
      rcases h2 i hi with h | h
      · simp at h; simp [← h]
      · simpa using .inr (by simpa using h)

theorem head_mem_ids {es : List (Int × Str)} {i : Int} (h : es.head?.map Prod.fst = some i) :
    i ∈ es.map Prod.fst := by
  cases es with
  | nil => simp at h
  | cons e es => simp at h; simp [← h]

theorem last_mem_ids {es : List (Int × Str)} {i : Int} (h : es.getLast?.map Prod.fst = some i) :
    i ∈ es.map Prod.fst := by
  rw [Option.map_eq_some_iff] at h
  obtain ⟨e, he, rfl⟩ := h
  exact List.mem_map_of_mem (List.mem_of_mem_getLast? he)

theorem HistWF.fk {db : Db} {es : List (Int × Str)} {cap : Nat} (h : HistWF db es cap) : Fk db := by
  have hids := h.ids
  constructor
  · intro r hr
    rw [h.hist] at hr
    obtain ⟨h1, h2⟩ := rows_refs hr
    rw [hids]
    refine ⟨h1, fun i hi => ?_⟩
    rcases h2 i hi with h | h
    · cases h
    · exact h
  · rw [h.tags, hids]
    intro t ht i hi
    simp only [List.mem_cons, List.not_mem_nil, or_false] at ht
    rcases ht with rfl | rfl
    · exact last_mem_ids hi
    · exact head_mem_ids hi
  · rw [hids]; exact h.vars

/-! ## The next id -/

theorem foldl_max (l : List HistRow) (a : Int) :
    a ≤ l.foldl (fun acc r => max acc r.id) a ∧
    (∀ r ∈ l, r.id ≤ l.foldl (fun acc r => max acc r.id) a) ∧
    (l.foldl (fun acc r => max acc r.id) a = a ∨ l.foldl (fun acc r => max acc r.id) a ∈ l.map (·.id)) := by
  induction l generalizing a with
  | nil => simp
  | cons r l ih =>
    obtain ⟨h1, h2, h3⟩ := ih (max a r.id)
    simp only [List.foldl_cons, List.mem_cons, List.map_cons]
    refine ⟨by omega, ?_, ?_⟩
    · rintro r' (rfl | h)
      · omega
      · exact h2 r' h
    · rcases h3 with h3 | h3
      · rcases max_choice a r.id with h | h
        · exact .inl (h3.trans h)
        · exact .inr (.inl (h3.trans h))
      · exact .inr (.inr h3)

theorem pairwise_last {es : List (Int × Str)} (h : (es.map Prod.fst).Pairwise (· < ·)) {j : Int}
    (hj : es.getLast?.map Prod.fst = some j) : ∀ i ∈ es.map Prod.fst, i ≤ j := by
  rw [Option.map_eq_some_iff] at hj
  obtain ⟨e, he, rfl⟩ := hj
  obtain ⟨l, rfl⟩ := List.getLast?_eq_some_iff.1 he
  intro i hi
  simp only [List.map_append, List.map_cons, List.map_nil, List.pairwise_append,
    List.mem_append, List.mem_singleton] at h hi
  rcases hi with hi | rfl
  · exact Int.le_of_lt (h.2.2 i hi _ rfl)
  · exact Int.le_refl _

/-- The next number. -/
def nextNo (es : List (Int × Str)) : Int := (es.getLast?.map Prod.fst).getD 0 + 1

theorem nextRowid_eq {db : Db} {es : List (Int × Str)} (hh : db.ids = es.map Prod.fst)
    (h : (es.map Prod.fst).Pairwise (· < ·)) : db.nextRowid = nextNo es := by
  unfold Db.nextRowid nextNo
  unfold Db.ids at hh
  cases hd : db.history with
  | nil =>
    rw [hd] at hh
    cases es with
    | nil => rfl
    | cons e es => simp at hh
  | cons r l =>
    rw [hd] at hh
    simp only
    cases hl : es.getLast?.map Prod.fst with
    | none =>
      cases es with
      | nil => simp at hh
      | cons e es => simp at hl
    | some j =>
      have hmem := last_mem_ids hl
      have hle := pairwise_last h hl
      rw [← hh] at hmem hle
      obtain ⟨h1, h2, h3⟩ := foldl_max l r.id
      simp only [List.map_cons, List.mem_cons] at hmem hle
      have ha : j ≤ l.foldl (fun acc r => max acc r.id) r.id := by
        rcases hmem with rfl | hmem
        · exact h1
        · obtain ⟨r', hr', rfl⟩ := List.mem_map.1 hmem
          exact h2 r' hr'
      have hb : l.foldl (fun acc r => max acc r.id) r.id ≤ j := by
        rcases h3 with h3 | h3
        · rw [h3]; exact hle _ (.inl rfl)
        · exact hle _ (.inr h3)
      simp only [Option.getD_some]
      omega

/-! ## Eviction -/

theorem rows_ne {p : Option Int} {es : List (Int × Str)} {i : Int} (h : i ∉ es.map Prod.fst)
    {r : HistRow} (hr : r ∈ rows p es) : r.id ≠ i := by
  rintro rfl
  apply h
  have := rows_ids p es
  have h2 : r.id ∈ (rows p es).map (·.id) := List.mem_map_of_mem hr
  have h3 := congrArg (List.map Prod.fst) this
  simp only [List.map_map, Function.comp_def] at h3
  rwa [h3] at h2

theorem map_rows_ne {p : Option Int} {es : List (Int × Str)} {i : Int} (h : i ∉ es.map Prod.fst)
    (f : HistRow → HistRow) :
    (rows p es).map (fun r => if r.id = i then f r else r) = rows p es := by
  rw [List.map_congr_left (g := id), List.map_id]
  intro r hr
  rw [if_neg (rows_ne h hr)]; rfl

/-- Dropping the oldest of at least two inputs. -/
def dropOldest (db : Db) (i0 i1 : Int) (s1 : Str) (es : List (Int × Str)) : Db :=
  { db with
    history := rows none ((i1, s1) :: es)
    tags := [(tagFront, ((i1, s1) :: es).getLast?.map Prod.fst), (tagBack, some i1)]
    vars := db.vars.filter fun v => v.lastUsedBy ≠ i0 }

theorem dropOldest_wf {db : Db} {i0 i1 : Int} {s0 s1 : Str} {es : List (Int × Str)} {cap : Nat}
    (h : HistWF db ((i0, s0) :: (i1, s1) :: es) cap) :
    HistWF (dropOldest db i0 i1 s1 es) ((i1, s1) :: es) cap := by
  refine ⟨rfl, ?_, rfl, h.minVersion, h.version, h.hcap, h.capPos, ?_⟩
  · have := h.incr
    rw [List.map_cons, List.pairwise_cons] at this
    exact this.2
  · intro v hv
    obtain ⟨hv, hn⟩ := List.mem_filter.1 hv
    have := h.vars v hv
    simp only [List.map_cons, List.mem_cons] at this ⊢
    rcases this with h | h
    · simp [h] at hn
    · exact h

theorem evict_one {db : Db} {i0 i1 : Int} {s0 s1 : Str} {es : List (Int × Str)} {cap : Nat}
    (h : HistWF db ((i0, s0) :: (i1, s1) :: es) cap) (fuel : Nat) (hc : cap < es.length + 2) :
    enforceLoop cap (fuel + 1) db = enforceLoop cap fuel (dropOldest db i0 i1 s1 es) := by
  have hincr := h.incr
  simp only [List.map_cons, List.pairwise_cons, List.mem_cons] at hincr
  have h01 : i0 < i1 := hincr.1 i1 (.inl rfl)
  have h0 : i0 ∉ es.map Prod.fst := fun hm => by
    have := hincr.1 i0 (.inr hm); omega
  have h1 : i1 ∉ es.map Prod.fst := fun hm => by
    have := hincr.2.1 i1 hm; omega
  have hfk := h.fk
  have hids := h.ids
  have hlen : db.history.length = es.length + 2 := by
    rw [h.hist, rows_length]; rfl
  rw [enforceLoop]
  simp only
  rw [if_neg (by rw [hlen]; omega)]
  -- the oldest
  have e1 : selectTagNotNull tagBack db = .ok (i0, db) := by
    unfold selectTagNotNull
    rw [h.tags]
    rfl
  rw [Tx.andThen_of_ok e1]
  have hnext : (((i1, s1) :: es).head?.map Prod.fst) = some i1 := rfl
  have e2 : selectNext i0 db = .ok (i1, db) := by
    unfold selectNext
    rw [h.hist]
    simp [rows]
  rw [Tx.andThen_of_ok e2]
  -- the new oldest has no predecessor
  have hh3 : db.history.map (fun r => if r.id = i1 then { r with prev := none } else r) =
      ⟨i0, s0, some i1, none⟩ :: rows none ((i1, s1) :: es) := by
    rw [h.hist]
    simp only [rows, List.map_cons, hnext]
    rw [if_neg (show ¬ i0 = i1 by omega), map_rows_ne h1]
    simp only [if_true]
  have hids3 : ∀ l : List HistRow, l = ⟨i0, s0, some i1, none⟩ :: rows none ((i1, s1) :: es) →
      l.map (·.id) = db.ids := by
    rintro l rfl
    rw [hids]
    have := congrArg (List.map Prod.fst) (rows_ids none ((i1, s1) :: es))
    simp only [List.map_map, Function.comp_def] at this
    simp [this]
  have hrefs : ∀ r ∈ (⟨i0, s0, some i1, none⟩ :: rows none ((i1, s1) :: es) : List HistRow),
      (∀ i, r.next = some i → i ∈ db.ids) ∧ (∀ i, r.prev = some i → i ∈ db.ids) := by
    rw [hids]
    intro r hr
    rcases List.mem_cons.1 hr with rfl | hr
    · refine ⟨fun i hi => ?_, fun i hi => by simp at hi⟩
      simp at hi; simp [← hi]
    · obtain ⟨ha, hb⟩ := rows_refs hr
      refine ⟨fun i hi => List.mem_cons_of_mem _ (ha i hi), fun i hi => ?_⟩
      rcases hb i hi with h | h
      · cases h
      · exact List.mem_cons_of_mem _ h
  set db3 : Db := { db with history := ⟨i0, s0, some i1, none⟩ :: rows none ((i1, s1) :: es) } with hdb3
  have hi3 : db3.ids = db.ids := hids3 _ rfl
  have fk3 : Fk db3 := by
    refine ⟨?_, ?_, ?_⟩
    · rw [hi3]; exact hrefs
    · rw [hi3]; exact hfk.tags
    · rw [hi3]; exact hfk.vars
  have e3 : clearPrev i1 db = .ok ((), db3) := by
    unfold clearPrev
    have : db3 = { db with history := db.history.map fun r => if r.id = i1 then { r with prev := none } else r } := by
      rw [hh3]
    rw [this]
    exact exec_of_fk (by rw [← this]; exact fk3)
  rw [Tx.andThen_of_ok e3]
  -- it becomes the oldest
  set db4 : Db := { db3 with tags := [(tagFront, ((i1, s1) :: es).getLast?.map Prod.fst), (tagBack, some i1)] }
    with hdb4
  have fk4 : Fk db4 := by
    refine ⟨fk3.hist, ?_, fk3.vars⟩
    intro t ht i hi
    change i ∈ db3.ids
    rw [hi3, hids]
    simp only [hdb4, List.mem_cons, List.not_mem_nil, or_false] at ht
    rcases ht with rfl | rfl
    · have := last_mem_ids (es := (i1, s1) :: es) hi
      exact List.mem_cons_of_mem _ this
    · simp at hi; simp [← hi]
  have e4 : updateTag tagBack i1 db3 = .ok ((), db4) := by
    unfold updateTag
    have : db4 = { db3 with tags := updateKey tagBack (some i1) db3.tags } := by
      rw [hdb4]
      congr 1
      rw [show db3.tags = db.tags from rfl, h.tags]
      simp [updateKey, tagFront, tagBack]
    rw [this]
    exact exec_of_fk (by rw [← this]; exact fk4)
  rw [Tx.andThen_of_ok e4]
  -- the old one goes
  have hwf := dropOldest_wf h
  have e5 : deleteHistory i0 db4 = .ok ((), dropOldest db i0 i1 s1 es) := by
    unfold deleteHistory
    have : dropOldest db i0 i1 s1 es = { db4 with
        history := db4.history.filter fun r => r.id ≠ i0
        vars := db4.vars.filter fun v => v.lastUsedBy ≠ i0 } := by
      unfold dropOldest
      rw [hdb4, hdb3]
      congr 1
      rw [List.filter_cons_of_neg (by simp)]
      symm
      rw [List.filter_eq_self]
      intro r hr
      have : i0 ∉ ((i1, s1) :: es).map Prod.fst := by
        simp only [List.map_cons, List.mem_cons, not_or]
        exact ⟨by omega, h0⟩
      simpa using rows_ne this hr
    rw [this]
    exact exec_of_fk (by rw [← this]; exact hwf.fk)
  rw [Tx.andThen_of_ok e5]

/-- The newest inputs. -/
def newest {α : Type} (n : Nat) (l : List α) : List α := l.drop (l.length - n)

/-- What enforcing the capacity leaves. -/
structure Enforced (db db' : Db) (es : List (Int × Str)) (cap : Nat) : Prop where
  wf : HistWF db' (newest cap es) cap
  vars : db'.vars = db.vars.filter fun v => decide (v.lastUsedBy ∈ (newest cap es).map Prod.fst)
  metaInt : db'.metaInt = db.metaInt

theorem enforceLoop_ok {cap : Nat} : ∀ {es : List (Int × Str)} {db : Db} (_ : HistWF db es cap)
    (fuel : Nat), es.length < fuel → ∃ db', enforceLoop cap fuel db = .ok ((), db') ∧
      Enforced db db' es cap
  | es, db, h, 0, hf => by omega
  | es, db, h, fuel + 1, hf => by
    by_cases hc : es.length ≤ cap
    · refine ⟨db, ?_, ?_⟩
      · rw [enforceLoop]
        simp only
        rw [if_pos]
        rw [h.hist, rows_length]
        exact_mod_cast hc
      · have hn : newest cap es = es := by
          unfold newest
          rw [Nat.sub_eq_zero_of_le hc]; rfl
        refine ⟨by rw [hn]; exact h, ?_, rfl⟩
        rw [hn]
        symm
        rw [List.filter_eq_self]
        intro v hv
        simpa using h.vars v hv
    · have hp := h.capPos
      match es, h, hf, hc with
      | [], _, _, hc => simp at hc
      | [_], _, _, hc => simp at hc; omega
      | (i0, s0) :: (i1, s1) :: es, h, hf, hc =>
        simp only [List.length_cons] at hf hc
        rw [evict_one h fuel (by omega)]
        obtain ⟨db', hx, hw, hv, hm⟩ := enforceLoop_ok (dropOldest_wf h) fuel (by simp; omega)
        have hn : newest cap ((i0, s0) :: (i1, s1) :: es) = newest cap ((i1, s1) :: es) := by
          unfold newest
          have : ((i0, s0) :: (i1, s1) :: es).length - cap = ((i1, s1) :: es).length - cap + 1 := by
            simp; omega
          rw [this, List.drop_succ_cons]
        refine ⟨db', hx, by rw [hn]; exact hw, ?_, hm⟩
        rw [hv, hn]
        unfold dropOldest
        simp only
        rw [List.filter_filter]
        apply List.filter_congr
        intro v hv
        by_cases he : v.lastUsedBy = i0
        · have hincr := h.incr
          have h0 : i0 ∉ ((i1, s1) :: es).map Prod.fst := fun hm => by
            have := (List.pairwise_cons.1 hincr).1 i0 hm; omega
          have : i0 ∉ (newest cap ((i1, s1) :: es)).map Prod.fst := fun hm => by
            apply h0
            obtain ⟨e, hme, hee⟩ := List.mem_map.1 hm
            rw [← hee]
            exact List.mem_map_of_mem (List.mem_of_mem_drop hme)
          rw [he]
          simp only [this, decide_false, Bool.false_and]
        · simp [he]

theorem enforce_ok {db : Db} {es : List (Int × Str)} {cap : Nat} (h : HistWF db es cap) :
    ∃ db', enforceHistorySize db = .ok ((), db') ∧ Enforced db db' es cap := by
  unfold enforceHistorySize
  have e1 : selectMeta metaMaxHistorySize db = .ok ((cap : Int), db) := by
    unfold selectMeta; rw [h.hcap]
  rw [Tx.andThen_of_ok e1]
  have hp := h.capPos
  have e2 : validateMaxHistorySize (cap : Int) = .ok () := by
    unfold validateMaxHistorySize; rw [if_neg (by omega)]
  simp only [e2]
  exact enforceLoop_ok h _ (by rw [h.hist, rows_length]; omega)

/-! ## Recording an input -/

theorem rows_snoc (p : Option Int) (es : List (Int × Str)) (i : Int) (s : Str) :
    rows p (es ++ [(i, s)]) =
      (match es.getLast?.map Prod.fst with
       | none => [⟨i, s, none, p⟩]
       | some j => (rows p es).map (fun r => if r.id = j then { r with next := some i } else r) ++
          [⟨i, s, none, some j⟩]) ∨ ¬ (es.map Prod.fst).Pairwise (· < ·) := by
  by_cases hp : (es.map Prod.fst).Pairwise (· < ·)
  · left
    induction es generalizing p with
    | nil => rfl
    | cons e es ih =>
      obtain ⟨k, t⟩ := e
      rw [List.map_cons, List.pairwise_cons] at hp
      have ih := ih (some k) hp.2
      cases es with
      | nil => simp [rows]
      | cons e' es =>
        have hl : ((k, t) :: e' :: es).getLast?.map Prod.fst = (e' :: es).getLast?.map Prod.fst := rfl
        rw [hl]
        cases hj : (e' :: es).getLast?.map Prod.fst with
        | none => simp at hj
        | some j =>
          rw [hj] at ih
          simp only at ih ⊢
          have hkj : k < j := hp.1 j (last_mem_ids hj)
          have : rows p ((k, t) :: e' :: es ++ [(i, s)]) =
              ⟨k, t, some e'.1, p⟩ :: rows (some k) (e' :: es ++ [(i, s)]) := rfl
          rw [this, ih]
          have h2 : rows p ((k, t) :: e' :: es) = ⟨k, t, some e'.1, p⟩ :: rows (some k) (e' :: es) := rfl
          rw [h2, List.map_cons, if_neg (by simp; omega)]
          rfl
  · exact .inr hp

theorem pairwise_snoc {es : List (Int × Str)} (h : (es.map Prod.fst).Pairwise (· < ·)) (s : Str) :
    ((es ++ [(nextNo es, s)]).map Prod.fst).Pairwise (· < ·) := by
  rw [List.map_append, List.pairwise_append]
  refine ⟨h, by simp, ?_⟩
  intro a ha b hb
  simp only [List.map_cons, List.map_nil, List.mem_singleton] at hb
  subst hb
  unfold nextNo
  cases hl : es.getLast?.map Prod.fst with
  | none =>
    cases es with
    | nil => simp at ha
    | cons e es => simp at hl
  | some j =>
    have := pairwise_last h hl a ha
    simp; omega

theorem add_ok {db : Db} {es : List (Int × Str)} {cap : Nat} (h : HistWF db es cap) (s : Str) :
    ∃ db', addToInputHistoryTx s db = .ok (nextNo es, db') ∧
      Enforced db db' (es ++ [(nextNo es, s)]) cap := by
  have hids := h.ids
  have hfk := h.fk
  have hpw := pairwise_snoc h.incr s
  set n := nextNo es with hn
  unfold addToInputHistoryTx
  have e1 : selectTag tagFront db = .ok (es.getLast?.map Prod.fst, db) := by
    unfold selectTag; rw [h.tags]; rfl
  rw [Tx.andThen_of_ok e1]
  -- the new row
  set o := es.getLast?.map Prod.fst with ho
  set db1 : Db := { db with history := db.history ++ [⟨n, s, none, o⟩] } with hdb1
  have hi1 : db1.ids = (es ++ [(n, s)]).map Prod.fst := by
    unfold Db.ids
    rw [hdb1]
    simp only [List.map_append, List.map_cons, List.map_nil]
    rw [← hids]; rfl
  have hsub : ∀ i ∈ db.ids, i ∈ db1.ids := by
    intro i hi
    rw [hi1, List.map_append]
    exact List.mem_append_left _ (hids ▸ hi)
  have hnew : n ∈ db1.ids := by rw [hi1]; simp
  have fk1 : Fk db1 := by
    refine ⟨?_, fun t ht i hi => hsub _ (hfk.tags t ht i hi), fun v hv => hsub _ (hfk.vars v hv)⟩
    intro r hr
    rcases List.mem_append.1 hr with hr | hr
    · obtain ⟨ha, hb⟩ := hfk.hist r hr
      exact ⟨fun i hi => hsub _ (ha i hi), fun i hi => hsub _ (hb i hi)⟩
    · simp only [List.mem_singleton] at hr
      subst hr
      refine ⟨fun i hi => by simp at hi, fun i hi => hsub _ ?_⟩
      rw [hids]
      exact last_mem_ids hi
  have e2 : insertHistory s o db = .ok (n, db1) := by
    unfold insertHistory
    have hr : db.nextRowid = n := nextRowid_eq hids h.incr
    simp only [hr]
    have := exec_of_fk (f := fun db => { db with history := db.history ++ [⟨n, s, none, o⟩] }) (db := db) fk1
    rw [this]
  rw [Tx.andThen_of_ok e2]
  -- it is the newest
  set db2 : Db := { db1 with tags := [(tagFront, some n), (tagBack, es.head?.map Prod.fst)] } with hdb2
  have fk2 : Fk db2 := by
    refine ⟨fk1.hist, ?_, fk1.vars⟩
    intro t ht i hi
    change i ∈ db1.ids
    simp only [hdb2, List.mem_cons, List.not_mem_nil, or_false] at ht
    rcases ht with rfl | rfl
    · simp at hi; rw [← hi]; exact hnew
    · exact hsub _ (by rw [hids]; exact head_mem_ids hi)
  have e3 : updateTag tagFront n db1 = .ok ((), db2) := by
    unfold updateTag
    have : db2 = { db1 with tags := updateKey tagFront (some n) db1.tags } := by
      rw [hdb2]
      congr 1
      rw [show db1.tags = db.tags from rfl, h.tags]
      simp [updateKey, tagFront, tagBack]
    rw [this]
    exact exec_of_fk (by rw [← this]; exact fk2)
  rw [Tx.andThen_of_ok e3]
  -- linked
  set es' := es ++ [(n, s)] with hes'
  set db3 : Db := { db with
    history := rows none es'
    tags := [(tagFront, es'.getLast?.map Prod.fst), (tagBack, es'.head?.map Prod.fst)] } with hdb3
  have wf3 : HistWF db3 es' cap := by
    refine ⟨rfl, hpw, rfl, h.minVersion, h.version, h.hcap, h.capPos, ?_⟩
    intro v hv
    rw [hes', List.map_append]
    exact List.mem_append_left _ (h.vars v hv)
  have hrows := (rows_snoc none es n s).resolve_right (fun hx => hx h.incr)
  have hlast : es'.getLast?.map Prod.fst = some n := by rw [hes']; simp
  have fin : ∀ t : Tx Unit, t db2 = .ok ((), db3) →
      ∃ db', (t.andThen fun _ => enforceHistorySize.andThen fun _ db => .ok (n, db)) db2 = .ok (n, db') ∧
        Enforced db db' es' cap := by
    intro t ht
    rw [Tx.andThen_of_ok ht]
    obtain ⟨db', hx, hE⟩ := enforce_ok wf3
    rw [Tx.andThen_of_ok hx]
    exact ⟨db', rfl, hE.wf, hE.vars, hE.metaInt⟩
  rw [← ho] at hrows
  clear_value o
  cases o with
  | none =>
    have hes : es = [] := by
      cases es with
      | nil => rfl
      | cons e es => simp at ho
    refine fin _ ?_
    unfold updateTag
    have : db3 = { db2 with tags := updateKey tagBack (some n) db2.tags } := by
      rw [hdb3, hdb2, hdb1, hrows, hlast, h.hist, hes', hes]
      simp [updateKey, tagFront, tagBack, rows]
    rw [this]
    exact exec_of_fk (by rw [← this]; exact wf3.fk)
  | some j =>
    simp only at hrows
    refine fin _ ?_
    unfold updateNext
    have hjn : j ≠ n := by
      intro hjn
      have hj : j ∈ es.map Prod.fst := last_mem_ids ho.symm
      rw [hes', List.map_append, List.pairwise_append] at hpw
      have := hpw.2.2 j hj n (by simp)
      omega
    have : db3 = { db2 with history := db2.history.map fun r =>
        if r.id = j then { r with next := some n } else r } := by
      have hhead : es'.head?.map Prod.fst = es.head?.map Prod.fst := by
        rw [hes']
        cases es with
        | nil => simp at ho
        | cons e es => rfl
      rw [hdb3, hdb2, hdb1, hrows, hlast, hhead, h.hist]
      simp only [List.map_append, List.map_cons, List.map_nil]
      rw [if_neg (fun h => hjn h.symm)]
    rw [this]
    exact exec_of_fk (by rw [← this]; exact wf3.fk)

/-! ## Changing the capacity -/

theorem lookupKey_append {α : Type} (k : Nat) (l l' : List (Nat × α)) :
    lookupKey k (l ++ l') = (lookupKey k l).or (lookupKey k l') := by
  induction l with
  | nil => rfl
  | cons e l ih =>
    obtain ⟨k', v⟩ := e
    simp only [List.cons_append, lookupKey]
    split
    · rfl
    · exact ih

theorem lookupKey_filter_ne {α : Type} (k k' : Nat) (h : k ≠ k') (l : List (Nat × α)) :
    lookupKey k (l.filter (fun kv => kv.1 ≠ k')) = lookupKey k l := by
  induction l with
  | nil => rfl
  | cons e l ih =>
    obtain ⟨k2, v⟩ := e
    by_cases h2 : k2 = k'
    · subst h2
      rw [List.filter_cons_of_neg (by simp), ih]
      simp [lookupKey, Ne.symm h]
    · rw [List.filter_cons_of_pos (by simpa using h2)]
      simp only [lookupKey, ih]

theorem lookupKey_filter_eq {α : Type} (k : Nat) (l : List (Nat × α)) :
    lookupKey k (l.filter (fun kv => kv.1 ≠ k)) = none := by
  induction l with
  | nil => rfl
  | cons e l ih =>
    obtain ⟨k2, v⟩ := e
    by_cases h2 : k2 = k
    · rw [List.filter_cons_of_neg (by simpa using h2), ih]
    · rw [List.filter_cons_of_pos (by simpa using h2)]
      simp only [lookupKey, h2, if_false]
      exact ih

theorem lookupKey_replace {α : Type} (k : Nat) (v : α) (l : List (Nat × α)) :
    lookupKey k (insertOrReplace k v l) = some v := by
  unfold insertOrReplace
  rw [lookupKey_append, lookupKey_filter_eq]
  simp [lookupKey]

theorem lookupKey_replace_ne {α : Type} {k k' : Nat} (h : k ≠ k') (v : α) (l : List (Nat × α)) :
    lookupKey k (insertOrReplace k' v l) = lookupKey k l := by
  unfold insertOrReplace
  rw [lookupKey_append, lookupKey_filter_ne _ _ h]
  simp [lookupKey, Ne.symm h]

theorem setCap_ok {db : Db} {es : List (Int × Str)} {cap : Nat} (h : HistWF db es cap) (n : Nat)
    (hn : 1 ≤ n) : ∃ db', setMaxHistorySizeTx (n : Int) db = .ok ((), db') ∧
      HistWF db' (newest n es) n ∧
      db'.vars = db.vars.filter fun v => decide (v.lastUsedBy ∈ (newest n es).map Prod.fst) := by
  unfold setMaxHistorySizeTx
  set db1 : Db := { db with metaInt := insertOrReplace metaMaxHistorySize (n : Int) db.metaInt } with hdb1
  have wf1 : HistWF db1 es n := by
    refine ⟨h.hist, h.incr, h.tags, ?_, ?_, ?_, hn, h.vars⟩
    · rw [hdb1]; simp only; rw [lookupKey_replace_ne (by decide)]; exact h.minVersion
    · rw [hdb1]; simp only; rw [lookupKey_replace_ne (by decide)]; exact h.version
    · rw [hdb1]; exact lookupKey_replace _ _ _
  rw [Tx.andThen_of_ok (exec_of_fk (f := fun db => { db with metaInt := insertOrReplace metaMaxHistorySize (n : Int) db.metaInt }) wf1.fk)]
  obtain ⟨db', hx, hE⟩ := enforce_ok wf1
  exact ⟨db', hx, hE.wf, hE.vars⟩

/-! ## Opening -/

theorem insertOrIgnore_of_some {α : Type} {k : Nat} {v w : α} {t : List (Nat × α)}
    (h : lookupKey k t = some w) : insertOrIgnore k v t = t := by
  unfold insertOrIgnore; rw [h]

theorem open_ok {db : Db} {es : List (Int × Str)} {cap : Nat} (h : HistWF db es cap) :
    openTx db = .ok (es.getLast?.map Prod.fst, db) := by
  have hm : ∀ k v w, lookupKey k db.metaInt = some w → initMeta k v db = .ok ((), db) := by
    intro k v w hk
    unfold initMeta
    have : ({ db with metaInt := insertOrIgnore k v db.metaInt } : Db) = db := by
      rw [insertOrIgnore_of_some hk]
    have hx := exec_of_fk (f := fun db => { db with metaInt := insertOrIgnore k v db.metaInt }) (db := db)
      (by rw [this]; exact h.fk)
    rw [this] at hx
    exact hx
  have ht : ∀ k w, lookupKey k db.tags = some w → initTag k db = .ok ((), db) := by
    intro k w hk
    unfold initTag
    have : ({ db with tags := insertOrIgnore k none db.tags } : Db) = db := by
      rw [insertOrIgnore_of_some hk]
    have hx := exec_of_fk (f := fun db => { db with tags := insertOrIgnore k none db.tags }) (db := db)
      (by rw [this]; exact h.fk)
    rw [this] at hx
    exact hx
  unfold openTx
  rw [Tx.andThen_of_ok (hm _ _ _ h.minVersion)]
  have e2 : selectMeta metaMinimumVersion db = .ok (1, db) := by
    unfold selectMeta; rw [h.minVersion]
  rw [Tx.andThen_of_ok e2, if_neg (by decide)]
  rw [Tx.andThen_of_ok (hm _ _ _ h.version), Tx.andThen_of_ok (hm _ _ _ h.hcap)]
  rw [Tx.andThen_of_ok (ht _ (es.getLast?.map Prod.fst) (by rw [h.tags]; rfl)),
    Tx.andThen_of_ok (ht _ (es.head?.map Prod.fst) (by rw [h.tags]; rfl))]
  unfold selectTag; rw [h.tags]; rfl

end Bcalc
