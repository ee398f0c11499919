import Verif.Proof.Represents

/-! # Links and scrollback -/

namespace Bcalc
open Spec

/-! ## What a representation says about the tables -/

theorem Rep.historyOf {st : Store} {db : Db} (h : Rep st db) : historyOf db = st.history := by
  unfold Spec.historyOf
  rw [h.wf.hist]
  have := congrArg (List.map Prod.snd) (rows_ids none st.entries)
  simp only [List.map_map, Function.comp_def] at this
  rw [this]
  exact numbered_snd _ _

theorem Rep.capacity {st : Store} {db : Db} (h : Rep st db) : CapacityIs db st.cap := h.wf.hcap

/-- The number before the first one kept. -/
def Spec.Store.low (st : Store) : Nat := st.recorded.length - st.kept

theorem rows_get (p : Option Int) (es : List (Int × Str)) (k : Nat) :
    (rows p es)[k]? = (es[k]?).map fun e =>
      ⟨e.1, e.2, (es[k + 1]?).map Prod.fst, if k = 0 then p else (es[k - 1]?).map Prod.fst⟩ := by
  induction es generalizing p k with
  | nil => simp [rows]
  | cons e es ih =>
    obtain ⟨i, s⟩ := e
    cases k with
    | zero =>
      cases es <;> simp [rows]
    | succ k =>
      simp only [rows, List.getElem?_cons_succ, ih]
      congr 1
      funext e
      congr 1
      cases k with
      | zero => simp
      | succ k => simp

theorem rows_id_map (p : Option Int) (es : List (Int × Str)) : (rows p es).map (·.id) = es.map Prod.fst := by
  have := congrArg (List.map Prod.fst) (rows_ids p es)
  simpa [List.map_map, Function.comp_def] using this

theorem HistWF.linked {db : Db} {es : List (Int × Str)} {cap : Nat} (h : HistWF db es cap) : Linked db := by
  have hid := rows_id_map none es
  have hget : ∀ k : Nat, ((rows none es)[k]?).map (fun r : HistRow => r.id) = (es[k]?).map Prod.fst := by
    intro k
    rw [← List.getElem?_map, hid, List.getElem?_map]
  refine ⟨rows none es, by rw [h.hist], ?_, ?_, ?_, ?_⟩
  · rw [hid]
    exact h.incr.imp (fun h => Int.ne_of_lt h)
  · have e := congrArg List.head? hid
    simp only [List.head?_map] at e
    rw [h.tags, e]; rfl
  · have e := congrArg List.getLast? hid
    simp only [List.getLast?_map] at e
    rw [h.tags, e]; rfl
  · intro k row hk
    rw [rows_get] at hk
    cases he : es[k]? with
    | none => rw [he] at hk; cases hk
    | some e =>
      rw [he] at hk
      simp only [Option.map_some, Option.some.injEq] at hk
      subst hk
      simp only
      rw [hget, hget]
      exact ⟨rfl, rfl⟩

theorem walk_rows {db : Db} : ∀ (l : List (Int × Str)) (p : Option Int) (shown : List Str)
    (_ : ∀ r ∈ rows p l, r ∈ db.history) (_ : Walk db p shown),
    Walk db (if l = [] then p else l.getLast?.map Prod.fst) ((l.map Prod.snd).reverse ++ shown)
  | [], p, shown, _, hw => by simpa using hw
  | (i, s) :: l, p, shown, hr, hw => by
    have h1 : Walk db (some i) (s :: shown) :=
      Walk.step (row := ⟨i, s, l.head?.map Prod.fst, p⟩) (hr _ (by simp [rows])) hw
    have := walk_rows l (some i) (s :: shown) (fun r h => hr r (by simp [rows, h])) h1
    simp only [List.map_cons, List.reverse_cons, List.append_assoc, List.cons_append, List.nil_append]
    cases l with
    | nil => simpa using this
    | cons e l => simpa using this

theorem Rep.walk {st : Store} {db : Db} (h : Rep st db) :
    ∃ front, lookupKey tagFront db.tags = some front ∧ Walk db front st.history.reverse := by
  refine ⟨st.entries.getLast?.map Prod.fst, by rw [h.wf.tags]; rfl, ?_⟩
  have := walk_rows (db := db) st.entries none [] (fun r hr => by rw [h.wf.hist]; exact hr) .stop
  rw [List.append_nil] at this
  rw [show st.entries.map Prod.snd = st.history from numbered_snd _ _] at this
  split at this
  · rename_i h0; rw [h0]; exact this
  · exact this

/-- Looking up a row by its number. -/
theorem find_rows (k : Nat) : ∀ (l : List Str) (p : Option Int) (i : Int),
    (rows p (numbered k l)).find? (fun r => r.id == i) =
      if (k : Int) < i ∧ i ≤ k + l.length then
        (l[(i - k - 1).toNat]?).map fun s =>
          ⟨i, s, if i = k + l.length then none else some (i + 1),
            if i = k + 1 then p else some (i - 1)⟩
      else none
  | [], p, i => by
    have : ¬ ((k : Int) < i ∧ i ≤ k + ([] : List Str).length) := by simp
    rw [if_neg this]
    rfl
  | s :: l, p, i => by
    simp only [numbered, rows]
    by_cases hi : (k : Int) + 1 = i
    · subst hi
      rw [List.find?_cons_of_pos (by simp), if_pos (by simp)]
      have h0 : ((k : Int) + 1 - k - 1).toNat = 0 := by omega
      rw [h0]
      simp only [List.getElem?_cons_zero, Option.map_some, Option.some.injEq, HistRow.mk.injEq, true_and,
        if_true, and_true]
      cases l with
      | nil => simp [numbered]
      | cons t l => simp [numbered]; omega
    · rw [List.find?_cons_of_neg (by simpa using hi), find_rows (k + 1) l (some (k + 1)) i]
      by_cases h : (k : Int) < i ∧ i ≤ k + (s :: l).length
      · have h' : ((k + 1 : Nat) : Int) < i ∧ i ≤ (k + 1 : Nat) + l.length := by
          simp only [List.length_cons] at h; push_cast at h ⊢; omega
        rw [if_pos h, if_pos h']
        have hn : (i - k - 1).toNat = (i - (k + 1 : Nat) - 1).toNat + 1 := by
          push_cast; omega
        rw [hn, List.getElem?_cons_succ]
        congr 1
        funext t
        simp only [List.length_cons, HistRow.mk.injEq, true_and]
        push_cast
        constructor
        · have : (i = (k : Int) + 1 + l.length) ↔ (i = (k : Int) + (l.length + 1)) := by omega
          simp only [this]
        · rw [if_neg (show ¬ i = (k : Int) + 1 by omega)]
          by_cases h2 : i = (k : Int) + 1 + 1
          · rw [if_pos h2]; simp [h2]
          · rw [if_neg h2]
      · have h' : ¬ (((k + 1 : Nat) : Int) < i ∧ i ≤ (k + 1 : Nat) + l.length) := by
          simp only [List.length_cons] at h; push_cast at h ⊢; omega
        rw [if_neg h, if_neg h']

theorem Rep.find {st : Store} {db : Db} (h : Rep st db) (i : Int) :
    (st.Has i ∧ ∃ s next, st.recorded[(i - 1).toNat]? = some s ∧
      db.history.find? (fun r => r.id == i) =
        some ⟨i, s, next, if i = st.low + 1 then none else some (i - 1)⟩) ∨
    (¬ st.Has i ∧ db.history.find? (fun r => r.id == i) = none) := by
  have hl := h.le_len
  rw [h.wf.hist]
  unfold Store.entries
  rw [find_rows]
  have hlen : (st.history.length : Int) = st.kept := by
    unfold Store.history; rw [List.length_drop]; omega
  rw [hlen]
  have hiff : ((st.recorded.length - st.kept : Nat) : Int) < i ∧
      i ≤ ((st.recorded.length - st.kept : Nat) : Int) + st.kept ↔ st.Has i := by
    unfold Store.Has; omega
  by_cases hi : st.Has i
  · left
    rw [if_pos (hiff.2 hi)]
    have hb := hiff.2 hi
    have hn : (i - 1).toNat < st.recorded.length := by omega
    refine ⟨hi, st.recorded[(i - 1).toNat], if i = ((st.recorded.length - st.kept : Nat) : Int) + st.kept then none else some (i + 1), List.getElem?_eq_getElem hn, ?_⟩
    have : st.history[(i - ((st.recorded.length - st.kept : Nat) : Int) - 1).toNat]? =
        some st.recorded[(i - 1).toNat] := by
      unfold Store.history
      rw [List.getElem?_drop, show (st.recorded.length - st.kept) +
        (i - ((st.recorded.length - st.kept : Nat) : Int) - 1).toNat = (i - 1).toNat by omega]
      exact List.getElem?_eq_getElem hn
    rw [this]
    rfl
  · right
    rw [if_neg (fun hb => hi (hiff.1 hb))]
    exact ⟨hi, rfl⟩

/-! ## How the saved data changes -/

/-- Later saved data: more inputs may have been recorded, older ones dropped. -/
structure Spec.Store.Before (st st' : Store) : Prop where
  recorded : st.recorded <+: st'.recorded
  low : st.low ≤ st'.low

theorem Spec.Store.Before.refl (st : Store) : st.Before st := ⟨List.prefix_rfl, Nat.le_refl _⟩

theorem Spec.Store.Before.trans {a b c : Store} (h : a.Before b) (h' : b.Before c) : a.Before c :=
  ⟨h.recorded.trans h'.recorded, Nat.le_trans h.low h'.low⟩

theorem before_step (st : Store) (op : DbOp) : st.Before (st.step op) := by
  cases op with
  | openDb => exact .refl st
  | add s =>
    refine ⟨?_, ?_⟩
    · simp [Store.step, Store.trim]
    · simp only [Store.low, Store.step, Store.trim, List.length_append, List.length_cons, List.length_nil]
      omega
  | setVar var i =>
    unfold Store.step; simp only; split
    · exact ⟨List.prefix_rfl, Nat.le_refl _⟩
    · exact .refl st
  | touch x i =>
    unfold Store.step; simp only; split
    · exact ⟨List.prefix_rfl, Nat.le_refl _⟩
    · exact .refl st
  | clear x => exact ⟨List.prefix_rfl, Nat.le_refl _⟩
  | setCap n =>
    unfold Store.step; simp only; split
    · exact .refl st
    · refine ⟨List.prefix_rfl, ?_⟩
      simp only [Store.low, Store.trim]
      omega

theorem before_foldl (st : Store) (ops : List DbOp) : st.Before (ops.foldl Store.step st) := by
  induction ops generalizing st with
  | nil => exact .refl st
  | cons op ops ih => exact (before_step st op).trans (ih _)

theorem Rep.evolves {kind : DbOp → Prop} {st : Store} {db db' : Db} (h : Rep st db)
    (he : Evolves kind db db') : ∃ st', Rep st' db' ∧ st.Before st' := by
  obtain ⟨ops, _, rfl⟩ := he
  exact ⟨_, h.after ops, before_foldl st ops⟩

theorem before_get {st st' : Store} (h : st.Before st') {n : Nat} {s : Str}
    (hs : st.recorded[n]? = some s) : st'.recorded[n]? = some s := by
  obtain ⟨t, ht⟩ := h.recorded
  rw [← ht, List.getElem?_append_left]
  · exact hs
  · exact (List.getElem?_eq_some_iff.1 hs).1

/-! ## Scrollback -/

/-- Where a session is in its scrollback, having shown `k` inputs of those in `st0`. -/
def At (st0 st : Store) (k : Nat) : Option Int → Prop
  | some i => i = (st0.recorded.length : Int) - k ∧ k < st0.kept
  | none => k = st0.kept ∨ st0.recorded.length ≤ st.low + k

theorem At.later {st0 st st' : Store} {k : Nat} {p : Option Int} (h : At st0 st k p)
    (hb : st.Before st') : At st0 st' k p := by
  cases p with
  | some i => exact h
  | none =>
    rcases h with h | h
    · exact .inl h
    · exact .inr (by have := hb.low; omega)

/-- The invariant of scrollback. -/
structure ScrollInv (st0 : Store) (shown : List Str) (sd : SavedData) : Prop where
  pre : shown <+: st0.history.reverse
  rep : ∃ st, Rep st sd.db ∧ st0.Before st ∧ At st0 st shown.length sd.position

theorem history_reverse_get {st : Store} (hl : st.kept ≤ st.recorded.length) {k : Nat} (hk : k < st.kept) :
    st.history.reverse[k]? = st.recorded[st.recorded.length - 1 - k]? := by
  have hlen : st.history.length = st.kept := by
    unfold Store.history; rw [List.length_drop]; omega
  rw [List.getElem?_reverse (by omega), hlen]
  unfold Store.history
  rw [List.getElem?_drop]
  congr 1
  omega

/-- What a request does. -/
theorem request_cases (sd : SavedData) :
    (sd.position = none ∧ sd.getPrevInputHistory = (.ok none, sd)) ∨
    ∃ i, sd.position = some i ∧
      ((sd.nextEnv.fault = true ∧ sd.getPrevInputHistory =
          (.err .environment, { sd with env := sd.env.tail, db := sd.seen })) ∨
       (sd.nextEnv.fault = false ∧ sd.seen.history.find? (fun r => r.id == i) = none ∧
        ∃ sd', sd.getPrevInputHistory = (.ok none, sd') ∧ sd'.db = sd.seen ∧ sd'.position = none ∧
          sd'.env = sd.env.tail) ∨
       (sd.nextEnv.fault = false ∧ ∃ r, sd.seen.history.find? (fun r => r.id == i) = some r ∧
        ∃ sd', sd.getPrevInputHistory = (.ok (some r.input), sd') ∧ sd'.db = sd.seen ∧
          sd'.position = r.prev ∧ sd'.env = sd.env.tail)) := by
  unfold SavedData.getPrevInputHistory
  cases hp : sd.position with
  | none => exact .inl ⟨rfl, rfl⟩
  | some i =>
    right
    refine ⟨i, rfl, ?_⟩
    rcases run_cases sd (selectInputAndPrev i) with ⟨hf, hr⟩ | ⟨hf, hr⟩
    · left
      refine ⟨hf, ?_⟩
      simp only [hr, hp]
    · right
      unfold selectInputAndPrev at hr ⊢
      simp only at hr
      cases hfd : sd.seen.history.find? (fun r => r.id == i) with
      | none =>
        left
        rw [hfd] at hr
        refine ⟨hf, rfl, { sd with
          env := sd.env.tail, db := sd.seen, commits := sd.commits ++ [sd.seen], position := none }, ?_,
          rfl, rfl, rfl⟩
        simp only [hr, Option.map_none]
      | some r =>
        right
        rw [hfd] at hr
        refine ⟨hf, r, rfl, { sd with
          env := sd.env.tail, db := sd.seen, commits := sd.commits ++ [sd.seen], position := r.prev }, ?_,
          rfl, rfl, rfl⟩
        simp only [hr, Option.map_some]

theorem ScrollInv.request {st0 : Store} (hl0 : st0.kept ≤ st0.recorded.length) {shown : List Str}
    {sd : SavedData} (h : ScrollInv st0 shown sd) :
    ScrollInv st0 (shown ++ answer sd.getPrevInputHistory.1) sd.getPrevInputHistory.2 := by
  obtain ⟨st, hrep, hb, hat⟩ := h.rep
  obtain ⟨st1, hrep1, hb1⟩ := hrep.evolves (seen_evolves (fun _ => False) sd)
  have hb2 := hb.trans hb1
  rcases request_cases sd with ⟨_, hr⟩ | ⟨i, hp, ⟨_, hr⟩ | ⟨_, hf, sd', hr, hd, hpos, _⟩ |
      ⟨_, r, hf, sd', hr, hd, hpos, _⟩⟩
  · rw [hr]
    simp only [answer, List.append_nil]
    exact h
  · rw [hr]
    simp only [answer, List.append_nil]
    exact ⟨h.pre, st1, hrep1, hb2, hat.later hb1⟩
  · rw [hr]
    simp only [answer, List.append_nil]
    refine ⟨h.pre, st1, by rw [hd]; exact hrep1, hb2, ?_⟩
    rw [hpos]
    rw [hp] at hat
    obtain ⟨hi, hk⟩ := hat
    rcases hrep1.find i with ⟨_, s, n, _, hx⟩ | ⟨hn, _⟩
    · rw [hx] at hf; cases hf
    · right
      have hlen := hb2.recorded.length_le
      have hl1 := hrep1.le_len
      unfold Store.Has at hn
      unfold Store.low
      omega
  · rw [hr]
    simp only [answer]
    rw [hp] at hat
    obtain ⟨hi, hk⟩ := hat
    rcases hrep1.find i with ⟨hh, s, n, hs, hx⟩ | ⟨hn, hx⟩
    · rw [hx] at hf
      cases hf
      have hlen := hb2.recorded.length_le
      have hl1 := hrep1.le_len
      have hlow := hb2.low
      have hget : st0.history.reverse[shown.length]? = some s := by
        rw [history_reverse_get hl0 hk]
        have hn : (i - 1).toNat = st0.recorded.length - 1 - shown.length := by omega
        rw [hn] at hs
        have hlt : st0.recorded.length - 1 - shown.length < st0.recorded.length := by omega
        have h0 := List.getElem?_eq_getElem hlt
        have h1 := before_get hb2 h0
        rw [hs] at h1
        rw [h0, h1]
      refine ⟨?_, st1, by rw [hd]; exact hrep1, hb2, ?_⟩
      · obtain ⟨t, ht⟩ := h.pre
        rw [← ht] at hget ⊢
        rw [List.getElem?_append_right (Nat.le_refl _), Nat.sub_self] at hget
        cases t with
        | nil => simp at hget
        | cons a t =>
          simp at hget
          subst hget
          exact ⟨t, by simp⟩
      · rw [hpos]
        simp only [List.length_append, List.length_cons, List.length_nil]
        unfold Store.low at hlow
        unfold Store.Has at hh
        by_cases h1 : i = st1.low + 1
        · rw [if_pos h1]
          right
          unfold Store.low at h1 ⊢
          omega
        · rw [if_neg h1]
          unfold Store.low at h1
          refine ⟨by push_cast; omega, ?_⟩
          omega
    · rw [hx] at hf; cases hf

theorem ScrollInv.scroll {st0 : Store} (hl0 : st0.kept ≤ st0.recorded.length) {sd sd' : SavedData}
    {shown : List Str} (h : Scroll sd shown sd') (h0 : ScrollInv st0 [] sd) : ScrollInv st0 shown sd' := by
  induction h with
  | now => exact h0
  | meanwhile _ hp he ih =>
    obtain ⟨st, hrep, hb, hat⟩ := ih.rep
    obtain ⟨st1, hrep1, hb1⟩ := hrep.evolves he
    exact ⟨ih.pre, st1, hrep1, hb.trans hb1, by rw [hp]; exact hat.later hb1⟩
  | request _ ih => exact ih.request hl0

theorem open_inv {db : Db} (hr : Reachable db) {env : List EnvStep} {sd : SavedData}
    (h : SavedData.openDb db env = .ok sd) :
    ∃ st, Rep st sd.db ∧ ScrollInv st [] sd := by
  unfold SavedData.openDb at h
  obtain ⟨st, hrep⟩ := hr.rep
  obtain ⟨st1, hrep1, _⟩ := hrep.evolves
    (seen_evolves (fun _ => False) { db := db, position := none, env := env, commits := [] })
  rcases run_cases { db := db, position := none, env := env, commits := [] } openTx with ⟨_, hx⟩ | ⟨_, hx⟩
  · rw [hx] at h; cases h
  · rw [open_ok hrep1.wf] at hx
    rw [hx] at h
    simp only [Outcome.ok.injEq] at h
    subst h
    refine ⟨st1, hrep1, ⟨List.nil_prefix, st1, hrep1, .refl _, ?_⟩⟩
    simp only
    rw [hrep1.front]
    have hl := hrep1.le_len
    split
    · rename_i h0
      left
      rw [h0] at hl
      simp at hl
      exact hl.symm
    · rename_i h0
      have := hrep1.pos h0
      exact ⟨(Int.sub_zero _).symm, by change 0 < _; omega⟩

end Bcalc
