import Verif.Spec.Sessions
import Verif.Proof.Private
import Verif.Props.Private
import Verif.Props.Capacity
import Verif.Props.Session
import Verif.Props.Settings

/-! # From one session to the next -/

namespace Bcalc

open Spec

/-! ## What events do to the database -/

theorem handleEvent_db {e e' : Editor} {ev : Event} {a : Action} (h : handleEvent e ev = .ok (a, e')) :
    e'.db = e.db ∨ ∃ sd, e.db = some sd ∧ e'.db = some sd.getPrevInputHistory.2 := by
  unfold handleEvent at h
  split at h
  · unfold handleChar at h
    split at h
    · cases h; exact .inl rfl
    · split at h
      · split at h
        · cases h; exact .inl rfl
        · split at h
          · obtain ⟨_, _, h⟩ := outcome_bind_ok h
            obtain ⟨_, _, h⟩ := outcome_bind_ok h
            split at h <;> cases h <;> exact .inl rfl
          · cases h; exact .inl rfl
      · exact .inl (insertAtCursor_db h)
      · exact .inl (insertAtCursor_db h)
      · cases h; exact .inl rfl
  · split at h
    · cases h; exact .inl rfl
    · obtain ⟨_, _, h⟩ := outcome_bind_ok h
      cases h; exact .inl rfl
  · obtain ⟨_, _, h⟩ := outcome_bind_ok h
    split at h
    · cases h; exact .inl rfl
    · obtain ⟨_, _, h⟩ := outcome_bind_ok h
      cases h; exact .inl rfl
  · have hc := tryEarlier_cases e.inputs e.db
    generalize e.inputs.tryEarlier e.db = r at h hc
    cases hc with
    | within _ =>
      obtain ⟨_, _, h⟩ := outcome_bind_ok h
      cases h; exact .inl rfl
    | done _ _ => cases h; exact .inl rfl
    | missing _ _ => cases h
    | loaded _ _ hs hg =>
      obtain ⟨_, _, h⟩ := outcome_bind_ok h
      cases h; exact .inr ⟨_, hs, by rw [hg]⟩
    | none _ _ hs hg => cases h; exact .inr ⟨_, hs, by rw [hg]⟩
    | failed _ _ hs _ => cases h
  · split at h
    · obtain ⟨_, _, h⟩ := outcome_bind_ok h
      cases h; exact .inl rfl
    · cases h; exact .inl rfl
  · split at h <;> cases h <;> exact .inl rfl
  · split at h
    · cases h; exact .inl rfl
    · obtain ⟨_, _, h⟩ := outcome_bind_ok h
      cases h; exact .inl rfl
  · cases h; exact .inl rfl
  · obtain ⟨_, _, h⟩ := outcome_bind_ok h
    cases h; exact .inl rfl
  · cases h; exact .inl rfl
  · cases h; exact .inl rfl
  · cases h
  · cases h; exact .inl rfl
  · cases h; exact .inl rfl

theorem getPrev_alone (sd : SavedData) (hq : sd.env = []) :
    sd.getPrevInputHistory.2.db = sd.db ∧ sd.getPrevInputHistory.2.env = [] := by
  rcases request_cases sd with ⟨_, hr⟩ | ⟨i, _, ⟨_, hr⟩ | ⟨_, _, sd', hr, hd, _, he⟩ | ⟨_, _, _, sd', hr, hd, _, he⟩⟩
  · rw [hr]; exact ⟨rfl, hq⟩
  · rw [hr]; exact ⟨seen_quiet hq, by simp [hq]⟩
  · rw [hr]; exact ⟨by rw [hd]; exact seen_quiet hq, by rw [he, hq]; rfl⟩
  · rw [hr]; exact ⟨by rw [hd]; exact seen_quiet hq, by rw [he, hq]; rfl⟩

/-- Events other than Enter leave the database as it is. -/
theorem other_worksOn {m : Machine} {ce : CommandExecutor} {e e' : Editor} (ha : Awaits m ce e) {ev : Event}
    {t : TermInfo} {out : StepOut} (hne : ∀ mods, ev ≠ .key .enter mods)
    (h : step m ce e ev t = .ok (out, e')) {db : Db} (hw : WorksOn e db) : WorksOn e' db := by
  obtain ⟨⟨line, ho⟩, hc⟩ := ha.ok
  have hen : isEnter ev = false := by
    cases hx : isEnter ev with
    | false => rfl
    | true => obtain ⟨mods, he⟩ := isEnter_iff hx; exact absurd he (hne mods)
  obtain ⟨_, a, e1, h1, _, ⟨off, rfl⟩, _⟩ := step_other ho hc hen h
  obtain ⟨sd, hd, hq, hdb⟩ := hw
  rcases handleEvent_db h1 with he | ⟨sd', hd', he⟩
  · exact ⟨sd, by simp only; rw [he, hd], hq, hdb⟩
  · rw [hd] at hd'
    cases hd'
    obtain ⟨h2, h3⟩ := getPrev_alone sd hq
    exact ⟨_, he, h3, by rw [h2, hdb]⟩

/-- What a line does to the database after it has been recorded as number `i`. -/
def ThenOp (m : Machine) (ce : CommandExecutor) (radix : Nat) (line : Str) (i : Int) (op : DbOp) : Prop :=
  (∃ ts, tokenize line radix = .ok (.tokens ts) ∧ TokensOp m (some i) ts op) ∨
  (∃ name arguments, tokenize line radix = .ok (.command name arguments) ∧
    CommandOp m ce (some i) name arguments op)

theorem afterRecording_db (m : Machine) (ce : CommandExecutor) (line : Str) (i : Int) (s : Session) :
    SessRel (ThenOp m ce s.args.radix line i) s (afterRecording m ce line (some i) s).2 := by
  unfold afterRecording
  cases ht : tokenize line s.args.radix with
  | ok t =>
    cases t with
    | tokens ts => exact (calculateTokens_db m _ ts s).mono fun op h => .inl ⟨ts, ht, h⟩
    | command name arguments =>
      exact (calculateCommand_db m ce _ name arguments s).mono fun op h => .inr ⟨name, arguments, ht, h⟩
  | err e => exact SessRel.refl _ _
  | panic k => exact SessRel.refl _ _
  | diverge => exact SessRel.refl _ _

/-- Enter: the line is recorded, then it may do something. -/
theorem enter_worksOn {m : Machine} {ce : CommandExecutor} {e e' : Editor} (ha : Awaits m ce e) {mods : Mods}
    {t : TermInfo} {out : StepOut} {line : Str} (hs : Shows e line)
    (h : step m ce e (.key .enter mods) t = .ok (out, e')) {db : Db} (hr : Reachable db) (hw : WorksOn e db)
    {st : Store} (hrep : Rep st db) :
    ∃ ops, WorksOn e' (after ops ((DbOp.add line).apply db)) ∧
      ∀ op ∈ ops, ThenOp m ce e.args.radix line (st.recorded.length + 1) op := by
  obtain ⟨sd, hd, hq, rfl⟩ := hw
  have hE := step_enter_ok (ha.line hs) h
  obtain ⟨_, _, _, r, _, _, hcalc, _⟩ := hE.out
  have hsd : e.session.db = some sd := hd
  have hQ : Quiet e.session := fun sd' h' => by rw [hsd] at h'; cases h'; exact hq
  obtain ⟨i, hrec⟩ := recordInput_quiet (s := e.session) rfl hs hsd hr hQ
  have hi : i = st.recorded.length + 1 := by
    obtain ⟨sd1, h1, h2, h3⟩ := recordInput_cases (s := e.session) rfl hs hsd
    obtain ⟨db', hx, _⟩ := hrep.add line
    unfold SavedData.addToInputHistory at h3
    rw [run_quiet hq, hx, hrec] at h3
    simp only [Outcome.ok.injEq, Option.some.injEq] at h3
    exact h3
  subst hi
  rw [calculate_eq, andThen_of_ok hrec] at hcalc
  generalize hs1 : ({ e.session with
      inputs := some { e.inputs with internal := e.inputs.internal ++ [line], current := [some []], index := 0 }
      db := some { sd with
        db := (DbOp.add line).apply sd.db
        commits := sd.commits ++ [(DbOp.add line).apply sd.db] } } : Session) = s1 at hcalc
  have hrest := afterRecording_db m ce line (st.recorded.length + 1) s1
  rw [hcalc] at hrest
  unfold SessRel at hrest
  have hd1 : s1.db = some { sd with
        db := (DbOp.add line).apply sd.db
        commits := sd.commits ++ [(DbOp.add line).apply sd.db] } := by rw [← hs1]
  have hrad : s1.args.radix = e.args.radix := by rw [← hs1]; rfl
  rw [hd1] at hrest
  have hed : e'.session.db = e'.db := rfl
  simp only at hrest
  rw [hed] at hrest
  cases hd2 : e'.db with
  | none => rw [hd2] at hrest; exact hrest.elim
  | some sd2 =>
    rw [hd2] at hrest
    obtain ⟨h1, ops, h2, h3⟩ := SdRel.quiet hrest (by simp only; exact hq)
    rw [hrad] at h2
    exact ⟨ops, ⟨sd2, hd2, h1, h3⟩, h2⟩

/-- Lines that are no /histcap only use and store variables, after they have been recorded. -/
theorem thenOp_keeps {m : Machine} {radix : Nat} {line : Str} {i : Int} {op : DbOp}
    (h : ThenOp m table radix line i op) (hk : KeepsCapacity line) :
    (∃ y, op = .touch y i) ∨ (∃ var, op = .setVar var i ∧ Assigns radix line var.name) ∨
    (HashOk m → ∃ y, op = .clear y ∧ Lists radix line "purgevar" y) := by
  rcases h with ⟨ts, ht, ⟨y, _, j, hj, rfl⟩ | ⟨tree, hn, x, v, j, hx, hj, rfl⟩⟩ |
    ⟨name, arguments, ht, ⟨cmd, hr, ⟨rfl, ts, hts, y, hy, rfl⟩ | ⟨rfl, n, rfl⟩⟩ | ⟨y, j, hj, _, rfl⟩⟩
  · cases hj; exact .inl ⟨y, rfl⟩
  · cases hj
    refine .inr (.inl ⟨_, rfl, ?_⟩)
    obtain ⟨q, rest, hts⟩ := new_resultVar hn hx
    exact ⟨x.position, q, rest, by rw [ht, hts]⟩
  · refine .inr (.inr fun hm => ⟨y, rfl, name.position, arguments, ts, ?_, hts, (hash_mem hm).1 hy⟩)
    obtain ⟨n, hn1, hn2⟩ := (C66_names table new_table name.value .purgeVar).1 hr
    have : n = "purgevar" := by
      revert hn1
      unfold commandNames
      simp only [List.mem_cons, Prod.mk.injEq, reduceCtorEq, and_false, false_or, or_false, List.not_mem_nil, and_true]
      exact fun h => h
    subst this
    rw [ht, ← hn2]
  · exact absurd ((isCommand_iff radix).2 ⟨name.value, name.position, arguments.position, ht, hr⟩) (hk _)
  · cases hj; exact .inl ⟨y, rfl⟩

/-! ## The saved history -/

theorem lastN_lastN {α : Type} (n : Nat) (a b : List α) : lastN n (lastN n a ++ b) = lastN n (a ++ b) := by
  unfold lastN
  rw [List.length_append, List.length_drop, List.length_append]
  rw [← List.drop_append_of_le_length (by omega), List.drop_drop]
  congr 1
  omega

theorem lastN_short {α : Type} {n : Nat} {a : List α} (h : a.length ≤ n) : lastN n a = a := by
  unfold lastN
  rw [Nat.sub_eq_zero_of_le h]; rfl

theorem capacity_unique {db : Db} {a b : Nat} (h : CapacityIs db a) (h' : CapacityIs db b) : a = b := by
  unfold CapacityIs at h h'
  rw [h] at h'
  simp only [Option.some.injEq] at h'
  omega

theorem thenOps_history {m : Machine} {radix : Nat} {line : Str} {i : Int} (hm : HashOk m) (hk : KeepsCapacity line) :
    ∀ (ops : List DbOp) {db : Db}, Reachable db → (∀ op ∈ ops, ThenOp m table radix line i op) →
    Reachable (after ops db) ∧ historyOf (after ops db) = historyOf db ∧
      ∀ cap, CapacityIs db cap → CapacityIs (after ops db) cap
  | [], db, hr, _ => ⟨hr, rfl, fun _ h => h⟩
  | op :: ops, db, hr, h => by
    have h1 := thenOp_keeps (h op (by simp)) hk
    have ha : ∀ s, op ≠ .add s := by
      rintro s rfl
      rcases h1 with ⟨y, h1⟩ | ⟨v, h1, _⟩ | h1
      · cases h1
      · cases h1
      · obtain ⟨y, h1, _⟩ := h1 hm; cases h1
    have hc : ∀ n, op ≠ .setCap n := by
      rintro n rfl
      rcases h1 with ⟨y, h1⟩ | ⟨v, h1, _⟩ | h1
      · cases h1
      · cases h1
      · obtain ⟨y, h1, _⟩ := h1 hm; cases h1
    obtain ⟨h2, h3⟩ := C45_others db hr op ha hc
    obtain ⟨h4, h5, h6⟩ := thenOps_history hm hk ops (hr.apply op) fun o ho => h o (by simp [ho])
    exact ⟨h4, h5.trans h2, fun cap hcap => h6 cap (h3 cap hcap)⟩

/-- The history after the lines of a session. -/
theorem since_history {m : Machine} (hm : HashOk m) {e e' : Editor} (ha : Awaits m table e) {db : Db}
    (hr : Reachable db) (hw : WorksOn e db) {cap : Nat} (hcap : CapacityIs db cap) {lines : List Str}
    (h : Since m table (fun _ line => KeepsCapacity line) e lines e') :
    Awaits m table e' ∧ ∃ db', WorksOn e' db' ∧ Reachable db' ∧ CapacityIs db' cap ∧
      historyOf db' = lastN cap (historyOf db ++ lines.reverse) := by
  induction h with
  | now =>
    refine ⟨ha, db, hw, hr, hcap, ?_⟩
    obtain ⟨cap', _, h2, _, _, h3⟩ := C45_add db hr []
    rw [capacity_unique h2 hcap] at h3
    rw [List.reverse_nil, List.append_nil, lastN_short h3]
  | @enter lines e1 e2 mods t out line _ hs hk h ih =>
    obtain ⟨ha1, db1, hw1, hr1, hc1, hh1⟩ := ih
    obtain ⟨st, hrep⟩ := hr1.rep
    obtain ⟨ops, hw2, hops⟩ := enter_worksOn ha1 hs h hr1 hw1 hrep
    obtain ⟨cap', _, h2, h3, h4, _⟩ := C45_add db1 hr1 line
    have := capacity_unique h2 hc1
    subst this
    obtain ⟨h5, h6, h7⟩ := thenOps_history hm hk ops (hr1.apply (.add line)) hops
    refine ⟨?_, _, hw2, h5, h7 _ h3, ?_⟩
    · obtain ⟨_, _, _, _, hout, _⟩ := (step_enter_ok (ha1.line hs) h).out
      exact .event ha1 h (by rw [hout])
    · rw [h6, h4, hh1, lastN_lastN, List.reverse_cons, List.append_assoc]
  | other _ hne h hq ih =>
    obtain ⟨ha1, db1, hw1, hr1, hc1, hh1⟩ := ih
    exact ⟨.event ha1 h hq, db1, other_worksOn ha1 hne h hw1, hr1, hc1, hh1⟩

/-! ## The saved variables -/

/-- The variable was last used by an input that is not older than number `n`, `k` inputs ago, and the
history is long enough. -/
structure Fresh (st : Store) (x : Str) (v : Rat) (cap n k : Nat) : Prop where
  used : ∃ j : Int, st.vars x = some (v, j) ∧ n ≤ j ∧ j ≤ st.recorded.length
  count : st.recorded.length = n + k
  cap : st.cap = cap
  kept : k + 1 ≤ st.kept

theorem Fresh.add {st : Store} {x : Str} {v : Rat} {cap n k : Nat} (h : Fresh st x v cap n k)
    (hk : k + 1 < cap) (line : Str) : Fresh (st.step (.add line)) x v cap n (k + 1) := by
  obtain ⟨⟨j, hj, hn, hj2⟩, hcount, hcap, hkept⟩ := h
  have hm : k + 2 ≤ min (st.kept + 1) st.cap := by omega
  refine ⟨⟨j, ?_, hn, ?_⟩, ?_, hcap, ?_⟩
  · unfold Store.step Store.trim
    simp only
    rw [hj]
    simp only
    rw [if_pos]
    unfold Store.Has
    simp only [List.length_append, List.length_cons, List.length_nil]
    omega
  · simp only [Store.step, Store.trim, List.length_append, List.length_cons, List.length_nil]; omega
  · simp only [Store.step, Store.trim, List.length_append, List.length_cons, List.length_nil]; omega
  · exact hm

theorem Fresh.own {st : Store} {x : Str} {v : Rat} {cap n k : Nat} (h : Fresh st x v cap n k) {op : DbOp}
    {i : Int} (hi : i = st.recorded.length)
    (ho : (∃ y, op = .touch y i) ∨ (∃ var, op = .setVar var i ∧ var.name ≠ x) ∨ ∃ y, op = .clear y ∧ y ≠ x) :
    Fresh (st.step op) x v cap n k ∧ (st.step op).recorded = st.recorded := by
  obtain ⟨⟨j, hj, hn, hj2⟩, hcount, hcap, hkept⟩ := h
  rcases ho with ⟨y, rfl⟩ | ⟨var, rfl, hv⟩ | ⟨y, rfl, hy⟩
  · unfold Store.step
    simp only
    split
    · refine ⟨⟨?_, hcount, hcap, hkept⟩, rfl⟩
      by_cases hxy : x = y
      · exact ⟨i, by simp only; rw [if_pos hxy, hj]; rfl, by omega, by simp only; omega⟩
      · exact ⟨j, by simp only; rw [if_neg hxy, hj], hn, hj2⟩
    · exact ⟨⟨⟨j, hj, hn, hj2⟩, hcount, hcap, hkept⟩, rfl⟩
  · unfold Store.step
    simp only
    split
    · exact ⟨⟨⟨j, by simp only; rw [if_neg (fun h => hv h.symm), hj], hn, hj2⟩, hcount, hcap, hkept⟩, rfl⟩
    · exact ⟨⟨⟨j, hj, hn, hj2⟩, hcount, hcap, hkept⟩, rfl⟩
  · unfold Store.step
    exact ⟨⟨⟨j, by simp only; rw [if_neg (fun h => hy h.symm), hj], hn, hj2⟩, hcount, hcap, hkept⟩, rfl⟩

theorem Fresh.ops {x : Str} {v : Rat} {cap n k : Nat} {i : Int} : ∀ (ops : List DbOp) {st : Store} {db : Db},
    Rep st db → Fresh st x v cap n k → i = st.recorded.length →
    (∀ op ∈ ops, (∃ y, op = .touch y i) ∨ (∃ var, op = .setVar var i ∧ var.name ≠ x) ∨
      ∃ y, op = .clear y ∧ y ≠ x) →
    ∃ st', Rep st' (after ops db) ∧ Fresh st' x v cap n k
  | [], st, db, hr, hf, _, _ => ⟨st, hr, hf⟩
  | op :: ops, st, db, hr, hf, hi, h => by
    obtain ⟨h1, h2⟩ := hf.own hi (h op (by simp))
    exact Fresh.ops ops (hr.step op) h1 (by rw [h2, hi]) fun o ho => h o (by simp [ho])

/-- A variable survives as many lines as the capacity allows. -/
theorem since_fresh {m : Machine} (hm : HashOk m) {e e' : Editor} (ha : Awaits m table e) {db : Db}
    (hr : Reachable db) (hw : WorksOn e db) {st : Store} (hrep : Rep st db) {x : Str} {v : Rat} {cap n : Nat}
    (hf : Fresh st x v cap n 0) {lines : List Str} (hlen : lines.length < cap)
    (h : Since m table (LeavesAlone x) e lines e') :
    Awaits m table e' ∧ ∃ db' st', WorksOn e' db' ∧ Reachable db' ∧ Rep st' db' ∧
      Fresh st' x v cap n lines.length := by
  induction h with
  | now => exact ⟨ha, db, st, hw, hr, hrep, hf⟩
  | @enter lines e1 e2 mods t out line _ hs hk h ih =>
    rw [List.length_cons] at hlen
    obtain ⟨ha1, db1, st1, hw1, hr1, hrep1, hf1⟩ := ih (by omega)
    obtain ⟨ops, hw2, hops⟩ := enter_worksOn ha1 hs h hr1 hw1 hrep1
    have hf2 := hf1.add hlen line
    obtain ⟨st3, hrep3, hf3⟩ := Fresh.ops (i := (st1.recorded.length : Int) + 1) ops (hrep1.step (.add line)) hf2
      (by simp [Store.step, Store.trim]) fun op ho => by
        rcases thenOp_keeps (hops op ho) hk.1 with h1 | ⟨var, h1, h2⟩ | h1
        · exact .inl h1
        · exact .inr (.inl ⟨var, h1, fun hx => hk.2.1 (by rw [← hx]; exact h2)⟩)
        · obtain ⟨y, h1, h2⟩ := h1 hm
          exact .inr (.inr ⟨y, h1, fun hx => hk.2.2 (by rw [← hx]; exact h2)⟩)
    refine ⟨?_, _, st3, hw2, ?_, hrep3, hf3⟩
    · obtain ⟨_, _, _, _, hout, _⟩ := (step_enter_ok (ha1.line hs) h).out
      exact .event ha1 h (by rw [hout])
    · exact (thenOps_history hm hk.1 ops (hr1.apply (.add line)) hops).1
  | other _ hne h hq ih =>
    obtain ⟨ha1, db1, st1, hw1, h1⟩ := ih hlen
    exact ⟨.event ha1 h hq, db1, st1, other_worksOn ha1 hne h hw1, h1⟩

theorem Fresh.stored {st : Store} {x : Str} {v : Rat} {cap n k : Nat} (h : Fresh st x v cap n k) {db : Db}
    (hr : Rep st db) : Stored db x v := by
  obtain ⟨j, hj, _⟩ := h.used
  obtain ⟨row, h1, h2, h3, h4, _⟩ := (hr.vars x v j).1 hj
  exact ⟨row, h1, h2, h3, h4⟩

/-! ## Recalling the history of earlier sessions -/

/-- Up has been pressed `k` times in a new session. -/
structure Upped (db : Db) (st : Store) (k : Nat) (e : Editor) : Prop where
  db : ∃ sd, e.db = some sd ∧ sd.env = [] ∧ sd.db = db ∧ At st st k sd.position
  past : pastInputs e.inputs = st.history.reverse.take k
  le : k ≤ st.kept
  index : e.inputs.index = k
  exhausted : e.inputs.dbExhausted = true → k = st.kept
  first : e.inputs.current[0]? = some (some [])
  plain : ∀ i l, 0 < i → e.inputs.current[i]? ≠ some (some l)

theorem Upped.lineAt {db : Db} {st : Store} {k : Nat} {e : Editor} (h : Upped db st k e) (i : Nat) :
    Spec.lineAt e.inputs i = if i = 0 then some [] else (st.history.reverse.take k)[i - 1]? := by
  unfold Spec.lineAt
  by_cases hi : i = 0
  · subst hi; rw [h.first]; rfl
  · rw [if_neg hi, if_neg hi, h.past]
    cases hc : e.inputs.current[i]? with
    | none => rfl
    | some o =>
      cases o with
      | none => rfl
      | some l => exact absurd hc (h.plain i l (by omega))

theorem stepEarlier_current (h : InputHistory) (i : Nat) :
    h.stepEarlier.current[i]? = h.current[i]? ∨ (h.current[i]? = none ∧ h.stepEarlier.current[i]? = some none) := by
  unfold InputHistory.stepEarlier
  simp only
  split
  · rcases Nat.lt_trichotomy i h.current.length with hi | hi | hi
    · left; rw [List.getElem?_append_left hi]
    · right
      subst hi
      simp
    · left
      rw [List.getElem?_eq_none (by simp; omega), List.getElem?_eq_none (by omega)]
  · exact .inl rfl

/-- Up once more. -/
theorem Upped.next {db : Db} {st : Store} (hrep : Rep st db) {k : Nat} {e e1 : Editor} {a : Action} {mods : Mods}
    (h : Upped db st k e) (h1 : handleEvent e (.key .up mods) = .ok (a, e1)) :
    Upped db st (min (k + 1) st.kept) e1 := by
  obtain ⟨⟨sd, hd, hq, hdb, hat⟩, hpast, hle, hidx, hex, hfirst, hplain⟩ := h
  have hlen : (pastInputs e.inputs).length = k := by
    rw [hpast, List.length_take, List.length_reverse]
    have : st.history.length = st.kept := by
      unfold Store.history; rw [List.length_drop]; have := hrep.le_len; omega
    omega
  rw [past_length] at hlen
  unfold handleEvent at h1
  simp only at h1
  have hc := tryEarlier_cases e.inputs e.db
  generalize e.inputs.tryEarlier e.db = r at h1 hc
  cases hc with
  | within hlt => omega
  | done hge hx =>
    cases h1
    have := hex hx
    rw [show min (k + 1) st.kept = k by omega]
    exact ⟨⟨sd, hd, hq, hdb, hat⟩, hpast, hle, hidx, hex, hfirst, hplain⟩
  | missing _ hn => rw [hd] at hn; cases hn
  | loaded hge hx hs hg =>
    rename_i sd1 input sd'
    rw [hd] at hs; cases hs
    obtain ⟨l, hl, h1⟩ := outcome_bind_ok h1
    cases h1
    rcases request_cases sd with ⟨_, hr⟩ | ⟨i, hp, ⟨_, hr⟩ | ⟨_, _, sd2, hr, _⟩ | ⟨_, row, hf, sd2, hr, hd2, hpos, he2⟩⟩
    · rw [hg] at hr; cases hr
    · rw [hg] at hr; cases hr
    · rw [hg] at hr; cases hr
    · rw [hg] at hr
      simp only [Prod.mk.injEq, Outcome.ok.injEq, Option.some.injEq] at hr
      obtain ⟨rfl, rfl⟩ := hr
      rw [hp] at hat
      obtain ⟨hi, hk⟩ := hat
      rw [seen_quiet hq, hdb] at hf
      rcases hrep.find i with ⟨hh, s, nx, hs, hf'⟩ | ⟨_, hf'⟩
      · rw [hf'] at hf
        simp only [Option.some.injEq] at hf
        subst hf
        simp only at hpos
        have hll := hrep.le_len
        rw [show min (k + 1) st.kept = k + 1 by omega]
        refine ⟨⟨sd', rfl, by rw [he2, hq]; rfl, by rw [hd2, seen_quiet hq, hdb], ?_⟩, ?_, by omega, by
          simp [InputHistory.stepEarlier, hidx], fun h => ?_, ?_, ?_⟩
        · rw [hpos]
          unfold Store.low
          by_cases hkk : k + 1 = st.kept
          · rw [if_pos (by omega)]; exact .inl hkk
          · rw [if_neg (by omega)]; exact ⟨by push_cast; omega, by omega⟩
        · have : pastInputs ({ e.inputs with dbHistory := e.inputs.dbHistory ++ [s] } : InputHistory).stepEarlier =
              pastInputs e.inputs ++ [s] := by
            unfold pastInputs InputHistory.stepEarlier
            simp
          simp only
          rw [this, hpast, List.take_add_one]
          congr 1
          rw [history_reverse_get hll hk, show st.recorded.length - 1 - k = (i - 1).toNat by omega, hs]
          rfl
        · simp only [InputHistory.stepEarlier] at h
          rw [hx] at h; cases h
        · rcases stepEarlier_current { e.inputs with dbHistory := e.inputs.dbHistory ++ [s] } 0 with h | ⟨h, _⟩
          · rw [h]; exact hfirst
          · simp only at h; rw [hfirst] at h; cases h
        · intro i l hi hc
          rcases stepEarlier_current { e.inputs with dbHistory := e.inputs.dbHistory ++ [s] } i with h | ⟨_, h⟩
          · rw [h] at hc; exact hplain i l hi hc
          · rw [h] at hc; cases hc
      · rw [hf'] at hf; cases hf
  | none hge hx hs hg =>
    rename_i sd1 sd'
    rw [hd] at hs; cases hs
    cases h1
    rcases request_cases sd with ⟨hp, hr⟩ | ⟨i, hp, ⟨_, hr⟩ | ⟨_, hf, sd2, hr, _⟩ | ⟨_, row, hf, sd2, hr, _⟩⟩
    · rw [hg] at hr
      cases hr
      have hkk : k = st.kept := by
        rw [hp] at hat
        have hll := hrep.le_len
        rcases hat with h | h
        · exact h
        · unfold Store.low at h; omega
      rw [show min (k + 1) st.kept = k by omega]
      exact ⟨⟨sd, rfl, hq, hdb, hat⟩, hpast, hle, hidx, fun _ => hkk, hfirst, hplain⟩
    · rw [hg] at hr; cases hr
    · rw [hp] at hat
      obtain ⟨hi, hk⟩ := hat
      rw [seen_quiet hq, hdb] at hf
      rcases hrep.find i with ⟨hh, s, nx, hs, hf'⟩ | ⟨hn, _⟩
      · rw [hf'] at hf; cases hf
      · exfalso
        have hll := hrep.le_len
        unfold Store.Has at hn
        omega
    · rw [hg] at hr; cases hr
  | failed _ _ _ _ => cases h1

theorem ups_upped {m : Machine} {ce : CommandExecutor} {mods : Mods} {t : TermInfo} {db : Db} {st : Store}
    (hrep : Rep st db) : ∀ (n : Nat) {k : Nat} {e e' : Editor} {outs : List StepOut}, Awaits m ce e →
    Upped db st k e → runEvents m ce e (List.replicate n (.key .up mods, t)) = .ok (outs, e') →
    Awaits m ce e' ∧ Upped db st (min (k + n) st.kept) e'
  | 0, k, e, e', outs, ha, hu, h => by
    cases h
    refine ⟨ha, ?_⟩
    rw [show min (k + 0) st.kept = k from by have := hu.le; omega]
    exact hu
  | n + 1, k, e, e', outs, ha, hu, h => by
    rw [List.replicate_succ] at h
    unfold runEvents at h
    obtain ⟨⟨out, e1⟩, h1, h⟩ := outcome_bind_ok h
    simp only at h
    have hq := step_up_quit h1
    rw [hq, if_neg (by simp)] at h
    obtain ⟨⟨outs1, e2⟩, h2, h⟩ := outcome_bind_ok h
    cases h
    obtain ⟨⟨line, ho⟩, hc⟩ := ha.ok
    obtain ⟨_, a, e3, h3, _, ⟨off, rfl⟩, _⟩ := step_other ho hc rfl h1
    have hu1 := hu.next hrep h3
    have hu2 : Upped db st (min (k + 1) st.kept) { e3 with scrollOffset := off } :=
      ⟨hu1.db, hu1.past, hu1.le, hu1.index, hu1.exhausted, hu1.first, hu1.plain⟩
    have := ups_upped hrep n (.event ha h1 hq) hu2 h2
    rw [show min (min (k + 1) st.kept + n) st.kept = min (k + (n + 1)) st.kept by omega] at this
    exact this

end Bcalc
