import Verif.Spec.Together
import Verif.Proof.Sessions
import Verif.Props.Sessions
import Verif.Props.Independent

/-! # C98: sessions side by side -/

namespace Bcalc
open Spec

/-- What a line does to the shared database: it is recorded, then it may do something; and whatever is left by a
crash after the recording is something on the way. -/
theorem submits_ops {m : Machine} {ce : CommandExecutor} {c : Company} {i : Nat} {line : Str} {s s' : Session}
    {sd sd' : SavedData} {r : Outcome Failure Str} (h : Submits c i line s sd) (hr : Reachable c.db) {st : Store}
    (hrep : Rep st c.db) (hc : calculate m ce line s = (r, s')) (hd : s'.db = some sd') :
    Evolves (ThenOp m ce s.args.radix line (st.recorded.length + 1)) ((DbOp.add line).apply c.db) sd'.db ∧
      ∀ new, sd'.commits = sd.commits ++ new → ∀ db ∈ new,
        Evolves (ThenOp m ce s.args.radix line (st.recorded.length + 1)) ((DbOp.add line).apply c.db) db := by
  obtain ⟨_, ⟨inp, hi, hcur⟩, hsd, hsame, hq⟩ := h
  rw [← hsame] at hr hrep ⊢
  have hQ : Quiet s := fun sd' h' => by rw [hsd] at h'; cases h'; exact hq
  obtain ⟨i, hrec⟩ := recordInput_quiet hi hcur hsd hr hQ
  have hi' : i = st.recorded.length + 1 := by
    obtain ⟨sd1, h1, h2, h3⟩ := recordInput_cases hi hcur hsd
    obtain ⟨db', hx, _⟩ := hrep.add line
    unfold SavedData.addToInputHistory at h3
    rw [run_quiet hq, hx, hrec] at h3
    simp only [Outcome.ok.injEq, Option.some.injEq] at h3
    exact h3
  subst hi'
  rw [calculate_eq, andThen_of_ok hrec] at hc
  generalize hs1 : ({ s with
      inputs := some { inp with internal := inp.internal ++ [line], current := [some []], index := 0 }
      db := some { sd with
        db := (DbOp.add line).apply sd.db
        commits := sd.commits ++ [(DbOp.add line).apply sd.db] } } : Session) = s1 at hc
  have hrest := afterRecording_db m ce line (st.recorded.length + 1) s1
  rw [hc] at hrest
  unfold SessRel at hrest
  have hd1 : s1.db = some { sd with
        db := (DbOp.add line).apply sd.db
        commits := sd.commits ++ [(DbOp.add line).apply sd.db] } := by rw [← hs1]
  have hrad : s1.args.radix = s.args.radix := by rw [← hs1]
  rw [hd1] at hrest
  simp only at hrest
  rw [hd] at hrest
  rw [hrad] at hrest
  obtain ⟨_, hev⟩ := SdRel.quiet hrest (by simp only; exact hq)
  obtain ⟨new', hn', hcm⟩ := SdRel.quiet_commits hrest (by simp only; exact hq)
  refine ⟨hev, fun new hn db hdb => ?_⟩
  simp only at hn' hcm
  rw [hn, List.append_assoc, List.append_cancel_left_eq] at hn'
  rw [hn'] at hdb
  rcases List.mem_append.1 hdb with h | h
  · rw [List.mem_singleton.1 h]
    exact Evolves.refl _ _
  · exact (hcm db h).1

/-- The history after a line, or a part of one. -/
theorem recorded_history {m : Machine} (hm : HashOk m) {radix : Nat} {line : Str} (hk : KeepsCapacity line) {n : Int}
    {db db' : Db} (hr : Reachable db) {cap : Nat} (hcap : CapacityIs db cap)
    (h : Evolves (ThenOp m table radix line n) ((DbOp.add line).apply db) db') :
    Reachable db' ∧ CapacityIs db' cap ∧ historyOf db' = lastN cap (historyOf db ++ [line]) := by
  obtain ⟨ops, hops, rfl⟩ := h
  obtain ⟨cap', _, h2, h3, h4, _⟩ := C45_add db hr line
  have := capacity_unique h2 hcap
  subst this
  obtain ⟨h5, h6, h7⟩ := thenOps_history hm hk ops (hr.apply (.add line)) hops
  exact ⟨h5, h7 _ h3, h6.trans h4⟩

theorem opened_same {db : Db} (hr : Reachable db) {sd : SavedData} (ho : SavedData.openDb db [] = .ok sd) : sd.db = db := by
  obtain ⟨st, hrep⟩ := hr.rep
  unfold SavedData.openDb at ho
  rw [run_quiet rfl, open_ok hrep.wf] at ho
  simp only [Outcome.ok.injEq] at ho
  rw [← ho]

theorem together_history {m : Machine} (hm : HashOk m) {c c' : Company} {log : List Happening} (hr : Reachable c.db)
    {cap : Nat} (hcap : CapacityIs c.db cap) (h : Together m table c log c') (hk : ∀ line ∈ linesOf log, KeepsCapacity line) :
    Reachable c'.db ∧ CapacityIs c'.db cap ∧ historyOf c'.db = lastN cap (historyOf c.db ++ (linesOf log).reverse) := by
  induction h with
  | now =>
    refine ⟨hr, hcap, ?_⟩
    obtain ⟨cap', _, h2, _, _, h3⟩ := C45_add c.db hr []
    rw [capacity_unique h2 hcap] at h3
    simp only [linesOf, List.filterMap_nil, List.reverse_nil, List.append_nil]
    rw [lastN_short h3]
  | opens _ _ _ ho ih =>
    obtain ⟨h1, h2, h3⟩ := ih hk
    rw [Company.with, opened_same h1 ho]
    exact ⟨h1, h2, h3⟩
  | leaves _ ih => exact ih hk
  | @enters log c1 i line s sd r s' sd' vars _ hs hc _ _ hd _ ih =>
    obtain ⟨h1, h2, h3⟩ := ih fun l hl => hk l (List.mem_cons_of_mem _ hl)
    obtain ⟨st, hrep⟩ := h1.rep
    obtain ⟨h4, h5, h6⟩ := recorded_history hm (hk line (List.mem_cons_self ..)) h1 h2 (submits_ops hs h1 hrep hc hd).1
    refine ⟨h4, h5, ?_⟩
    show historyOf sd'.db = _
    rw [h6, h3, lastN_lastN, List.append_assoc]
    show _ = lastN cap (historyOf c.db ++ (line :: linesOf log).reverse)
    rw [List.reverse_cons]
  | @dies log c1 i line s sd r s' sd' new db _ hs hc hd hn hdb ih =>
    obtain ⟨h1, h2, h3⟩ := ih fun l hl => hk l (List.mem_cons_of_mem _ hl)
    obtain ⟨st, hrep⟩ := h1.rep
    obtain ⟨h4, h5, h6⟩ := recorded_history hm (hk line (List.mem_cons_self ..)) h1 h2
      ((submits_ops hs h1 hrep hc hd).2 new hn db hdb)
    refine ⟨h4, h5, ?_⟩
    show historyOf db = _
    rw [h6, h3, lastN_lastN, List.append_assoc]
    show _ = lastN cap (historyOf c.db ++ (line :: linesOf log).reverse)
    rw [List.reverse_cons]

/-- Recorded, and then other variables perhaps. -/
theorem recorded_fresh {m : Machine} (hm : HashOk m) {radix : Nat} {line x : Str} {v : Rat} {cap n k : Nat}
    (hk : KeepsCapacity line) (ha : ¬ Assigns radix line x) (hp : ¬ Lists radix line "purgevar" x)
    {db db' : Db} {st : Store} (hrep : Rep st db) (hf : Fresh st x v cap n k) (hlen : k + 1 < cap)
    (h : Evolves (ThenOp m table radix line (st.recorded.length + 1)) ((DbOp.add line).apply db) db') :
    ∃ st', Rep st' db' ∧ Fresh st' x v cap n (k + 1) := by
  obtain ⟨ops, hops, rfl⟩ := h
  refine Fresh.ops (i := (st.recorded.length : Int) + 1) ops (hrep.step (.add line)) (hf.add hlen line)
    (by simp [Store.step, Store.trim]) fun op ho => ?_
  rcases thenOp_keeps (hops op ho) hk with h1 | ⟨var, h1, h2⟩ | h1
  · exact .inl h1
  · exact .inr (.inl ⟨var, h1, fun hx => ha (by rw [← hx]; exact h2)⟩)
  · obtain ⟨y, h1, h2⟩ := h1 hm
    exact .inr (.inr ⟨y, h1, fun hx => hp (by rw [← hx]; exact h2)⟩)

theorem together_fresh {m : Machine} (hm : HashOk m) {c c' : Company} {log : List Happening} (hr : Reachable c.db)
    {st : Store} (hrep : Rep st c.db) {x : Str} {v : Rat} {cap n : Nat} (hf : Fresh st x v cap n 0)
    (h : Together m table c log c') (hk : ∀ h ∈ log, Happening.LeavesAlone x h) (hlen : (linesOf log).length < cap) :
    Reachable c'.db ∧ ∃ st', Rep st' c'.db ∧ Fresh st' x v cap n (linesOf log).length := by
  have hcap : CapacityIs c.db cap := by have := hrep.capacity; rwa [hf.cap] at this
  have hkeep : ∀ {log : List Happening}, (∀ h ∈ log, Happening.LeavesAlone x h) → ∀ line ∈ linesOf log, KeepsCapacity line := by
    intro log hk line hl
    obtain ⟨h, hh, he⟩ := List.mem_filterMap.1 hl
    have := hk h hh
    cases h with
    | opened => cases he
    | left => cases he
    | entered => cases he; exact this.1
    | died => cases he; exact this.1
  induction h with
  | now => exact ⟨hr, st, hrep, hf⟩
  | opens _ _ _ ho ih =>
    obtain ⟨h1, h2⟩ := ih (fun h hh => hk h (List.mem_cons_of_mem _ hh)) hlen
    rw [Company.with, opened_same h1 ho]
    exact ⟨h1, h2⟩
  | leaves _ ih => exact ih (fun h hh => hk h (List.mem_cons_of_mem _ hh)) hlen
  | @enters log c1 i line s sd r s' sd' vars ht hs hc hp hv hd hvs ih =>
    have hl : (linesOf (.entered i s.args line r :: log)).length = (linesOf log).length + 1 := rfl
    rw [hl] at hlen
    obtain ⟨h1, st1, hrep1, hf1⟩ := ih (fun h hh => hk h (List.mem_cons_of_mem _ hh)) (by omega)
    obtain ⟨k1, k2, k3⟩ := hk _ (List.mem_cons_self ..)
    refine ⟨?_, recorded_fresh hm k1 k2 k3 hrep1 hf1 hlen (submits_ops hs h1 hrep1 hc hd).1⟩
    exact (together_history hm hr hcap (.enters ht hs hc hp hv hd hvs) (hkeep hk)).1
  | @dies log c1 i line s sd r s' sd' new db ht hs hc hd hn hdb ih =>
    have hl : (linesOf (.died i s.args line :: log)).length = (linesOf log).length + 1 := rfl
    rw [hl] at hlen
    obtain ⟨h1, st1, hrep1, hf1⟩ := ih (fun h hh => hk h (List.mem_cons_of_mem _ hh)) (by omega)
    obtain ⟨k1, k2, k3⟩ := hk _ (List.mem_cons_self ..)
    refine ⟨?_, recorded_fresh hm k1 k2 k3 hrep1 hf1 hlen ((submits_ops hs h1 hrep1 hc hd).2 new hn db hdb)⟩
    exact (together_history hm hr hcap (.dies ht hs hc hd hn hdb) (hkeep hk)).1

/-- A variable that has just been used. -/
theorem used_fresh {m : Machine} (hm : HashOk m) {c : Company} {i : Nat} {line x text : Str} {s s' : Session}
    {sd sd' : SavedData} (h : Submits c i line s sd) (hr : Reachable c.db) {cap : Nat} (hcap : CapacityIs c.db cap)
    (h1cap : 1 ≤ cap) {ts : List PTok} {p : Position} (ht : tokenize line s.args.radix = .ok (.tokens ts))
    (hx : ⟨.variable x, p⟩ ∈ ts) (hc : calculate m table line s = (.ok text, s')) (hd : s'.db = some sd') {v : Rat}
    (hv : Stored sd'.db x v) : Reachable sd'.db ∧ ∃ st n, Rep st sd'.db ∧ Fresh st x v cap n 0 := by
  obtain ⟨st, hrep⟩ := hr.rep
  obtain ⟨ops, hops, he⟩ := (submits_ops h hr hrep hc hd).1
  obtain ⟨⟨mb, _, _, hvars⟩, ⟨inp, hi, hcur⟩, hsd, hsame, hq⟩ := h
  have hk : KeepsCapacity line := by
    rintro a ha
    obtain ⟨_, _, _, hc, _⟩ := (isCommand_iff s.args.radix).1 ha
    rw [ht] at hc; cases hc
  have hr1 := (thenOps_history hm hk ops (hr.apply (.add line)) hops).1
  obtain ⟨st1, hrep1, hrec, hc1, hkept⟩ := ownOps_shape (i := (st.recorded.length : Int) + 1) ops
    (hrep.step (.add line)) fun op hop => by
      rcases thenOp_keeps (hops op hop) hk with h1 | ⟨var, h1, _⟩ | h1
      · exact .inl h1
      · exact .inr (.inl ⟨var, h1⟩)
      · obtain ⟨y, h1, _⟩ := h1 hm
        exact .inr (.inr ⟨y, h1⟩)
  rw [← he] at hr1 hrep1
  have hQ : Quiet s := fun sd' h' => by rw [hsd] at h'; cases h'; exact hq
  have hlast : LastUsedBy sd'.db x (st.recorded.length + 1) := by
    obtain ⟨i, sd2, h2, h3, h4⟩ := C49_session m hm table line s s' text ts ht hc (by rw [hvars]; rfl) hQ sd hsd inp hi x p hx
    obtain ⟨sd1, h5, _, h6⟩ := recordInput_cases hi hcur hsd
    rw [← hsame] at hrep
    obtain ⟨db2, hx2, _⟩ := hrep.add line
    unfold SavedData.addToInputHistory at h6
    rw [run_quiet hq, hx2] at h6
    have hi : i = st.recorded.length + 1 := by
      rw [h2] at h6
      simp only [Outcome.ok.injEq, Option.some.injEq] at h6
      exact h6
    subst hi
    rw [hd] at h3
    cases h3
    exact h4
  refine ⟨hr1, st1, st.recorded.length + 1, hrep1, ?_⟩
  obtain ⟨row, r1, r2, r3, r4⟩ := hv
  have r5 := hlast row r1 r2
  have hlr : st1.recorded.length = st.recorded.length + 1 := by
    rw [hrec]; simp [Store.step, Store.trim]
  refine ⟨⟨_, (hrep1.vars x v _).2 ⟨row, r1, r2, r3, r4, r5⟩, by push_cast; omega, by rw [hlr]; push_cast; omega⟩,
    by omega, ?_, ?_⟩
  · rw [hc1]
    simp only [Store.step, Store.trim]
    exact capacity_unique hrep.capacity hcap
  · have := hrep1.pos (by intro h0; rw [h0] at hlr; simp at hlr)
    omega

/-! ## C98 Sessions can run side by side -/

/-- Whatever lines are entered in whichever sessions, in whatever order, and whoever is opened, ends or crashes in
between: the saved history is what it was, followed by the lines in the order in which they were entered, the oldest
dropped as the capacity demands. -/
theorem C98_history (m : Machine) (hm : HashOk m) (ce : CommandExecutor) (hce : CommandExecutor.new = .ok ce)
    (c c' : Company) (log : List Happening) (hr : Reachable c.db) (cap : Nat) (hcap : CapacityIs c.db cap)
    (h : Together m ce c log c') (hk : ∀ line ∈ linesOf log, KeepsCapacity line) :
    historyOf c'.db = lastN cap (historyOf c.db ++ (linesOf log).reverse) := by
  rw [new_eq_table hce] at h
  exact (together_history hm hr hcap h hk).2.2

/-- A value that one session assigns is found by every other session that has no value of its own for the variable,
as long as no more lines have been entered in the meantime than the capacity allows, none of which sets or removes it
or changes the capacity. -/
theorem C98_found (m : Machine) (hm : HashOk m) (ce : CommandExecutor) (hce : CommandExecutor.new = .ok ce)
    (c c' : Company) (hr : Reachable c.db) (cap : Nat) (hcap : CapacityIs c.db cap) (i j : Nat)
    (line line' x text : Str) (s s' s2 : Session) (sd sd' sd2 : SavedData) (hs : Submits c i line s sd)
    (ha : Assigns s.args.radix line x) (hc : calculate m ce line s = (.ok text, s')) (hd : s'.db = some sd') (v : Rat)
    (hv : sessionValue s' x = some v) (vars : Option Member) (log : List Happening)
    (ht : Together m ce (c.with sd'.db i vars) log c') (hlog : ∀ h ∈ log, Happening.LeavesAlone x h)
    (hlen : (linesOf log).length + 1 < cap) (hs' : Submits c' j line' s2 sd2) (hn : sessionValue s2 x = none) :
    Sees s2 line' x v := by
  have hst := C40_assignment_stored m ce line x s s' text sd' ha hc hd v hv
  rw [new_eq_table hce] at hc ht
  obtain ⟨p, q, ts, htok⟩ := ha
  obtain ⟨hr1, st, n, hrep, hf⟩ := used_fresh hm hs hr hcap (by omega) htok (List.mem_cons_self ..) hc hd hst
  obtain ⟨hr2, st2, hrep2, hf2⟩ := together_fresh hm (c := c.with sd'.db i vars) hr1 hrep hf ht hlog (by omega)
  obtain ⟨⟨mb, _, _, hvars⟩, _, hd2, hsame, _⟩ := hs'
  refine .inr ⟨hn, by rw [hvars]; rfl, sd2, hd2, ?_⟩
  rw [hsame]
  exact (hf2.add hlen line').stored (hrep2.step (.add line'))

/-- A session that has a value of its own for the variable keeps it, whatever the others do, until it sets it itself. -/
theorem C98_own (m : Machine) (hm : HashOk m) (ce : CommandExecutor) (hce : CommandExecutor.new = .ok ce)
    (c c' : Company) (i : Nat) (a : Member) (hi : c.members i = some a) (x : Str) (v : Rat) (hv : a.vars.lookup x = some v)
    (log : List Happening) (h : Together m ce c log c') (hlog : ∀ h ∈ log, h.Spares i x) :
    ∃ b, c'.members i = some b ∧ b.vars.lookup x = some v := by
  rw [new_eq_table hce] at h
  induction h with
  | now => exact ⟨a, hi, hv⟩
  | @opens log c1 j _ _ _ _ hn _ ih =>
    obtain ⟨b, h1, h2⟩ := ih fun h hh => hlog h (List.mem_cons_of_mem _ hh)
    have hne : i ≠ j := by
      rintro rfl
      rw [h1] at hn; cases hn
    exact ⟨b, by simp [Company.with, hne, h1], h2⟩
  | @leaves log c1 j _ ih =>
    obtain ⟨b, h1, h2⟩ := ih fun h hh => hlog h (List.mem_cons_of_mem _ hh)
    have hne : i ≠ j := by
      rintro rfl
      obtain ⟨_, _, _, h3, _⟩ := hlog _ (List.mem_cons_self ..) rfl
      cases h3
    exact ⟨b, by simp [Company.with, hne, h1], h2⟩
  | @enters log c1 j line s sd r s' sd' vars _ hs hc _ _ hd hvs ih =>
    obtain ⟨b, h1, h2⟩ := ih fun h hh => hlog h (List.mem_cons_of_mem _ hh)
    by_cases hij : i = j
    · subst hij
      obtain ⟨args, l, r', h3, h4⟩ := hlog _ (List.mem_cons_self ..) rfl
      cases h3
      refine ⟨⟨s'.args, vars⟩, by simp [Company.with], ?_⟩
      obtain ⟨mb, h5, _, h6⟩ := hs.member
      rw [h1] at h5
      cases h5
      have h7 := calculate_keeps hm table_ok line x s h4 v (by unfold sessionValue; rw [h6]; exact h2)
      rw [hc] at h7
      unfold sessionValue at h7
      rw [hvs] at h7
      exact h7
    · exact ⟨b, by simp [Company.with, hij, h1], h2⟩
  | @dies log c1 j line s sd r s' sd' new db _ hs hc hd hn hdb ih =>
    obtain ⟨b, h1, h2⟩ := ih fun h hh => hlog h (List.mem_cons_of_mem _ hh)
    have hne : i ≠ j := by
      rintro rfl
      obtain ⟨_, _, _, h3, _⟩ := hlog _ (List.mem_cons_self ..) rfl
      cases h3
    exact ⟨b, by simp [Company.with, hne, h1], h2⟩

/-- Or until it reloads it: then it has the value that was assigned last, by whichever session. -/
theorem C98_reload (m : Machine) (hm : HashOk m) (ce : CommandExecutor) (hce : CommandExecutor.new = .ok ce)
    (c c' : Company) (hr : Reachable c.db) (cap : Nat) (hcap : CapacityIs c.db cap) (i j : Nat)
    (line line' x text text' : Str) (s s' s2 s3 : Session) (sd sd' sd2 : SavedData) (hs : Submits c i line s sd)
    (ha : Assigns s.args.radix line x) (hc : calculate m ce line s = (.ok text, s')) (hd : s'.db = some sd') (v : Rat)
    (hv : sessionValue s' x = some v) (vars : Option Member) (log : List Happening)
    (ht : Together m ce (c.with sd'.db i vars) log c') (hlog : ∀ h ∈ log, Happening.LeavesAlone x h)
    (hlen : (linesOf log).length + 1 < cap) (hs' : Submits c' j line' s2 sd2)
    (hl : Lists s2.args.radix line' "reloadvar" x) (hc' : calculate m ce line' s2 = (.ok text', s3)) :
    sessionValue s3 x = some v := by
  have hst := C40_assignment_stored m ce line x s s' text sd' ha hc hd v hv
  have hc2 := hc'
  rw [new_eq_table hce] at hc ht hc2
  obtain ⟨p, q, ts, htok⟩ := ha
  obtain ⟨hr1, st, n, hrep, hf⟩ := used_fresh hm hs hr hcap (by omega) htok (List.mem_cons_self ..) hc hd hst
  obtain ⟨hr2, st2, hrep2, hf2⟩ := together_fresh hm (c := c.with sd'.db i vars) hr1 hrep hf ht hlog (by omega)
  obtain ⟨p', arguments, ts', hl1, hl2, hl3⟩ := hl
  have hQ : Quiet s2 := fun sd' h' => by rw [hs'.db] at h'; cases h'; exact hs'.quiet
  have hR : ∀ sd, s2.db = some sd → Reachable sd.db := fun sd h => by
    rw [hs'.db] at h; cases h; rw [hs'.same]; exact hr2
  obtain ⟨sd3, hd3, hval, _⟩ := C42_reload m hm ce hce line' s2 s3 text' p' arguments hl1 hc' hQ hR
  refine (hval x ⟨p', arguments, ts', hl1, hl2, hl3⟩).1 v ?_
  have hkeep : KeepsCapacity line' := by
    rintro a ha
    obtain ⟨name, _, _, hc, hres⟩ := (isCommand_iff s2.args.radix).1 ha
    rw [hl1] at hc
    simp only [Outcome.ok.injEq, ParsedInput.command.injEq, Positioned.mk.injEq] at hc
    obtain ⟨⟨rfl, _⟩, _⟩ := hc
    rw [resolve_reload] at hres
    cases hres
  obtain ⟨st3, hrep3, hf3⟩ := recorded_fresh hm hkeep (by rintro ⟨_, _, _, h⟩; rw [hl1] at h; cases h)
    (by
      rintro ⟨_, _, _, h, _⟩
      rw [hl1] at h
      simp only [Outcome.ok.injEq, ParsedInput.command.injEq, Positioned.mk.injEq] at h
      exact absurd h.1.1 (by decide)) hrep2 hf2 hlen (submits_ops hs' hr2 hrep2 hc2 hd3).1
  exact hf3.stored hrep3

/-- What is answered to a line all of whose variables have a value in the session does not depend on the others. -/
theorem C98_answer (m : Machine) (ce : CommandExecutor) (c c' : Company) (hr : Reachable c.db) (hr' : Reachable c'.db)
    (i : Nat) (hi : c.members i = c'.members i) (line : Str) (s s' : Session) (sd sd' : SavedData)
    (hs : Submits c i line s sd) (hs' : Submits c' i line s' sd') (hv : ValidSettings s.args) (hc : ¬ CommandLine line)
    (hx : ∀ x, OccursIn s.args.radix line x → (sessionValue s x).isSome) :
    (calculate m ce line s).1 = (calculate m ce line s').1 := by
  have ready : ∀ {c : Company} {s : Session} {sd : SavedData}, Reachable c.db → Submits c i line s sd → Ready s line := by
    intro c s sd hr ⟨⟨mb, _, _, hvars⟩, hinp, hd, hsame, hq⟩
    refine ⟨by rw [hvars]; rfl, hinp, fun sd' h => ?_, fun sd' h => ?_⟩
    · rw [hd] at h; cases h; rw [hsame]; exact hr
    · rw [hd] at h; cases h; exact hq
  have h1 := ready hr hs
  have h2 := ready hr' hs'
  obtain ⟨ρ, hρ⟩ := C73_values s line h1
  obtain ⟨ρ', hρ'⟩ := C73_values s' line h2
  obtain ⟨mb, hm1, ha, hvs⟩ := hs.member
  obtain ⟨mb', hm2, ha', hvs'⟩ := hs'.member
  rw [← hi, hm1] at hm2
  cases hm2
  refine C90_line m m ⟨rfl, rfl⟩ ce ce line s s' ρ ρ' h1 h2 (ha.trans ha'.symm) hv hρ hρ' hc fun x hn => ?_
  obtain ⟨v, hv⟩ := Option.isSome_iff_exists.1 (hx x hn)
  have hv' : sessionValue s' x = some v := by
    unfold sessionValue at hv ⊢
    rw [hvs] at hv
    rw [hvs']
    exact hv
  rw [(hρ x v).2 (.inl hv), (hρ' x v).2 (.inl hv')]

/-! ### An example -/

/-- The session in which a member submits a line. -/
def exSubmit (a : Member) (db : Db) (line : String) : Session :=
  ⟨a.args, some ⟨db, none, [], []⟩, some { InputHistory.new true with current := [some line.toList] }, some a.vars⟩

/-- Two sessions, at a new database. -/
def exCompany : Company := ⟨newDb, fun i => if i < 2 then some ⟨.default, .new⟩ else none⟩

/-- Afterwards, in the first session. -/
def exFirst : Session := (calculate ⟨true, 20, List.dedup⟩ table "$x=2/3".toList (exSubmit ⟨.default, .new⟩ newDb "$x=2/3")).2

def exFirstDb : SavedData := exFirst.db.getD ⟨newDb, none, [], []⟩

def exCompany1 : Company := exCompany.with exFirstDb.db 0 (some ⟨exFirst.args, exFirst.vars.getD .new⟩)

/-- The first session assigns, the second one uses the variable. -/
theorem exTogether : Together ⟨true, 20, List.dedup⟩ table exCompany
    [.entered 0 .default "$x=2/3".toList (.ok "0.66667".toList)] exCompany1 := by
  refine .enters (s := exSubmit ⟨.default, .new⟩ newDb "$x=2/3") (sd := ⟨newDb, none, [], []⟩) (s' := exFirst) .now
    ⟨⟨⟨.default, .new⟩, rfl, rfl, rfl⟩, ⟨_, rfl, by decide +kernel⟩, rfl, rfl, rfl⟩ ?_ (by simp) (by simp) ?_ ?_
  · exact Prod.ext (by decide +kernel) rfl
  · decide +kernel
  · decide +kernel

example : Submits exCompany1 1 "$x+1".toList (exSubmit ⟨.default, .new⟩ exFirstDb.db "$x+1") ⟨exFirstDb.db, none, [], []⟩ ∧
    (calculate ⟨true, 20, List.dedup⟩ table "$x+1".toList (exSubmit ⟨.default, .new⟩ exFirstDb.db "$x+1")).1 =
      .ok "1.66667".toList ∧ CapacityIs exCompany.db 100 ∧ Reachable exCompany.db ∧ HashOk ⟨true, 20, List.dedup⟩ :=
  ⟨⟨⟨⟨.default, .new⟩, rfl, rfl, rfl⟩, ⟨_, rfl, by decide +kernel⟩, rfl, rfl, rfl⟩, by decide +kernel,
    (by unfold CapacityIs; decide +kernel), ⟨[], rfl⟩, exMachine_hash⟩

/-- The second session gives it another value; the first one keeps its own. -/
example : (calculate ⟨true, 20, List.dedup⟩ table "$x+1".toList (exSubmit ⟨exFirst.args, exFirst.vars.getD .new⟩
      ((calculate ⟨true, 20, List.dedup⟩ table "$x=5".toList (exSubmit ⟨.default, .new⟩ exFirstDb.db "$x=5")).2.db.getD exFirstDb).db
      "$x+1")).1 = .ok "1.66667".toList := by decide +kernel

end Bcalc
