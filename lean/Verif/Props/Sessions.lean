import Verif.Proof.Sessions
import Verif.Props.Editing
import Verif.Spec.Answer

/-! # C78: what one session leaves, the next one finds -/

namespace Bcalc
open Spec

/-- Events other than Enter, those that end the session included, leave the saved data as they are. -/
theorem C78_only_enter (m : Machine) (ce : CommandExecutor) (e e' : Editor) (h : Awaits m ce e) (db : Db)
    (hw : WorksOn e db) (ev : Event) (hne : ∀ mods, ev ≠ .key .enter mods) (t : TermInfo) (out : StepOut)
    (hs : step m ce e ev t = .ok (out, e')) : WorksOn e' db := other_worksOn h hne hs hw

/-- After the lines of a session (the newest first) the saved history is the old one followed by these lines,
the oldest dropped as the capacity demands. -/
theorem C78_history (m : Machine) (hm : HashOk m) (ce : CommandExecutor) (hce : CommandExecutor.new = .ok ce)
    (e e' : Editor) (h : Awaits m ce e) (db : Db) (hr : Reachable db) (hw : WorksOn e db) (cap : Nat)
    (hcap : CapacityIs db cap) (lines : List Str)
    (hs : Since m ce (fun _ line => KeepsCapacity line) e lines e') :
    ∃ db', WorksOn e' db' ∧ Reachable db' ∧ CapacityIs db' cap ∧
      historyOf db' = lastN cap (historyOf db ++ lines.reverse) := by
  rw [new_eq_table hce] at *
  exact (since_history hm h hr hw hcap hs).2

/-- The state at the start of a session. -/
theorem start_upped {m : Machine} {args : Args} {db : Db} (hr : Reachable db) {sd : SavedData}
    (ho : SavedData.openDb db [] = .ok sd) (hn : args.noDb = false) {t : TermInfo} {d : Drawing} {e : Editor}
    (h : Editor.start m args (some sd) t = .ok (d, e)) : ∃ st, Rep st db ∧ Upped db st 0 e ∧ WorksOn e db ∧
      e.session.vars = some VariableStore.new := by
  obtain ⟨st, hrep⟩ := hr.rep
  unfold SavedData.openDb at ho
  rw [run_quiet rfl, open_ok hrep.wf] at ho
  simp only [Outcome.ok.injEq] at ho
  have henv : sd.env = [] := by rw [← ho]
  have hdb : sd.db = db := by rw [← ho]
  have hlow : At st st 0 sd.position := by
    rw [← ho]
    simp only
    rw [hrep.front]
    have hl := hrep.le_len
    split
    · rename_i h0
      left
      rw [h0] at hl
      simp at hl
      exact hl.symm
    · rename_i h0
      have := hrep.pos h0
      exact ⟨(Int.sub_zero _).symm, by omega⟩
  unfold Editor.start at h
  have h1 := draw_ok h
  rw [hn] at h1
  simp only [Bool.false_eq_true, if_false] at h1
  refine ⟨st, hrep, ?_, ?_, ?_⟩
  · rw [h1]
    refine ⟨⟨sd, rfl, henv, hdb, hlow⟩, by simp [pastInputs, InputHistory.new], Nat.zero_le _, rfl, ?_, rfl, ?_⟩
    · intro h; simp [InputHistory.new] at h
    · intro i l hi
      simp only [InputHistory.new]
      rw [List.getElem?_eq_none (by simp; omega)]
      simp
  · rw [h1]; exact ⟨sd, rfl, henv, hdb⟩
  · rw [h1]; rfl

/-- In a new session Up, pressed `n` times, shows the `n`-th newest line of the saved history, and the oldest
one once that has been reached. -/
theorem C78_recall (m : Machine) (ce : CommandExecutor) (args : Args) (hn : args.noDb = false) (db : Db)
    (hr : Reachable db) (sd : SavedData) (ho : SavedData.openDb db [] = .ok sd) (t : TermInfo) (d : Drawing)
    (e : Editor) (h : Editor.start m args (some sd) t = .ok (d, e)) (n : Nat) (hpos : 0 < n)
    (hne : historyOf db ≠ []) (mods : Mods) (t1 : TermInfo) (outs : List StepOut) (e1 : Editor)
    (h1 : runEvents m ce e (List.replicate n (.key .up mods, t1)) = .ok (outs, e1)) :
    ∃ l, (historyOf db).reverse[min n (historyOf db).length - 1]? = some l ∧ Shows e1 l := by
  obtain ⟨st, hrep, hu, _⟩ := start_upped hr ho hn h
  obtain ⟨ha1, hu1⟩ := ups_upped hrep n (.start h : Awaits m ce e) hu h1
  have hh := hrep.historyOf
  have hlen : st.history.length = st.kept := by
    unfold Store.history; rw [List.length_drop]; have := hrep.le_len; omega
  have hk : 0 < st.kept := by
    rw [← hlen, ← hh]
    exact List.length_pos_of_ne_nil hne
  have hlt : min n st.kept - 1 < st.history.reverse.length := by rw [List.length_reverse]; omega
  refine ⟨st.history.reverse[min n st.kept - 1], ?_, ?_⟩
  · rw [hh, hlen, List.getElem?_eq_getElem hlt]
  · obtain ⟨⟨_, hok⟩, _⟩ := ha1.ok
    refine (lineAt_shown hok.hist).2 ?_
    rw [hu1.index, hu1.lineAt, if_neg (by omega), Nat.zero_add, List.getElem?_take_of_lt (by omega),
      List.getElem?_eq_getElem hlt]

/-- Both together: what Up shows in the session after the next start are the lines of this session, the newest
first, and then what was saved before it. -/
theorem C78_next_session (m : Machine) (hm : HashOk m) (ce : CommandExecutor)
    (hce : CommandExecutor.new = .ok ce) (e e' : Editor) (h : Awaits m ce e) (db : Db) (hr : Reachable db)
    (hw : WorksOn e db) (cap : Nat) (hcap : CapacityIs db cap) (lines : List Str)
    (hs : Since m ce (fun _ line => KeepsCapacity line) e lines e')
    (db' : Db) (hw' : WorksOn e' db') (sd : SavedData) (ho : SavedData.openDb db' [] = .ok sd)
    (args : Args) (hn : args.noDb = false) (t : TermInfo) (d : Drawing) (e1 : Editor)
    (h1 : Editor.start m args (some sd) t = .ok (d, e1)) (n : Nat) (line : Str)
    (hline : ((lines ++ (historyOf db).reverse).take cap)[n]? = some line)
    (mods : Mods) (t1 : TermInfo) (outs : List StepOut) (e2 : Editor)
    (h2 : runEvents m ce e1 (List.replicate (n + 1) (.key .up mods, t1)) = .ok (outs, e2)) : Shows e2 line := by
  obtain ⟨db1, hw1, hr1, _, hh⟩ := C78_history m hm ce hce e e' h db hr hw cap hcap lines hs
  obtain ⟨sd1, hd1, _, rfl⟩ := hw1
  obtain ⟨sd2, hd2, _, rfl⟩ := hw'
  rw [hd1] at hd2
  cases hd2
  have hrev : (historyOf sd1.db).reverse = (lines ++ (historyOf db).reverse).take cap := by
    rw [hh]
    unfold lastN
    rw [List.reverse_drop, List.reverse_append, List.reverse_reverse]
    have hlen : (historyOf db ++ lines.reverse).length = (lines ++ (historyOf db).reverse).length := by
      simp only [List.length_append, List.length_reverse]; omega
    rw [hlen]
    exact List.take_eq_take_iff.2 (by omega)
  rw [← hrev] at hline
  have hlt := (List.getElem?_eq_some_iff.1 hline).1
  rw [List.length_reverse] at hlt
  obtain ⟨l, h3, h4⟩ := C78_recall m ce args hn sd1.db hr1 sd ho t d e1 h1 (n + 1) (by omega)
    (fun h0 => by rw [h0] at hlt; simp at hlt) mods t1 outs e2 h2
  rw [Nat.min_eq_left (by omega), Nat.add_sub_cancel, hline] at h3
  cases h3
  exact h4

/-! ## Variables -/

theorem ownOps_shape {i : Int} : ∀ (ops : List DbOp) {st : Store} {db : Db}, Rep st db →
    (∀ op ∈ ops, (∃ y, op = .touch y i) ∨ (∃ var, op = .setVar var i) ∨ ∃ y, op = .clear y) →
    ∃ st', Rep st' (after ops db) ∧ st'.recorded = st.recorded ∧ st'.cap = st.cap ∧ st'.kept = st.kept
  | [], st, db, hr, _ => ⟨st, hr, rfl, rfl, rfl⟩
  | op :: ops, st, db, hr, h => by
    obtain ⟨st', h1, h2, h3, h4⟩ := ownOps_shape ops (hr.step op) fun o ho => h o (by simp [ho])
    have : (st.step op).recorded = st.recorded ∧ (st.step op).cap = st.cap ∧ (st.step op).kept = st.kept := by
      rcases h op (by simp) with ⟨y, rfl⟩ | ⟨var, rfl⟩ | ⟨y, rfl⟩ <;> unfold Store.step
      · simp only; split <;> exact ⟨rfl, rfl, rfl⟩
      · simp only; split <;> exact ⟨rfl, rfl, rfl⟩
      · exact ⟨rfl, rfl, rfl⟩
    exact ⟨st', h1, h2.trans this.1, h3.trans this.2.1, h4.trans this.2.2⟩

/-- Before Enter the new session still has no variable of its own. -/
theorem since_quiet {m : Machine} {ce : CommandExecutor} {P : Editor → Str → Prop} {e e' : Editor}
    (ha : Awaits m ce e) {lines : List Str} (h : Since m ce P e lines e') (hl : lines = []) {db : Db}
    (hw : WorksOn e db) : Awaits m ce e' ∧ WorksOn e' db ∧ e'.vars = e.vars := by
  induction h with
  | now => exact ⟨ha, hw, rfl⟩
  | enter => cases hl
  | other _ hne h hq ih =>
    obtain ⟨ha1, hw1, hv1⟩ := ih hl
    exact ⟨.event ha1 h hq, other_worksOn ha1 hne h hw1, by
      rw [← hv1]; exact (C61_quiet m ce _ _ ha1 _ hne _ _ h).2.2.1⟩

/-- A variable that occurs in a line, and is stored afterwards, is found with that value by the first line of
the next session, if no more lines were entered in between than the capacity allows (that first line counts as
well: it is recorded before it is evaluated), and none of them assigned to the variable, removed it or changed
the capacity. -/
theorem C78_used (m : Machine) (hm : HashOk m) (ce : CommandExecutor) (hce : CommandExecutor.new = .ok ce)
    (e e' e'' : Editor) (h : Awaits m ce e) (db : Db) (hr : Reachable db) (hw : WorksOn e db) (cap : Nat)
    (hcap : CapacityIs db cap) (line x : Str) (hline : Shows e line) (hx : Mentions x e line) (mods : Mods)
    (t : TermInfo) (out : StepOut) (text : Str) (hs : step m ce e (.key .enter mods) t = .ok (out, e'))
    (hout : out.output = some (.result text)) (db' : Db) (hw' : WorksOn e' db') (v : Rat) (hv : Stored db' x v)
    (lines : List Str) (hlen : lines.length + 1 < cap) (hs' : Since m ce (LeavesAlone x) e' lines e'')
    (db'' : Db) (hw'' : WorksOn e'' db'') (sd : SavedData) (ho : SavedData.openDb db'' [] = .ok sd)
    (args : Args) (hn : args.noDb = false) (t1 : TermInfo) (d : Drawing) (e1 : Editor)
    (h1 : Editor.start m args (some sd) t1 = .ok (d, e1)) (e2 : Editor)
    (h2 : Since m ce (fun _ _ => True) e1 [] e2) (line' : Str) : Sees e2.session line' x v := by
  rw [new_eq_table hce] at *
  obtain ⟨st, hrep⟩ := hr.rep
  obtain ⟨ops, hw1, hops⟩ := enter_worksOn h hline hs hr hw hrep
  have huniq : ∀ {e : Editor} {a b : Db}, WorksOn e a → WorksOn e b → a = b := by
    rintro e a b ⟨sa, ha, _, rfl⟩ ⟨sb, hb, _, rfl⟩
    rw [ha] at hb; cases hb; rfl
  have := huniq hw' hw1
  subst this
  obtain ⟨ts, p, ht, hx⟩ := hx
  have hk : KeepsCapacity line := by
    rintro a ha
    obtain ⟨_, _, _, hc, _⟩ := (isCommand_iff e.args.radix).1 ha
    rw [ht] at hc; cases hc
  have hr1 := (thenOps_history hm hk ops (hr.apply (.add line)) hops).1
  obtain ⟨st1, hrep1, hrec, hc1, hkept⟩ := ownOps_shape (i := (st.recorded.length : Int) + 1) ops
    (hrep.step (.add line)) fun op hop => by
      rcases thenOp_keeps (hops op hop) hk with h1 | ⟨var, h1, _⟩ | h1
      · exact .inl h1
      · exact .inr (.inl ⟨var, h1⟩)
      · obtain ⟨y, h1, _⟩ := h1 hm
        exact .inr (.inr ⟨y, h1⟩)
  have hlast : LastUsedBy (after ops ((DbOp.add line).apply db)) x (st.recorded.length + 1) := by
    obtain ⟨sd0, hd0, hq0, rfl⟩ := hw
    obtain ⟨d, d', sh, r, rfl, _, hcl, hsh⟩ := (step_enter_ok (h.line hline) hs).out
    cases hout
    have : r = .ok text := by
      rcases r with t | ⟨_ | _⟩ | _ | _ <;>
        simp only [shown, Outcome.ok.injEq, reduceCtorEq, Shown.result.injEq] at hsh
      rw [hsh]
    subst this
    have hsd : e.session.db = some sd0 := hd0
    have hQ : Quiet e.session := fun sd' h' => by rw [hsd] at h'; cases h'; exact hq0
    obtain ⟨i, sd', h2, h3, h4⟩ := C49_session m hm table line e.session e'.session text ts ht hcl rfl hQ sd0 hsd
      _ rfl x p hx
    obtain ⟨sd1, h5, _, h6⟩ := recordInput_cases (s := e.session) rfl hline hsd
    obtain ⟨db2, hx2, _⟩ := hrep.add line
    unfold SavedData.addToInputHistory at h6
    rw [run_quiet hq0, hx2] at h6
    have hi : i = st.recorded.length + 1 := by
      rw [h2] at h6
      simp only [Outcome.ok.injEq, Option.some.injEq] at h6
      exact h6
    subst hi
    obtain ⟨sd3, h7, _, h8⟩ := hw1
    have h9 : e'.db = some sd' := h3
    rw [h9] at h7
    cases h7
    rw [← h8]
    exact h4
  have hfresh : Fresh st1 x v cap (st.recorded.length + 1) 0 := by
    obtain ⟨row, r1, r2, r3, r4⟩ := hv
    have r5 := hlast row r1 r2
    have hlr : st1.recorded.length = st.recorded.length + 1 := by
      rw [hrec]; simp [Store.step, Store.trim]
    refine ⟨⟨_, (hrep1.vars x v _).2 ⟨row, r1, r2, r3, r4, r5⟩, by push_cast; omega, by rw [hlr]; push_cast; omega⟩,
      by omega, ?_, ?_⟩
    · rw [hc1]
      simp only [Store.step, Store.trim]
      exact capacity_unique hrep.capacity hcap
    · have := hrep1.pos (by intro h0; rw [h0] at hlr; simp at hlr)
      omega
  have ha' : Awaits m table e' := by
    obtain ⟨_, _, _, _, hq, _⟩ := (step_enter_ok (h.line hline) hs).out
    exact .event h hs (by rw [hq])
  obtain ⟨_, db2, st2, hw2, hr2, hrep2, hf2⟩ := since_fresh hm ha' hr1 hw1 hrep1 hfresh (by omega) hs'
  have := huniq hw'' hw2
  subst this
  obtain ⟨_, _, _, hw3, hvars⟩ := start_upped hr2 ho hn h1
  obtain ⟨_, ⟨sd4, h4, _, h5⟩, hv2⟩ := since_quiet (.start h1) h2 rfl hw3
  have hvars : e2.session.vars = some VariableStore.new := by
    rw [← hvars]; exact congrArg some hv2
  refine .inr ⟨?_, by rw [hvars]; rfl, sd4, h4, by rw [h5]; exact (hf2.add hlen line').stored (hrep2.step (.add line'))⟩
  unfold sessionValue
  rw [hvars]
  rfl

/-- In particular a variable that has been assigned to: the next session finds the value it had. -/
theorem C78_assigned (m : Machine) (hm : HashOk m) (ce : CommandExecutor) (hce : CommandExecutor.new = .ok ce)
    (e e' e'' : Editor) (h : Awaits m ce e) (db : Db) (hr : Reachable db) (hw : WorksOn e db) (cap : Nat)
    (hcap : CapacityIs db cap) (line x : Str) (hline : Shows e line) (hx : Assigns e.args.radix line x)
    (mods : Mods) (t : TermInfo) (out : StepOut) (text : Str)
    (hs : step m ce e (.key .enter mods) t = .ok (out, e')) (hout : out.output = some (.result text))
    (v : Rat) (hv : sessionValue e'.session x = some v)
    (lines : List Str) (hlen : lines.length + 1 < cap) (hs' : Since m ce (LeavesAlone x) e' lines e'')
    (db'' : Db) (hw'' : WorksOn e'' db'') (sd : SavedData) (ho : SavedData.openDb db'' [] = .ok sd)
    (args : Args) (hn : args.noDb = false) (t1 : TermInfo) (d : Drawing) (e1 : Editor)
    (h1 : Editor.start m args (some sd) t1 = .ok (d, e1)) (e2 : Editor)
    (h2 : Since m ce (fun _ _ => True) e1 [] e2) (line' : Str) : Sees e2.session line' x v := by
  obtain ⟨st, hrep⟩ := hr.rep
  obtain ⟨ops, hw1, _⟩ := enter_worksOn h hline hs hr hw hrep
  refine C78_used m hm ce hce e e' e'' h db hr hw cap hcap line x hline ?_ mods t out text hs hout _ hw1 v ?_ lines
    hlen hs' db'' hw'' sd ho args hn t1 d e1 h1 e2 h2 line'
  · obtain ⟨p, q, ts, ht⟩ := hx
    exact ⟨_, p, ht, by simp⟩
  · obtain ⟨sd1, hd1, _, hdb⟩ := hw1
    obtain ⟨_, _, sh, r, rfl, _, hcl, hsh⟩ := (step_enter_ok (h.line hline) hs).out
    cases hout
    have : r = .ok text := by
      rcases r with t | ⟨_ | _⟩ | _ | _ <;>
        simp only [shown, Outcome.ok.injEq, reduceCtorEq, Shown.result.injEq] at hsh
      rw [hsh]
    subst this
    rw [← hdb]
    exact C40_assignment_stored m ce line x e.session e'.session text sd1 hx hcl hd1 v hv

/-! ## Examples -/

/-- Every run is such a sequence: the lines are those shown when Enter was pressed. -/
theorem C78_every_run (m : Machine) (ce : CommandExecutor) (e : Editor) (h : Awaits m ce e)
    (events : List (Event × TermInfo)) (outs : List StepOut) (e' : Editor)
    (hr : runEvents m ce e events = .ok (outs, e')) (hq : ∀ out ∈ outs, out.quit = false) :
    ∃ lines, Since m ce (fun _ _ => True) e lines e' := by
  suffices H : ∀ (evs : List (Event × TermInfo)) {e1 e' : Editor} {lines : List Str} {outs : List StepOut},
      Awaits m ce e1 → Since m ce (fun _ _ => True) e lines e1 → runEvents m ce e1 evs = .ok (outs, e') →
      (∀ out ∈ outs, out.quit = false) → ∃ lines', Since m ce (fun _ _ => True) e lines' e' from
    H events h .now hr hq
  intro evs
  induction evs with
  | nil => intro e1 e' lines outs _ hs hr _; cases hr; exact ⟨_, hs⟩
  | cons et rest ih =>
    obtain ⟨ev, t1⟩ := et
    intro e1 e' lines outs ha hs hr hq
    unfold runEvents at hr
    obtain ⟨⟨out, e2⟩, h1, hr⟩ := outcome_bind_ok hr
    simp only at hr
    split at hr
    · rename_i hqt
      cases hr
      rw [hq out (by simp)] at hqt
      cases hqt
    · rename_i hqt
      obtain ⟨⟨outs', e3⟩, h2, hr⟩ := outcome_bind_ok hr
      cases hr
      have ha2 : Awaits m ce e2 := .event ha h1 (by simpa using hqt)
      by_cases hen : ∃ mods, ev = .key .enter mods
      · obtain ⟨mods, rfl⟩ := hen
        obtain ⟨⟨line, ho⟩, _⟩ := ha.ok
        exact ih ha2 (.enter hs ho.shows trivial h1) h2 fun o ho => hq o (by simp [ho])
      · exact ih ha2 (.other hs (fun mods hm => hen ⟨mods, hm⟩) h1 (by simpa using hqt)) h2
          fun o ho => hq o (by simp [ho])

/-- Typing. -/
theorem since_typed {m : Machine} {ce : CommandExecutor} {P : Editor → Str → Prop} {e : Editor} {t : TermInfo} :
    ∀ (text : Str) {lines : List Str} {e1 e2 : Editor} {outs : List StepOut}, Since m ce P e lines e1 →
    runEvents m ce e1 ((text.map fun c => Event.key (.char c) .none).map (·, t)) = .ok (outs, e2) →
    (∀ out ∈ outs, out.quit = false) → Since m ce P e lines e2
  | [], _, _, _, _, h, hr, _ => by cases hr; exact h
  | c :: text, lines, e1, e2, outs, h, hr, hq => by
    rw [List.map_cons, List.map_cons] at hr
    unfold runEvents at hr
    obtain ⟨⟨out, e3⟩, h1, hr⟩ := outcome_bind_ok hr
    simp only at hr
    split at hr
    · rename_i hqt
      cases hr
      rw [hq out (by simp)] at hqt
      cases hqt
    · rename_i hqt
      obtain ⟨⟨outs', e4⟩, h2, hr⟩ := outcome_bind_ok hr
      cases hr
      exact since_typed text (.other h (fun mods hm => by cases hm) h1 (by simpa using hqt)) h2
        fun o ho => hq o (by simp [ho])

/-- A session with the database, and what it leaves. -/
def exSession1 (events : List Event) : Editor := exAfter 80 false events (some ⟨exDb3, some 3, [], []⟩)

/-- The next session with what the first has left. -/
def exSession2 (events events' : List Event) : Option (List Shown × Outcome RuntimeErr Str) :=
  match (exSession1 events).db with
  | none => none
  | some sd =>
    match SavedData.openDb sd.db [] with
    | .ok sd =>
      match exRun 80 false events' (some sd) with
      | .ok (outs, e) => some (outs.filterMap (·.output), e.inputs.currentLine)
      | _ => none
    | _ => none

/-- The capacity is 2: the next session recalls `1+1`, then `$z=1/3`, and no more. -/
example : exSession2 (typed "$z=1/3" ++ [.key .enter .none] ++ typed "1+1" ++ [.key .enter .none])
      [.key .up .none] = some ([], .ok "1+1".toList) := by decide +kernel

example : exSession2 (typed "$z=1/3" ++ [.key .enter .none] ++ typed "1+1" ++ [.key .enter .none])
      [.key .up .none, .key .up .none, .key .up .none] = some ([], .ok "$z=1/3".toList) := by decide +kernel

/-- It finds `$z` in its first line if nothing was entered after it. -/
example : exSession2 (typed "$z=1/4" ++ [.key .enter .none]) (typed "$z" ++ [.key .enter .none]) =
    some ([.result "0.25".toList], .ok []) := by decide +kernel

/-- With one more line in between the variable is still stored, but recording the line that uses it drops it:
the bound in `C78_used` and `C78_assigned` is sharp. -/
example : exSession2 (typed "$z=1/4" ++ [.key .enter .none] ++ typed "1+1" ++ [.key .enter .none])
      (typed "$z" ++ [.key .enter .none]) =
    some ([.inputError "Unknown variable: $z".toList], .ok []) := by decide +kernel

/-- The hypotheses of `C78_assigned` and `C78_history` are met by the first session. -/
example : Awaits (exMachine true) table (exSession1 (typed "$z=1/4")) ∧
    WorksOn (exSession1 (typed "$z=1/4")) exDb3 ∧ Reachable exDb3 ∧ CapacityIs exDb3 2 ∧
    Shows (exSession1 (typed "$z=1/4")) "$z=1/4".toList ∧ Assigns 10 "$z=1/4".toList "$z".toList ∧
    KeepsCapacity "$z=1/4".toList ∧ sessionValue (exSession1 (typed "$z=1/4" ++ [.key .enter .none])).session "$z".toList
      = some (1 / 4) := by
  refine ⟨exAfter_awaits (by decide +kernel), ⟨_, rfl, by decide +kernel, by decide +kernel⟩, ⟨_, rfl⟩,
    by unfold CapacityIs; decide +kernel, by unfold Shows; decide +kernel, ⟨⟨0, 2⟩, ⟨2, 1⟩,
      [⟨.number 1, ⟨3, 1⟩⟩, ⟨.binary .divide, ⟨4, 1⟩⟩, ⟨.number 4, ⟨5, 1⟩⟩], by decide +kernel⟩, ?_, by decide +kernel⟩
  rintro a ha
  obtain ⟨_, _, _, hc, _⟩ := (isCommand_iff 10).1 ha
  have ht : tokenize "$z=1/4".toList 10 = .ok (.tokens [⟨.variable "$z".toList, ⟨0, 2⟩⟩, ⟨.assign, ⟨2, 1⟩⟩,
      ⟨.number 1, ⟨3, 1⟩⟩, ⟨.binary .divide, ⟨4, 1⟩⟩, ⟨.number 4, ⟨5, 1⟩⟩]) := by decide +kernel
  rw [hc] at ht
  cases ht

end Bcalc
