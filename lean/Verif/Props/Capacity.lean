import Verif.Proof.CrashPoints
import Verif.Props.Database

/-! # C50, C51: the capacity of the history, and crashes -/

namespace Bcalc
open Spec

/-- Recording an input in a session alone at its database. -/
theorem recordInput_quiet {s : Session} {h : InputHistory} {text : Str} {sd : SavedData}
    (hi : s.inputs = some h) (hc : (h.currentLine : Outcome RuntimeErr Str) = .ok text)
    (hd : s.db = some sd) (hr : Reachable sd.db) (hq : Quiet s) :
    ∃ i, recordInput s = (.ok (some i), { s with
      inputs := some { h with internal := h.internal ++ [text], current := [some []], index := 0 }
      db := some { sd with
        db := (DbOp.add text).apply sd.db
        commits := sd.commits ++ [(DbOp.add text).apply sd.db] } }) := by
  obtain ⟨sd1, h1, h2, h3⟩ := recordInput_cases hi hc hd
  obtain ⟨i, hx⟩ := (C46_operations sd.db hr).1 text
  unfold SavedData.addToInputHistory at h2 h3
  rw [run_quiet (hq sd hd), hx] at h2 h3
  simp only at h2 h3
  refine ⟨i, ?_⟩
  rcases hrec : recordInput s with ⟨r, s1⟩
  rw [hrec] at h1 h3
  simp only at h1 h3
  rw [h1, h3, ← h2]

/-! ## C50 History capacity -/

/-- Setting the capacity keeps exactly the newest inputs. -/
theorem C50_set (db : Db) (hr : Reachable db) (n : Nat) (hn : 1 ≤ n) :
    CapacityIs ((DbOp.setCap n).apply db) n ∧
      historyOf ((DbOp.setCap n).apply db) = lastN n (historyOf db) := by
  obtain ⟨st, h⟩ := hr.rep
  have h' := h.step (.setCap n)
  have hl := h.le_len
  have hs : st.step (.setCap n) = { st with cap := n }.trim := by
    unfold Store.step
    simp only
    rw [if_neg (by omega)]
    rfl
  refine ⟨?_, ?_⟩
  · have := h'.capacity
    rw [hs] at this
    exact this
  · rw [h'.historyOf, h.historyOf, hs]
    unfold lastN Store.history Store.trim
    simp only [List.length_drop]
    rw [List.drop_drop]
    congr 1
    omega

/-- A capacity below 1 changes nothing. -/
theorem C50_invalid (db : Db) (n : Int) (hn : n < 1) : (DbOp.setCap n).apply db = db := by
  unfold DbOp.apply validateMaxHistorySize
  simp only
  rw [if_pos hn]

theorem resolve_histcap : table.resolve "histcap".toList = some .histcap := by decide +kernel

/-- A session with an input history, alone at a database that some sessions have used. -/
structure Alone (s : Session) (text : Str) (sd : SavedData) : Prop where
  inputs : ∃ h, s.inputs = some h ∧ (h.currentLine : Outcome RuntimeErr Str) = .ok text
  db : s.db = some sd
  reachable : Reachable sd.db
  quiet : Quiet s

/-- Commands in such a session: recording, then the command. -/
theorem Alone.command {m : Machine} {line : Str} {s : Session} {text : Str}
    {sd : SavedData} (ha : Alone s text sd) {name arguments : Positioned Str}
    (ht : tokenize line s.args.radix = .ok (.command name arguments)) {cmd : Cmd}
    (hc : table.resolve name.value = some cmd) (hcmd : cmd ≠ .reloadVar) :
    ∃ s1, s1.db = some { sd with
        db := (DbOp.add text).apply sd.db
        commits := sd.commits ++ [(DbOp.add text).apply sd.db] } ∧ s1.args = s.args ∧
      s1.vars = s.vars ∧
      calculate m table line s = match cmd.execute m table arguments s1 with
        | (.ok r, s2) => (.ok r.1, s2)
        | (.err e, s2) => (.err e, s2)
        | (.panic k, s2) => (.panic k, s2)
        | (.diverge, s2) => (.diverge, s2) := by
  obtain ⟨h, hi, hcur⟩ := ha.inputs
  obtain ⟨i, hrec⟩ := recordInput_quiet hi hcur ha.db ha.reachable ha.quiet
  set s1 : Session := { s with
      inputs := some { h with internal := h.internal ++ [text], current := [some []], index := 0 }
      db := some { sd with
        db := (DbOp.add text).apply sd.db
        commits := sd.commits ++ [(DbOp.add text).apply sd.db] } } with hs1
  refine ⟨s1, rfl, rfl, rfl, ?_⟩
  rw [calculate_eq]
  unfold St.andThen
  rw [hrec]
  simp only
  unfold afterRecording
  rw [show s1.args.radix = s.args.radix from rfl, ht]
  simp only
  unfold calculateCommand St.andThen CommandExecutor.executeCommand
  rw [hc]
  simp only
  rcases hx : cmd.execute m table arguments s1 with ⟨r, s2⟩
  rcases r with ⟨out, touched⟩ | e | k | _
  · have := msg_touched hcmd m table arguments s1 hx
    subst this
    simp only
    cases s2.vars <;> rfl
  all_goals rfl

/-- `/histcap n`: the input is recorded, then the capacity is `n` and the newest `n` inputs (this one
included) are kept. -/
theorem C50_command_set (m : Machine) (ce : CommandExecutor) (hce : CommandExecutor.new = .ok ce)
    (line : Str) (s : Session) (text : Str) (sd : SavedData) (ha : Alone s text sd)
    (p : Position) (arguments : Positioned Str)
    (ht : tokenize line s.args.radix = .ok (.command ⟨"histcap".toList, p⟩ arguments))
    (n : Nat) (pn : Position) (hargs : tokenizeIntList arguments.value 10 = .ok [⟨n, pn⟩]) (hn : 1 ≤ n) :
    (calculate m ce line s).1 = .ok "Done".toList ∧
    ∃ sd', (calculate m ce line s).2.db = some sd' ∧ sd'.db = after [.add text, .setCap n] sd.db ∧
      CapacityIs sd'.db n ∧ historyOf sd'.db = lastN n (historyOf ((DbOp.add text).apply sd.db)) := by
  obtain rfl := new_eq_table hce
  obtain ⟨s1, hd1, hargs1, _, hcalc⟩ := ha.command (m := m) ht resolve_histcap (by decide)
  have hr1 : Reachable ((DbOp.add text).apply sd.db) := ha.reachable.evolves (Evolves.one (kind := fun _ => True) trivial _)
  have hv : validateMaxHistorySize (n : Int) = .ok () := by
    unfold validateMaxHistorySize; rw [if_neg (by omega)]
  have hx := (C46_operations _ hr1).2.1 n (by omega)
  have : Cmd.execute m table .histcap arguments s1 = (.ok (msg doneMsg), { s1 with db := some { sd with
      db := (DbOp.setCap n).apply ((DbOp.add text).apply sd.db)
      commits := sd.commits ++ [(DbOp.add text).apply sd.db] ++
        [(DbOp.setCap n).apply ((DbOp.add text).apply sd.db)] } }) := by
    unfold Cmd.execute executeHistcap intListArgs
    simp only
    rw [hargs]
    simp only [Outcome.mapErr, bind, Outcome.bind, histcapArgument, hv]
    rw [hd1]
    simp only
    unfold SavedData.setMaxHistorySize
    rw [hv]
    simp only
    rw [run_quiet (by exact ha.quiet sd ha.db), hx]
  rw [this] at hcalc
  simp only at hcalc
  rw [hcalc]
  exact ⟨rfl, _, rfl, rfl, C50_set _ hr1 n hn⟩

/-- `/histcap n` with `n` below 1: an error at the argument; only the recording has happened. -/
theorem C50_command_invalid (m : Machine) (ce : CommandExecutor) (hce : CommandExecutor.new = .ok ce)
    (line : Str) (s : Session) (text : Str) (sd : SavedData) (ha : Alone s text sd)
    (p : Position) (arguments : Positioned Str)
    (ht : tokenize line s.args.radix = .ok (.command ⟨"histcap".toList, p⟩ arguments))
    (n : Int) (pn : Position) (hargs : tokenizeIntList arguments.value 10 = .ok [⟨n, pn⟩]) (hn : n < 1) :
    (calculate m ce line s).1 =
      .err (.input "Maximum history size must be at least 1".toList (some pn)) ∧
    ∃ sd', (calculate m ce line s).2.db = some sd' ∧ sd'.db = (DbOp.add text).apply sd.db := by
  obtain rfl := new_eq_table hce
  obtain ⟨s1, hd1, hargs1, _, hcalc⟩ := ha.command (m := m) ht resolve_histcap (by decide)
  have : Cmd.execute m table .histcap arguments s1 =
      (.err (.input "Maximum history size must be at least 1".toList (some pn)), s1) := by
    unfold Cmd.execute executeHistcap intListArgs
    simp only
    rw [hargs]
    simp only [Outcome.mapErr, bind, Outcome.bind, histcapArgument, validateMaxHistorySize, if_pos hn]
  rw [this] at hcalc
  simp only at hcalc
  rw [hcalc]
  exact ⟨rfl, _, hd1, rfl⟩

/-- Too many arguments, or arguments that are no integers: an error; only the recording has happened. -/
theorem C50_command_malformed (m : Machine) (ce : CommandExecutor) (hce : CommandExecutor.new = .ok ce)
    (line : Str) (s : Session) (text : Str) (sd : SavedData) (ha : Alone s text sd)
    (p : Position) (arguments : Positioned Str)
    (ht : tokenize line s.args.radix = .ok (.command ⟨"histcap".toList, p⟩ arguments))
    (hargs : (∃ e, tokenizeIntList arguments.value 10 = .err e) ∨
      ∃ l, tokenizeIntList arguments.value 10 = .ok l ∧ 2 ≤ l.length) :
    (∃ t q, (calculate m ce line s).1 = .err (.input t q)) ∧
    ∃ sd', (calculate m ce line s).2.db = some sd' ∧ sd'.db = (DbOp.add text).apply sd.db := by
  obtain rfl := new_eq_table hce
  obtain ⟨s1, hd1, hargs1, _, hcalc⟩ := ha.command (m := m) ht resolve_histcap (by decide)
  have : ∃ t q, Cmd.execute m table .histcap arguments s1 = (.err (.input t q), s1) := by
    unfold Cmd.execute executeHistcap intListArgs
    simp only
    rcases hargs with ⟨e, he⟩ | ⟨l, hl, h2⟩
    · rw [he]; exact ⟨_, _, rfl⟩
    · rw [hl]
      match l, h2 with
      | a :: b :: l, _ => exact ⟨_, _, rfl⟩
  obtain ⟨t, q, this⟩ := this
  rw [this] at hcalc
  simp only at hcalc
  rw [hcalc]
  exact ⟨⟨t, q, rfl⟩, _, hd1, rfl⟩

/-- `/histcap`: prints the capacity in force, and changes nothing. -/
theorem C50_command_show (m : Machine) (ce : CommandExecutor) (hce : CommandExecutor.new = .ok ce)
    (line : Str) (s : Session) (text : Str) (sd : SavedData) (ha : Alone s text sd)
    (p : Position) (arguments : Positioned Str)
    (ht : tokenize line s.args.radix = .ok (.command ⟨"histcap".toList, p⟩ arguments))
    (hargs : tokenizeIntList arguments.value 10 = .ok []) (n : Nat) (hn : CapacityIs sd.db n) :
    (calculate m ce line s).1 = .ok (intDisplay n) ∧
    ∃ sd', (calculate m ce line s).2.db = some sd' ∧ sd'.db = (DbOp.add text).apply sd.db ∧
      CapacityIs sd'.db n := by
  obtain rfl := new_eq_table hce
  obtain ⟨s1, hd1, hargs1, _, hcalc⟩ := ha.command (m := m) ht resolve_histcap (by decide)
  obtain ⟨cap, _, hcap, hcap', _⟩ := C45_add sd.db ha.reachable text
  have hn' : cap = n := by
    unfold CapacityIs at hcap hn
    rw [hcap] at hn
    simpa using hn
  subst hn'
  have : Cmd.execute m table .histcap arguments s1 = (.ok (msg (intDisplay cap)), { s1 with db := some { sd with
      db := (DbOp.add text).apply sd.db
      commits := sd.commits ++ [(DbOp.add text).apply sd.db] ++ [(DbOp.add text).apply sd.db] } }) := by
    unfold Cmd.execute executeHistcap intListArgs
    simp only
    rw [hargs]
    simp only [Outcome.mapErr, bind, Outcome.bind, histcapArgument]
    rw [hd1]
    simp only
    unfold SavedData.getMaxHistorySize
    rw [run_quiet (by exact ha.quiet sd ha.db)]
    unfold selectMeta
    simp only
    unfold CapacityIs at hcap'
    rw [hcap']
  rw [this] at hcalc
  simp only at hcalc
  rw [hcalc]
  exact ⟨rfl, _, rfl, rfl, hcap'⟩

/-- Without a database the command reports that. -/
theorem C50_no_database (m : Machine) (ce : CommandExecutor) (arguments : Positioned Str) (s : Session)
    (hd : s.db = none) (h : (∃ p : Positioned Int, tokenizeIntList arguments.value 10 = .ok [p] ∧ 1 ≤ p.value) ∨
      tokenizeIntList arguments.value 10 = .ok []) :
    Cmd.execute m ce .histcap arguments s = (.err (.input noDatabaseMsg none), s) := by
  unfold Cmd.execute executeHistcap intListArgs
  simp only
  rcases h with ⟨p, h, hp⟩ | h
  · rw [h]
    simp only [Outcome.mapErr, bind, Outcome.bind, histcapArgument]
    have : validateMaxHistorySize p.value = .ok () := by
      unfold validateMaxHistorySize; rw [if_neg (by omega)]
    rw [this]
    simp only
    rw [hd]
  · rw [h]
    simp only [Outcome.mapErr, bind, Outcome.bind, histcapArgument]
    rw [hd]

/-- A session in which `/histcap 1` has just been typed. -/
def exTyped (line : String) : Session := {
  args := .default
  db := some ⟨exDb3, some 3, [], [exDb3]⟩
  inputs := some { InputHistory.new true with current := [some line.toList] }
  vars := some .new }

example : Alone (exTyped "/histcap 1") "/histcap 1".toList ⟨exDb3, some 3, [], [exDb3]⟩ :=
  ⟨⟨_, rfl, by decide +kernel⟩, rfl, ⟨_, rfl⟩, fun sd h => by
    simp only [exTyped, Option.some.injEq] at h; rw [← h]⟩

example : ∃ p pn arguments, tokenize "/histcap 1".toList 10 = .ok (.command ⟨"histcap".toList, p⟩ arguments) ∧
    tokenizeIntList arguments.value 10 = .ok [⟨(1 : Nat), pn⟩] :=
  ⟨⟨0, 8⟩, ⟨0, 1⟩, ⟨"1".toList, ⟨9, 1⟩⟩, by decide +kernel, by decide +kernel⟩

/-! ## C51 Crash safety of the saved data -/

/-- Wherever a session that is alone at its database dies while it handles an input, it leaves a database
that operations can bring about: the one before the input, or one in which the input has been recorded
and of which each part is as just after recording or as after the input. -/
theorem C51_crash (m : Machine) (ce : CommandExecutor) (line : Str) (s : Session) (text : Str)
    (sd : SavedData) (ha : Alone s text sd) :
    ∃ sd', (calculate m ce line s).2.db = some sd' ∧
      ∀ db, CrashLeaves sd sd' db →
        Reachable db ∧ (db = sd.db ∨ Partway ((DbOp.add text).apply sd.db) sd'.db db) := by
  obtain ⟨h, hi, hcur⟩ := ha.inputs
  obtain ⟨i, hrec⟩ := recordInput_quiet hi hcur ha.db ha.reachable ha.quiet
  have hrel := calculate_db m ce line s
  unfold SessRel at hrel
  rw [ha.db] at hrel
  obtain ⟨sd', hd', hrel⟩ := OptRel.some_left hrel
  refine ⟨sd', hd', ?_⟩
  -- what has been committed
  have hcom : ∃ new, sd'.commits = sd.commits ++ new ∧
      ∀ c ∈ new, Partway ((DbOp.add text).apply sd.db) sd'.db c := by
    have hg : ∀ s1, s1 = (recordInput s).2 → Gradual s1 (calculate m ce line s).2 := by
      intro s1 h1
      rw [calculate_eq]
      unfold St.andThen
      rw [hrec] at h1 ⊢
      simp only at h1 ⊢
      rw [← h1]
      exact afterRecording_gradual m ce line (some i) s1
    have hg := hg _ rfl
    rw [hrec] at hg
    obtain ⟨sd2, hd2, _, new, hn, hc⟩ := hg _ rfl (ha.quiet sd ha.db)
    rw [hd'] at hd2
    cases hd2
    refine ⟨(DbOp.add text).apply sd.db :: new, by rw [hn]; simp, ?_⟩
    intro c hm
    rcases List.mem_cons.1 hm with rfl | hm
    · exact partway_left _ _
    · exact hc c hm
  obtain ⟨new, hn, hc⟩ := hcom
  rintro db (rfl | ⟨new', hn', hm⟩)
  · exact ⟨ha.reachable, .inl rfl⟩
  · rw [hn] at hn'
    have := List.append_cancel_left hn'
    subst this
    refine ⟨?_, .inr (hc db hm)⟩
    obtain ⟨new2, hn2, hc2⟩ := hrel.commits
    rw [hn] at hn2
    have := List.append_cancel_left hn2
    subst this
    exact ha.reachable.evolves (hc2 db hm).1

/-- With other sessions at work, too, all that a session commits are databases that operations can bring
about. -/
theorem C51_concurrent (m : Machine) (ce : CommandExecutor) (line : Str) (s : Session) (sd : SavedData)
    (hd : s.db = some sd) (hr : Reachable sd.db) :
    ∃ sd', (calculate m ce line s).2.db = some sd' ∧ ∀ db, CrashLeaves sd sd' db → Reachable db := by
  have hrel := calculate_db m ce line s
  unfold SessRel at hrel
  rw [hd] at hrel
  obtain ⟨sd', hd', hrel⟩ := OptRel.some_left hrel
  refine ⟨sd', hd', ?_⟩
  rintro db (rfl | ⟨new', hn', hm⟩)
  · exact hr
  · obtain ⟨new2, hn2, hc2⟩ := hrel.commits
    rw [hn'] at hn2
    have := List.append_cancel_left hn2
    subst this
    exact hr.evolves (hc2 db hm).1

/-- And what is there when the input has been handled has been committed, so that a later crash leaves it. -/
theorem C51_durable (m : Machine) (ce : CommandExecutor) (line : Str) (s : Session)
    (sd : SavedData) (hd : s.db = some sd) (hq : Quiet s) (hl : sd.commits.getLast? = some sd.db) :
    ∃ sd', (calculate m ce line s).2.db = some sd' ∧ sd'.commits.getLast? = some sd'.db := by
  have hrel := calculate_db m ce line s
  unfold SessRel at hrel
  rw [hd] at hrel
  obtain ⟨sd', hd', hrel⟩ := OptRel.some_left hrel
  exact ⟨sd', hd', hrel.last (hq sd hd) hl⟩

/-- `$x = $y + 2` with `$y` stored: the states committed on the way, without and with `$x`. -/
example : (calculate ⟨true, 20, List.dedup⟩ table "$x = $y + 2".toList (exTyped "$x = $y + 2")).1 =
      .ok "7".toList ∧
    ((calculate ⟨true, 20, List.dedup⟩ table "$x = $y + 2".toList (exTyped "$x = $y + 2")).2.db.map
      fun sd => sd.commits.map fun db => (historyOf db, db.vars.map (·.name))) =
    some [(["$x = 5".toList, "$y".toList], ["$y".toList]),
      (["$y".toList, "$x = $y + 2".toList], ["$y".toList]),
      (["$y".toList, "$x = $y + 2".toList], ["$y".toList]),
      (["$y".toList, "$x = $y + 2".toList], ["$y".toList]),
      (["$y".toList, "$x = $y + 2".toList], ["$y".toList]),
      (["$y".toList, "$x = $y + 2".toList], ["$y".toList, "$x".toList])] := by
  decide +kernel

end Bcalc
