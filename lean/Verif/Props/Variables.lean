import Verif.Proof.Table
import Verif.Props.Arithmetic

/-! # C38–C44: variables -/

namespace Bcalc
open Spec

/-! ## C38 A variable keeps its last assigned value -/

/-- After a successful assignment the variable has the value of the expression, and keeps it through
all further inputs that do not set it, whatever happens to the database. -/
theorem C38_keeps_value (m : Machine) (hm : HashOk m) (ce : CommandExecutor)
    (hce : CommandExecutor.new = .ok ce) (line x : Str) (s s1 : Session) (out : Str)
    (ha : Assigns s.args.radix line x) (h : calculate m ce line s = (.ok out, s1)) :
    ∃ (p q : Position) (ts : List PTok) (n : Node) (env env' : Env) (v : Rat),
      -- the input is `x = n`
      tokenize line s.args.radix = .ok (.tokens (⟨.variable x, p⟩ :: ⟨.assign, q⟩ :: ts)) ∧
      Expr 4 ts n ∧
      -- `v` is the value of `n` in the session, and is displayed
      env.vars = s.vars ∧ n.execute m s.args env = (.ok v, env') ∧
      displayResult s.args v = .ok out ∧
      -- from then on
      ∀ s2, Later m ce x s1 s2 → sessionValue s2 x = some v ∧
        ∀ args p, (Node.variable x p).execute m args ⟨s2.vars, s2.db⟩ = (.ok v, ⟨s2.vars, s2.db⟩) := by
  rw [new_eq_table hce] at h ⊢
  obtain ⟨p, q, ts, ht⟩ := ha
  obtain ⟨id, s0, s0', tree, v, h1, h2, h3, h4, h5, h6, h7, h8⟩ := calculate_tokens_ok h ht (by simp)
  obtain ⟨hr, he⟩ := new_assign h6
  obtain ⟨env, vs, hx, hv, hu, hs⟩ := executeTree_assign h7 hr
  refine ⟨p, q, ts, tree.root, ⟨s0'.vars, s0'.db⟩, env, v, ht, he, h4, ?_, h8, ?_⟩
  · rw [← h5]; exact hx
  · intro s2 hl
    have hval : sessionValue s1 x = some v := by
      unfold sessionValue
      rw [hs]
      simp only
      rw [lookup_insert, if_pos rfl]
    have h2 := later_keeps hm table_ok hl v hval
    refine ⟨h2, fun args p => ?_⟩
    unfold Node.execute execVariable
    unfold sessionValue at h2
    cases hv2 : s2.vars with
    | none => rw [hv2] at h2; simp at h2
    | some vs2 =>
      rw [hv2] at h2
      simp only at h2 ⊢
      rcases get_cases vs2 x s2.db with ⟨w, hl, hg⟩ | ⟨hl, _⟩ | ⟨_, hl, _⟩
      · rw [h2] at hl
        cases hl
        rw [hg]
      · rw [h2] at hl; cases hl
      · rw [h2] at hl; cases hl

/-- A session with a variable store, no database and no input history. -/
def exSession (vars : List (Str × Rat)) : Session := ⟨.default, none, none, some ⟨vars⟩⟩

theorem exMachine_hash : HashOk ⟨true, 20, List.dedup⟩ := fun _ => List.Perm.refl _

example : Assigns 10 "$x = 2/3".toList "$x".toList :=
  ⟨⟨0, 2⟩, ⟨3, 1⟩, [⟨.number 2, ⟨5, 1⟩⟩, ⟨.binary .divide, ⟨6, 1⟩⟩, ⟨.number 3, ⟨7, 1⟩⟩], by decide +kernel⟩

example : calculate (exMachine true) table "$x = 2/4".toList (exSession []) =
    (.ok "0.5".toList, exSession [("$x".toList, 1 / 2)]) := by decide +kernel

example : ¬ Sets 10 "$y = $x".toList "$x".toList := by
  have ht : tokenize "$y = $x".toList 10 = .ok (.tokens [⟨.variable "$y".toList, ⟨0, 2⟩⟩,
      ⟨.assign, ⟨3, 1⟩⟩, ⟨.variable "$x".toList, ⟨5, 2⟩⟩]) := by decide +kernel
  rintro (⟨p, q, ts, h⟩ | ⟨p, a, ts, h, _⟩ | ⟨p, a, ts, h, _⟩) <;> rw [ht] at h
  · simp at h
  · simp at h
  · simp at h

/-! ## C39 Failed calculations change no variable -/

/-- The session's variables keep their values. -/
theorem C39_session (m : Machine) (ce : CommandExecutor) (line : Str) (s s' : Session) (t : Str)
    (p : Option Position) (h : calculate m ce line s = (.err (.input t p), s')) (x : Str) (v : Rat)
    (hv : sessionValue s x = some v) : sessionValue s' x = some v := by
  obtain ⟨id, s1, h1, _, h3⟩ := calculate_input_err x h
  have := (recordInput_args s).2
  rw [h1] at this
  exact h3 v (KeepsVar.of_eq this v hv)

/-- Operations that a failing input performs: recording it and touching variables. -/
def RecordsOrTouches (op : DbOp) : Prop := (∃ line, op = .add line) ∨ ∃ y i, op = .touch y i

theorem records_not_changes {x : Str} {op : DbOp} (h : RecordsOrTouches op) : ¬ Changes x op := by
  rcases h with ⟨l, rfl⟩ | ⟨y, i, rfl⟩ <;> rintro (⟨v, i, h⟩ | h) <;> cases h

theorem recordInput_rel (s : Session) : SessRel RecordsOrTouches s (recordInput s).2 :=
  (recordInput_db s).mono fun _ ⟨_, line, _, _, ho⟩ => .inl ⟨line, ho⟩

theorem input_err_loaded {m : Machine} {ce : CommandExecutor} {line : Str} {s s' : Session} {t : Str}
    {p : Option Position} (h : calculate m ce line s = (.err (.input t p), s')) (x : Str) :
    SLoaded RecordsOrTouches x s s' := by
  obtain ⟨id, s1, h1, h2, _⟩ := calculate_input_err x h
  have h0 : SLoaded RecordsOrTouches x s s1 := by
    have := SLoaded.of_vars (x := x) (recordInput_rel s) (recordInput_args s).2
    rw [h1] at this
    exact this
  exact SLoaded.trans _ _ _ h0 (Loaded.mono (fun _ h => .inr h) h2)

/-- In the database only the input is recorded and variables are touched; everything else that happens
there is done by others. -/
theorem C39_database (m : Machine) (ce : CommandExecutor) (line : Str) (s s' : Session) (t : Str)
    (p : Option Position) (h : calculate m ce line s = (.err (.input t p), s')) (sd : SavedData)
    (hd : s.db = some sd) :
    ∃ sd', s'.db = some sd' ∧
      Evolves (fun op => Scheduled sd op ∨ RecordsOrTouches op) sd.db sd'.db := by
  have h := (input_err_loaded h []).1
  simp only [Session.env] at h
  rw [hd] at h
  cases hd' : s'.db with
  | none => rw [hd'] at h; exact h.elim
  | some sd' => rw [hd'] at h; exact ⟨sd', rfl, SdRel.db h⟩

/-- So no variable is stored with another value than before, unless others store it. -/
theorem C39_stored (m : Machine) (ce : CommandExecutor) (line : Str) (s s' : Session) (t : Str)
    (p : Option Position) (h : calculate m ce line s = (.err (.input t p), s')) (sd sd' : SavedData)
    (hd : s.db = some sd) (hd' : s'.db = some sd') (x : Str)
    (ho : ∀ op, Scheduled sd op → ¬ Changes x op) (q : Rat) (hs : Stored sd'.db x q) :
    Stored sd.db x q := by
  obtain ⟨sd'', h1, h2⟩ := C39_database m ce line s s' t p h sd hd
  rw [hd'] at h1
  cases h1
  refine stored_evolves ?_ h2 hs
  rintro op (h | h)
  · exact fun hc => ho op h (.inl hc)
  · exact fun hc => records_not_changes h (.inl hc)

/-- A variable the session did not have before is one read from the database: its value was stored
there, at some point during the calculation. -/
theorem C39_loaded (m : Machine) (ce : CommandExecutor) (line : Str) (s s' : Session) (t : Str)
    (p : Option Position) (h : calculate m ce line s = (.err (.input t p), s'))
    (hr : ∀ sd, s.db = some sd → Reachable sd.db) (x : Str) (v : Rat)
    (hv : sessionValue s x = none) (hv' : sessionValue s' x = some v) :
    ∃ sd d, s.db = some sd ∧ Evolves (fun op => Scheduled sd op ∨ RecordsOrTouches op) sd.db d ∧
      Stored d x v := by
  have hl := input_err_loaded h x
  rcases hl.2.1 (fun sd hd => (hr sd hd).varsOk) v hv' with h1 | h1
  · rw [← sessionValue_eq, hv] at h1; cases h1
  · exact h1

/-- Without interference from outside, later inputs find exactly the values they would have found had
the input only been recorded (recording may drop old entries, see C45 and C49). -/
theorem C39_visible (m : Machine) (ce : CommandExecutor) (line : Str) (s s' : Session) (t : Str)
    (p : Option Position) (h : calculate m ce line s = (.err (.input t p), s')) (hq : Quiet s)
    (hr : ∀ sd, s.db = some sd → Reachable sd.db) (x : Str) (q : Rat) :
    Visible s' x q ↔ Visible (recordInput s).2 x q := by
  obtain ⟨id, s1, h1, h2, h3⟩ := calculate_input_err x h
  have hrec := recordInput_rel s
  rw [h1] at hrec ⊢
  simp only at hrec ⊢
  have hsome : s'.vars.isSome = s1.vars.isSome := h2.2.2
  unfold SessRel at hrec
  have hok : EnvOk s1.env := by
    intro sd1 hd1
    simp only [Session.env] at hd1
    cases hd : s.db with
    | none => rw [hd, hd1] at hrec; exact hrec.elim
    | some sd =>
      rw [hd, hd1] at hrec
      exact ((hr sd hd).evolves (SdRel.db hrec)).varsOk
  have hdb : ∀ sd1, s1.db = some sd1 → sd1.env = [] ∧ Reachable sd1.db := by
    intro sd1 hd1
    cases hd : s.db with
    | none => rw [hd, hd1] at hrec; exact hrec.elim
    | some sd =>
      rw [hd, hd1] at hrec
      exact ⟨(SdRel.quiet hrec (hq sd hd)).1, (hr sd hd).evolves (SdRel.db hrec)⟩
  have htouch : ∀ op, IsTouch op → ¬ Stores x op := by
    rintro op ⟨y, i, rfl⟩ ⟨v, i', h⟩; cases h
  have hst : ∀ sd1 sd', s1.db = some sd1 → s'.db = some sd' → ∀ w, Stored sd'.db x w ↔ Stored sd1.db x w := by
    intro sd1 sd' hd1 hd' w
    have hrel := h2.1
    simp only [Session.env] at hrel
    rw [hd1, hd'] at hrel
    refine (SdRel.quiet hrel (hdb sd1 hd1).1).2.keeps
      (P := fun d => Stored d x w ↔ Stored sd1.db x w) ?_ Iff.rfl
    rintro op db ⟨y, i, rfl⟩ ih
    rw [stored_touch, ih]
  have hload : ∀ w, sessionValue s' x = some w → sessionValue s1 x = some w ∨
      (∃ sd1, s1.db = some sd1 ∧ Stored sd1.db x w) := by
    intro w hw
    rcases h2.2.1 hok w hw with h | ⟨sd1, d, hd1, he, hs⟩
    · exact .inl h
    · refine .inr ⟨sd1, hd1, stored_evolves ?_ he hs⟩
      rintro op (ho | ho)
      · exact absurd ho (not_scheduled (hdb sd1 hd1).1 op)
      · exact htouch op ho
  constructor
  · rintro (hs | ⟨hn, hv, sd', hd', hs⟩)
    · cases hv1 : sessionValue s1 x with
      | some w => rw [h3 w hv1] at hs; exact .inl (hv1.trans hs)
      | none =>
        rcases hload q hs with h | ⟨sd1, hd1, hs1⟩
        · rw [hv1] at h; cases h
        · refine .inr ⟨hv1, ?_, sd1, hd1, hs1⟩
          rw [← hsome]
          cases hv : s'.vars with
          | none => unfold sessionValue at hs; rw [hv] at hs; cases hs
          | some _ => rfl
    · have hv1 : sessionValue s1 x = none := by
        cases hv1 : sessionValue s1 x with
        | none => rfl
        | some w => rw [h3 w hv1] at hn; cases hn
      cases hd1 : s1.db with
      | none =>
        have hrel := h2.1
        simp only [Session.env] at hrel
        rw [hd1, hd'] at hrel
        exact hrel.elim
      | some sd1 =>
        exact .inr ⟨hv1, by rw [← hsome]; exact hv, sd1, hd1, (hst sd1 sd' hd1 hd' q).1 hs⟩
  · rintro (hs | ⟨hn, hv, sd1, hd1, hs⟩)
    · exact .inl (h3 q hs)
    · cases hd' : s'.db with
      | none =>
        have hrel := h2.1
        simp only [Session.env] at hrel
        rw [hd1, hd'] at hrel
        exact hrel.elim
      | some sd' =>
        cases hv' : sessionValue s' x with
        | none => exact .inr ⟨hv', by rw [hsome]; exact hv, sd', hd', (hst sd1 sd' hd1 hd' q).2 hs⟩
        | some w =>
          rcases hload w hv' with h | ⟨sd1', hd1', hs1⟩
          · rw [hn] at h; cases h
          · rw [hd1] at hd1'
            cases hd1'
            rw [stored_unique (hdb sd1 hd1).2.unique hs hs1]
            exact .inl hv'

/-- A session alone with a fresh database. -/
def exDbSession (vars : List (Str × Rat)) (db : Db) : Session :=
  ⟨.default, some ⟨db, none, [], []⟩, some (.new true), some ⟨vars⟩⟩

/-- The database after opening, recording an input and storing a variable. -/
def exDb : Db := after [.add "$x = 2/3".toList, .setVar ⟨"$x".toList, 2 / 3⟩ 1] newDb

example : Reachable exDb := ⟨_, rfl⟩

example : (calculate (exMachine true) table "$y = $x / 0".toList (exDbSession [] exDb)).1 =
      .err (.input "Cannot divide by 0".toList (some ⟨8, 1⟩)) ∧
    (calculate (exMachine true) table "$y = $x / 0".toList (exDbSession [] exDb)).2.vars =
      some ⟨[("$x".toList, 2 / 3)]⟩ := by decide +kernel

/-! ## C40 Saved variables come back exactly -/

/-- Whatever happens to the database afterwards, except that the variable is stored anew or removed:
reading the variable gives exactly the stored number or (when its last use has been dropped from the
history) that there is none; it may fail for outside reasons. -/
theorem C40_exact (sd sd1 sd2 : SavedData) (hr : Reachable sd.db) (x : Str) (q : Rat) (id : Int)
    (h : sd.setVariable ⟨x, q⟩ id = (.ok (), sd1))
    (he : Evolves (fun op => ¬ Changes x op) sd1.db sd2.db)
    (ho : ∀ op, Scheduled sd2 op → ¬ Changes x op) :
    (sd2.getVariable x).1 = .ok (some ⟨x, q⟩) ∨ (sd2.getVariable x).1 = .ok none ∨
      (sd2.getVariable x).1 = .err .environment := by
  obtain ⟨h1, _⟩ := run_ok h
  have hs1 := stored_of_set h1
  have hr0 : Reachable sd.seen := hr.evolves (seen_evolves (fun _ => False) sd)
  have hr1 : Reachable sd1.db := by
    have := hr0.apply (.setVar ⟨x, q⟩ id)
    unfold DbOp.apply at this
    simp only [Tx.commit, h1] at this
    exact this
  have he2 : Evolves (fun op => ¬ Changes x op) sd1.db sd2.seen := by
    refine he.trans ((seen_evolves (fun _ => False) sd2).mono ?_)
    rintro op (h | h)
    · exact ho op h
    · exact h.elim
  have hr2 : Reachable sd2.seen := hr1.evolves he2
  unfold SavedData.getVariable
  rcases run_cases sd2 (getVariableTx x) with ⟨_, hrun⟩ | ⟨_, hrun⟩
  · rw [hrun]; exact .inr (.inr rfl)
  · rw [hrun]
    rcases getVariableTx_total hr2.varsOk x with ⟨q', hg⟩ | hg
    · have hs2 := stored_of_getVariable hr2.varsOk hg
      have hs1' := stored_evolves (fun op h h' => h (.inl h')) he2 hs2
      have : q = q' := stored_unique hr1.unique hs1 hs1'
      rw [hg, this]
      exact .inl rfl
    · rw [hg]; exact .inr (.inl rfl)

/-- A stored variable is read back. -/
theorem C40_read (sd : SavedData) (hr : Reachable sd.db) (hq : sd.env = []) (x : Str) (q : Rat) :
    Stored sd.db x q ↔ (sd.getVariable x).1 = .ok (some ⟨x, q⟩) := by
  unfold SavedData.getVariable
  rw [run_quiet hq]
  constructor
  · intro h
    rw [getVariable_of_stored hr.unique h]
  · intro h
    rcases getVariableTx_total hr.varsOk x with ⟨q', hg⟩ | hg
    · have hs := stored_of_getVariable hr.varsOk hg
      rw [hg] at h
      simp at h
      rw [← h]
      exact hs
    · rw [hg] at h; simp at h

/-- A successful assignment in a session with a database stores the value of the expression. -/
theorem C40_assignment_stored (m : Machine) (ce : CommandExecutor) (line x : Str) (s s1 : Session)
    (out : Str) (sd1 : SavedData) (ha : Assigns s.args.radix line x)
    (h : calculate m ce line s = (.ok out, s1)) (hd : s1.db = some sd1) (v : Rat)
    (hv : sessionValue s1 x = some v) : Stored sd1.db x v := by
  obtain ⟨p, q, ts, ht⟩ := ha
  obtain ⟨id, s0, s0', tree, w, h1, h2, h3, h4, h5, h6, h7, h8⟩ := calculate_tokens_ok h ht (by simp)
  obtain ⟨hr, he⟩ := new_assign h6
  obtain ⟨env, vs, hx, hvs, hu, hs⟩ := executeTree_assign h7 hr
  rw [hs] at hd hv
  simp only [sessionValue] at hd hv
  rw [lookup_insert, if_pos rfl] at hv
  cases hv
  unfold VariableStore.update at hu hd
  cases hdb : env.db with
  | none => rw [hdb] at hd; cases id <;> simp at hd
  | some sd =>
    rw [hdb] at hu hd
    cases id with
    | none => simp at hu
    | some i =>
      simp only [Option.some.injEq] at hd
      simp only at hu
      rcases hq : sd.setVariable ⟨x, v⟩ i with ⟨r, sd'⟩
      rw [hq] at hd hu
      simp only at hd hu
      subst hd
      cases r with
      | ok u => exact stored_of_set (run_ok hq).1
      | err e => simp [liftDb, Outcome.mapErr] at hu
      | panic k => simp [liftDb, Outcome.mapErr] at hu
      | diverge => simp [liftDb, Outcome.mapErr] at hu

/-- Numbers of any size and sign. -/
example : (SavedData.getVariable (SavedData.setVariable ⟨exDb, none, [], []⟩
    ⟨"$big".toList, -(10 ^ 30 + 1) / 7⟩ 1).2 "$big".toList).1 =
      .ok (some ⟨"$big".toList, -(10 ^ 30 + 1) / 7⟩) := by decide +kernel

/-! ## C41 Purged variables are gone -/

theorem purgeLoop_gone (x : Str) : ∀ (l : List Str) (vs : VariableStore) (db : Option SavedData)
    (r : CmdResult) (vs' : VariableStore) (db' : Option SavedData),
    purgeLoop l vs db = (.ok r, vs', db') → x ∈ l → vs'.lookup x = none ∧
      ∀ sd, db = some sd → (∀ op, Scheduled sd op → ¬ Stores x op) →
        ∃ sd', db' = some sd' ∧ ∀ q, ¬ Stored sd'.db x q
  | [], _, _, _, _, _, _, hx => by simp at hx
  | y :: l, vs, db, r, vs', db', h, hx => by
    have hbig : ∀ (vs1 : VariableStore) (db1 : Option SavedData),
        purgeLoop l vs1 db1 = (.ok r, vs', db') → vs1.lookup x = none → vs'.lookup x = none := by
      intro vs1 db1 h1 hn
      cases hv : vs'.lookup x with
      | none => rfl
      | some v =>
        have := purgeLoop_shrinks x l vs1 db1 v (by rw [h1]; exact hv)
        rw [hn] at this; cases this
    have hstay : ∀ (vs1 : VariableStore) (sd1 : SavedData),
        purgeLoop l vs1 (some sd1) = (.ok r, vs', db') → (∀ q, ¬ Stored sd1.db x q) →
        (∀ op, Scheduled sd1 op → ¬ Stores x op) → ∃ sd', db' = some sd' ∧ ∀ q, ¬ Stored sd'.db x q := by
      intro vs1 sd1 h1 hn ho
      have hrel := purgeLoop_db (own := fun op => ∃ z, op = .clear z) l vs1 (some sd1)
        fun z _ => ⟨z, rfl⟩
      rw [h1] at hrel
      cases hd' : db' with
      | none => rw [hd'] at hrel; exact hrel.elim
      | some sd' =>
        rw [hd'] at hrel
        refine ⟨sd', rfl, fun q hs => hn q (stored_evolves ?_ (SdRel.db hrel) hs)⟩
        rintro op (h | ⟨z, rfl⟩)
        · exact ho op h
        · rintro ⟨v, i, h⟩; cases h
    unfold purgeLoop at h
    have hpv := purge_vars vs y x db
    rcases hp : vs.purge y db with ⟨r1, vs1, db1⟩
    rw [hp] at h hpv
    simp only at hpv
    cases r1 with
    | err e => simp at h
    | panic k => simp at h
    | diverge => simp at h
    | ok u =>
      simp only at h
      by_cases hxy : x = y
      · subst hxy
        rw [if_pos rfl] at hpv
        refine ⟨hbig vs1 db1 h hpv, fun sd hd ho => ?_⟩
        subst hd
        unfold VariableStore.purge at hp
        simp only at hp
        rcases hc : sd.clearVariable x with ⟨r2, sd2⟩
        rw [hc] at hp
        simp only [Prod.mk.injEq] at hp
        obtain ⟨hp1, hp2, rfl⟩ := hp
        cases r2 with
        | ok u2 =>
          obtain ⟨hok, hev⟩ := run_ok hc
          exact hstay vs1 sd2 h (not_stored_clear hok) fun op ho' => ho op (scheduled_tail hev ho')
        | err e => simp [liftDb, Outcome.mapErr] at hp1
        | panic k => simp [liftDb, Outcome.mapErr] at hp1
        | diverge => simp [liftDb, Outcome.mapErr] at hp1
      · have hxl : x ∈ l := by
          rcases List.mem_cons.1 hx with h | h
          · exact absurd h hxy
          · exact h
        obtain ⟨h1, h2⟩ := purgeLoop_gone x l vs1 db1 r vs' db' h hxl
        refine ⟨h1, fun sd hd ho => ?_⟩
        subst hd
        unfold VariableStore.purge at hp
        simp only at hp
        rcases hc : sd.clearVariable y with ⟨r2, sd2⟩
        rw [hc] at hp
        simp only [Prod.mk.injEq] at hp
        obtain ⟨hp1, hp2, rfl⟩ := hp
        cases r2 with
        | ok u2 =>
          obtain ⟨hok, hev⟩ := run_ok hc
          exact h2 sd2 rfl fun op ho' => ho op (scheduled_tail hev ho')
        | err e => simp [liftDb, Outcome.mapErr] at hp1
        | panic k => simp [liftDb, Outcome.mapErr] at hp1
        | diverge => simp [liftDb, Outcome.mapErr] at hp1

theorem recordInput_sched {s s1 : Session} {r : Outcome Failure (Option Int)}
    (h : recordInput s = (r, s1)) {sd1 : SavedData} (hd : s1.db = some sd1) :
    ∃ sd, s.db = some sd ∧ SdRel RecordsOrTouches sd sd1 := by
  have hrel := recordInput_rel s
  rw [h] at hrel
  unfold SessRel at hrel
  simp only at hrel
  rw [hd] at hrel
  cases hs : s.db with
  | none => rw [hs] at hrel; exact hrel.elim
  | some sd => rw [hs] at hrel; exact ⟨sd, rfl, hrel⟩

/-- The parts of a successful command line. -/
theorem calculate_command_ok {m : Machine} {ce : CommandExecutor} {line : Str} {s s' : Session}
    {out : Str} (h : calculate m ce line s = (.ok out, s')) {name arguments : Positioned Str}
    (ht : tokenize line s.args.radix = .ok (.command name arguments)) {cmd : Cmd}
    (hc : ce.resolve name.value = some cmd) :
    ∃ id s1 s2 touched, recordInput s = (.ok id, s1) ∧ s1.vars = s.vars ∧ s1.args = s.args ∧
      cmd.execute m ce arguments s1 = (.ok (out, touched), s2) ∧
      SessRel IsTouch s2 s' ∧ OnlyDb s2 s' ∧ (touched = [] → s' = s2) := by
  obtain ⟨ha, hv⟩ := recordInput_args s
  rw [calculate_eq] at h
  obtain ⟨id, s1, h1, h⟩ := andThen_ok h
  rw [h1] at ha hv
  simp only at ha hv
  unfold afterRecording at h
  rw [ha, ht] at h
  simp only at h
  unfold calculateCommand at h
  obtain ⟨⟨out', touched⟩, s2, h2, h⟩ := andThen_ok h
  unfold CommandExecutor.executeCommand at h2
  rw [hc] at h2
  simp only at h2 h
  obtain ⟨_, s3, h3, h⟩ := andThen_ok h
  simp only [Prod.mk.injEq, Outcome.ok.injEq] at h
  obtain ⟨rfl, rfl⟩ := h
  have h3' := congrArg Prod.snd h3
  simp only at h3'
  refine ⟨id, s1, s2, touched, h1, hv, ha, h2, ?_, ?_, ?_⟩
  · rw [← h3']; exact touchVars_db _ _ _ s2
  · rw [← h3']; exact touchVars_only _ _ _ s2
  · rintro rfl
    rw [← h3']
    cases s2.vars <;> rfl

theorem resolve_purge : table.resolve "purgevar".toList = some .purgeVar := by decide +kernel
theorem resolve_reload : table.resolve "reloadvar".toList = some .reloadVar := by decide +kernel

/-- After /purgevar the variable is unknown. -/
theorem C41_gone (m : Machine) (hm : HashOk m) (ce : CommandExecutor)
    (hce : CommandExecutor.new = .ok ce) (line x : Str) (s s' : Session) (out : Str)
    (hl : Lists s.args.radix line "purgevar" x) (h : calculate m ce line s = (.ok out, s'))
    (ho : ∀ sd, s.db = some sd → ∀ op, Scheduled sd op → ¬ Stores x op) : Unknown s' x := by
  rw [new_eq_table hce] at h
  obtain ⟨p, arguments, ts, ht, hts, hx⟩ := hl
  obtain ⟨id, s1, s2, touched, h1, h2, h3, h4, h5, h6, h7⟩ := calculate_command_ok h ht resolve_purge
  have := h7 (msg_touched (by decide) m table arguments s1 h4)
  subst this
  unfold Cmd.execute executePurgeVar at h4
  rw [hts] at h4
  simp only at h4
  rw [← hash_mem hm] at hx
  cases hv : s1.vars with
  | none => rw [hv] at h4; simp at h4
  | some vs =>
    rw [hv] at h4
    simp only at h4
    rcases hp : purgeLoop (m.hashOrder (ts.map (·.value))) vs s1.db with ⟨r, vs', db'⟩
    rw [hp] at h4
    simp only [Prod.mk.injEq] at h4
    obtain ⟨rfl, rfl⟩ := h4
    obtain ⟨hg, hdb⟩ := purgeLoop_gone x _ _ _ _ _ _ hp hx
    refine ⟨hg, fun sd' hd' => ?_⟩
    simp only at hd'
    cases hd1 : s1.db with
    | none =>
      have hrel := purgeLoop_db (own := fun _ => True) (m.hashOrder (ts.map (·.value))) vs s1.db
        fun _ _ => trivial
      rw [hp, hd1, hd'] at hrel
      exact hrel.elim
    | some sd1 =>
      obtain ⟨sd, hd, hrel⟩ := recordInput_sched h1 hd1
      have ho1 : ∀ op, Scheduled sd1 op → ¬ Stores x op := fun op h =>
        ho sd hd op (hrel.scheduled h)
      obtain ⟨sd'', h8, h9⟩ := hdb sd1 hd1 ho1
      rw [h8] at hd'
      cases hd'
      refine ⟨h9, fun op hop => ho1 op ?_⟩
      have hrel := purgeLoop_db (own := fun _ => True) (m.hashOrder (ts.map (·.value))) vs s1.db
        fun _ _ => trivial
      rw [hp, hd1, h8] at hrel
      exact SdRel.scheduled hrel hop

/-- The variable may be stored only by an assignment. -/
theorem calculate_loaded {m : Machine} {ce : CommandExecutor} {line x : Str} {s : Session}
    (h : ¬ Assigns s.args.radix line x) :
    SLoaded (fun op => ¬ Stores x op) x s (calculate m ce line s).2 := by
  obtain ⟨ha, hv⟩ := recordInput_args s
  have hno : ∀ {op : DbOp}, RecordsOrTouches op → ¬ Stores x op := fun h h' =>
    records_not_changes h (.inl h')
  have h1 : SLoaded (fun op => ¬ Stores x op) x s (recordInput s).2 :=
    SLoaded.of_vars ((recordInput_rel s).mono fun _ h => hno h) hv
  rw [calculate_eq]
  rcases hr : recordInput s with ⟨r, s1⟩
  rw [hr] at ha hv h1
  unfold St.andThen
  rw [hr]
  simp only at ha
  cases r with
  | ok id =>
    refine SLoaded.trans _ _ _ h1 ?_
    simp only
    unfold afterRecording
    rw [ha]
    cases ht : tokenize line s.args.radix with
    | ok t =>
      cases t with
      | tokens ts =>
        refine Loaded.mono ?_ (calculateTokens_loaded x m id ts (fun p q rest he => ?_) s1)
        · rintro op (⟨y, i, rfl⟩ | ⟨tree, hn, y, v, i, hy, _, rfl⟩)
          · exact hno (.inr ⟨y, i, rfl⟩)
          · rintro ⟨v', i', he⟩
            cases he
            obtain ⟨q, rest, hts⟩ := new_resultVar hn hy
            exact h ⟨_, _, _, hts ▸ ht⟩
        · exact h ⟨p, q, rest, he ▸ ht⟩
      | command name arguments =>
        refine Loaded.mono ?_ (calculateCommand_loaded x m ce id name arguments s1)
        rintro op (⟨y, i, rfl⟩ | ⟨cmd, _, h⟩ | ⟨y, i, _, _, rfl⟩)
        · exact hno (.inr ⟨y, i, rfl⟩)
        · rcases h with ⟨_, _, _, y, _, rfl⟩ | ⟨_, n, rfl⟩ <;> rintro ⟨v, i, h⟩ <;> cases h
        · exact hno (.inr ⟨y, i, rfl⟩)
    | err e => exact SLoaded.refl _ _ _
    | panic k => exact SLoaded.refl _ _ _
    | diverge => exact SLoaded.refl _ _ _
  | err e => exact h1
  | panic k => exact h1
  | diverge => exact h1

/-- It stays unknown until it is assigned again, by this session or by others. -/
theorem C41_until_assigned (m : Machine) (ce : CommandExecutor) (x : Str) (s s' : Session)
    (hr : ∀ sd, s.db = some sd → Reachable sd.db)
    (h : Unassigned m ce x s s') (hu : Unknown s x) : Unknown s' x := by
  suffices Unknown s' x ∧ ∀ sd, s'.db = some sd → Reachable sd.db from this.1
  induction h with
  | now => exact ⟨hu, hr⟩
  | @input s' line _ ha ih =>
    obtain ⟨⟨h1, h2⟩, h3⟩ := ih
    have hl := calculate_loaded (m := m) (ce := ce) ha
    have hno : ∀ sd, s'.db = some sd → ∀ op, Scheduled sd op ∨ ¬ Stores x op → ¬ Stores x op := by
      rintro sd hd op (ho | ho)
      · exact (h2 sd hd).2 op ho
      · exact ho
    have hdb : ∀ sd', (calculate m ce line s').2.db = some sd' → ∃ sd, s'.db = some sd ∧
        SdRel (fun op => ¬ Stores x op) sd sd' := by
      intro sd' hd'
      have hrel := hl.1
      simp only [Session.env] at hrel
      rw [hd'] at hrel
      cases hd : s'.db with
      | none => rw [hd] at hrel; exact hrel.elim
      | some sd => rw [hd] at hrel; exact ⟨sd, rfl, hrel⟩
    refine ⟨⟨?_, fun sd' hd' => ?_⟩, fun sd' hd' => ?_⟩
    · cases hv : sessionValue (calculate m ce line s').2 x with
      | none => rfl
      | some v =>
        rcases hl.2.1 (fun sd hd => (h3 sd hd).varsOk) v hv with h | ⟨sd, d, hd, he, hs⟩
        · rw [← sessionValue_eq, h1] at h; cases h
        · exact absurd (stored_evolves (hno sd hd) he hs) ((h2 sd hd).1 v)
    · obtain ⟨sd, hd, hrel⟩ := hdb sd' hd'
      exact ⟨fun q hs => (h2 sd hd).1 q (stored_evolves (hno sd hd) hrel.db hs),
        fun op ho => (h2 sd hd).2 op (hrel.scheduled ho)⟩
    · obtain ⟨sd, hd, hrel⟩ := hdb sd' hd'
      exact (h3 sd hd).evolves hrel.db
  | @meanwhile s' s'' _ hv hd ih =>
    obtain ⟨⟨h1, h2⟩, h3⟩ := ih
    refine ⟨⟨?_, fun sd'' hd'' => ?_⟩, fun sd'' hd'' => ?_⟩
    · unfold sessionValue at h1 ⊢; rw [hv]; exact h1
    · obtain ⟨sd', hd', he, ho⟩ := hd sd'' hd''
      exact ⟨fun q hs => (h2 sd' hd').1 q (stored_evolves (fun _ h => h) he hs), ho⟩
    · obtain ⟨sd', hd', he, ho⟩ := hd sd'' hd''
      exact (h3 sd' hd').evolves he

theorem command_line_value {m : Machine} (hm : HashOk m) {line y : Str} {s : Session}
    {command : String} {p : Position} {arguments : Positioned Str} {cmd : Cmd}
    (hc : table.resolve command.toList = some cmd)
    (ht : tokenize line s.args.radix = .ok (.command ⟨command.toList, p⟩ arguments))
    (hy : ¬ Lists s.args.radix line command y) :
    sessionValue (calculate m table line s).2 y = sessionValue s y := by
  obtain ⟨ha, hv⟩ := recordInput_args s
  rw [calculate_eq]
  rcases hr : recordInput s with ⟨r, s1⟩
  rw [hr] at ha hv
  have h1 : sessionValue s1 y = sessionValue s y := by unfold sessionValue; rw [hv]
  unfold St.andThen
  rw [hr]
  simp only at ha
  cases r with
  | ok id =>
    refine Eq.trans ?_ h1
    simp only
    unfold afterRecording
    rw [ha, ht]
    simp only
    apply calculateCommand_value
    intro _ ts hts hx
    rw [hash_mem hm] at hx
    exact hy ⟨p, arguments, ts, ht, hts, hx⟩
  | err e => exact h1
  | panic k => exact h1
  | diverge => exact h1

/-- /purgevar leaves the other variables of the session alone, whether it succeeds or not. -/
theorem C41_others_session (m : Machine) (hm : HashOk m) (ce : CommandExecutor)
    (hce : CommandExecutor.new = .ok ce) (line y : Str) (s : Session) (p : Position)
    (arguments : Positioned Str)
    (ht : tokenize line s.args.radix = .ok (.command ⟨"purgevar".toList, p⟩ arguments))
    (hy : ¬ Lists s.args.radix line "purgevar" y) :
    sessionValue (calculate m ce line s).2 y = sessionValue s y := by
  rw [new_eq_table hce]
  exact command_line_value hm resolve_purge ht hy

/-- In the database it removes nothing but the listed variables: of the operations on the database
only the recording of the input and the removals of listed variables are its own. -/
theorem C41_others_database (m : Machine) (hm : HashOk m) (ce : CommandExecutor)
    (hce : CommandExecutor.new = .ok ce) (line : Str) (s : Session) (p : Position)
    (arguments : Positioned Str)
    (ht : tokenize line s.args.radix = .ok (.command ⟨"purgevar".toList, p⟩ arguments))
    (sd : SavedData) (hd : s.db = some sd) :
    ∃ sd', (calculate m ce line s).2.db = some sd' ∧
      Evolves (fun op => Scheduled sd op ∨ (∃ l, op = .add l) ∨
        ∃ x, Lists s.args.radix line "purgevar" x ∧ op = .clear x) sd.db sd'.db := by
  rw [new_eq_table hce]
  have hrel := calculate_db m table line s
  unfold SessRel at hrel
  rw [hd] at hrel
  cases hd' : (calculate m table line s).2.db with
  | none => rw [hd'] at hrel; exact hrel.elim
  | some sd' =>
    rw [hd'] at hrel
    refine ⟨sd', rfl, (SdRel.db hrel).mono ?_⟩
    rintro op (ho | ⟨_, l, _, _, rfl⟩ | ⟨id, ⟨ts, ht', _⟩ | ⟨name, args, ht', ho⟩⟩)
    · exact .inl ho
    · exact .inr (.inl ⟨l, rfl⟩)
    · rw [ht] at ht'; simp at ht'
    · rw [ht] at ht'
      simp only [Outcome.ok.injEq, ParsedInput.command.injEq] at ht'
      obtain ⟨rfl, rfl⟩ := ht'
      refine .inr (.inr ?_)
      rcases ho with ⟨cmd, hcmd, ho⟩ | ⟨x, i, _, ⟨hcmd, _⟩, _⟩
      · rw [resolve_purge] at hcmd
        cases hcmd
        rcases ho with ⟨_, ts, hts, x, hx, rfl⟩ | ⟨h, _⟩
        · rw [hash_mem hm] at hx
          exact ⟨x, ⟨p, arguments, ts, ht, hts, hx⟩, rfl⟩
        · cases h
      · rw [resolve_purge] at hcmd; cases hcmd

/-- So, without interference, every other variable is stored afterwards as it would be had the input
only been recorded. -/
theorem C41_others_stored (m : Machine) (hm : HashOk m) (ce : CommandExecutor)
    (hce : CommandExecutor.new = .ok ce) (line y : Str) (s s' : Session) (out : Str) (p : Position)
    (arguments : Positioned Str)
    (ht : tokenize line s.args.radix = .ok (.command ⟨"purgevar".toList, p⟩ arguments))
    (h : calculate m ce line s = (.ok out, s'))
    (hy : ¬ Lists s.args.radix line "purgevar" y) (hq : Quiet s) (sd1 sd' : SavedData)
    (hd1 : (recordInput s).2.db = some sd1) (hd' : s'.db = some sd') (q : Rat) :
    Stored sd'.db y q ↔ Stored sd1.db y q := by
  rw [new_eq_table hce] at h
  obtain ⟨id, s1, s2, touched, h1, h2, h3, h4, h5, h6, h7⟩ := calculate_command_ok h ht resolve_purge
  have := h7 (msg_touched (by decide) m table arguments s1 h4)
  subst this
  rw [h1] at hd1
  simp only at hd1
  obtain ⟨sd, hd, hrel⟩ := recordInput_sched h1 hd1
  have henv := (hrel.quiet (hq sd hd)).1
  have hrel' := command_db m table .purgeVar arguments s1
  rw [h4] at hrel'
  unfold SessRel at hrel'
  simp only at hrel'
  rw [hd1, hd'] at hrel'
  refine (SdRel.quiet hrel' henv).2.keeps (P := fun d => Stored d y q ↔ Stored sd1.db y q) ?_ Iff.rfl
  rintro op db (⟨_, ts, hts, x, hx, rfl⟩ | ⟨h, _⟩) ih
  · rw [stored_clear, ih]
    rintro rfl
    rw [hash_mem hm] at hx
    exact hy ⟨p, arguments, ts, ht, hts, hx⟩
  · cases h

example : Lists 10 "/purgevar $x $y".toList "purgevar" "$y".toList :=
  ⟨⟨0, 9⟩, ⟨"$x $y".toList, ⟨10, 5⟩⟩, [⟨"$x".toList, ⟨0, 2⟩⟩, ⟨"$y".toList, ⟨3, 2⟩⟩],
    by decide +kernel, by decide +kernel, by decide +kernel⟩

example : (calculate (exMachine true) table "/purgevar $x".toList
      (exDbSession [("$x".toList, 1), ("$y".toList, 2)] exDb)).1 = .ok "Done".toList ∧
    (calculate (exMachine true) table "/purgevar $x".toList
      (exDbSession [("$x".toList, 1), ("$y".toList, 2)] exDb)).2.vars = some ⟨[("$y".toList, 2)]⟩ ∧
    ((calculate (exMachine true) table "/purgevar $x".toList
      (exDbSession [("$x".toList, 1), ("$y".toList, 2)] exDb)).2.db.map (·.db.vars)) = some [] := by
  decide +kernel

/-! ## C42 Reload takes the stored value -/

theorem reload_quiet {sd : SavedData} (hq : sd.env = []) (hr : Reachable sd.db) (vs : VariableStore)
    (x : Str) :
    (∃ q sd', Stored sd.db x q ∧ sd'.db = sd.db ∧ sd'.env = [] ∧
      vs.reload x sd = (.ok (some ⟨x, q⟩), vs.insert x q, sd')) ∨
    (∃ sd', (∀ q, ¬ Stored sd.db x q) ∧ sd'.db = sd.db ∧ sd'.env = [] ∧
      vs.reload x sd = (.ok none, vs, sd')) := by
  unfold VariableStore.reload SavedData.getVariable
  rw [run_quiet hq]
  rcases getVariableTx_total hr.varsOk x with ⟨q, hg⟩ | hg
  · left
    rw [hg]
    exact ⟨q, { sd with commits := sd.commits ++ [sd.db] }, stored_of_getVariable hr.varsOk hg, rfl, hq, rfl⟩
  · right
    rw [hg]
    refine ⟨{ sd with commits := sd.commits ++ [sd.db] }, fun q hs => ?_, rfl, hq, rfl⟩
    rw [getVariable_of_stored hr.unique hs] at hg
    simp at hg

/-- The lines printed for the variables. -/
def ReloadLine (db : Db) (x text : Str) : Prop :=
  (∃ q, Stored db x q ∧ text = "Set ".toList ++ x ++ " to ".toList ++ ratDisplay q) ∨
  ((∀ q, ¬ Stored db x q) ∧ text = x ++ " unchanged".toList)

/-- Lines joined by line breaks, behind what is there already. -/
def joinAfter : Str → List Str → Str
  | out, [] => out
  | out, t :: ts => joinAfter ((if out = [] then out else out ++ ['\n']) ++ t) ts

theorem joinAfter_intercalate : ∀ (ts : List Str) (out : Str), out ≠ [] →
    joinAfter out ts = List.intercalate ['\n'] (out :: ts)
  | [], out, _ => by simp [joinAfter, List.intercalate]
  | t :: ts, out, h => by
    unfold joinAfter
    rw [if_neg h, joinAfter_intercalate ts _ (by simp)]
    cases ts <;> simp [List.intercalate, List.intersperse]

theorem joinAfter_nil (ts : List Str) (h : ∀ t ∈ ts, t ≠ []) :
    joinAfter [] ts = List.intercalate ['\n'] ts := by
  cases ts with
  | nil => simp [joinAfter, List.intercalate]
  | cons t ts =>
    unfold joinAfter
    simp only [if_true, List.nil_append]
    exact joinAfter_intercalate ts t (h t (by simp))

theorem reloadLoop_quiet : ∀ (l : List Str) (sd : SavedData) (_ : sd.env = []) (_ : Reachable sd.db)
    (vs : VariableStore) (out : Str) (touched : List Str),
    ∃ texts vs' sd', reloadLoop l vs sd out touched = (.ok (joinAfter out texts, touched ++ l), vs', sd') ∧
      sd'.db = sd.db ∧ sd'.env = [] ∧ List.Forall₂ (ReloadLine sd.db) l texts ∧
      ∀ y, (y ∉ l → vs'.lookup y = vs.lookup y) ∧
        (y ∈ l → (∀ q, Stored sd.db y q → vs'.lookup y = some q) ∧
          ((∀ q, ¬ Stored sd.db y q) → vs'.lookup y = vs.lookup y))
  | [], sd, hq, hr, vs, out, touched =>
    ⟨[], vs, sd, by simp [reloadLoop, joinAfter], rfl, hq, .nil, fun y => ⟨fun _ => rfl, by simp⟩⟩
  | x :: l, sd, hq, hr, vs, out, touched => by
    unfold reloadLoop
    rcases reload_quiet hq hr vs x with ⟨q, sd1, hs, hdb, henv, hl⟩ | ⟨sd1, hs, hdb, henv, hl⟩
    · rw [hl]
      simp only
      obtain ⟨texts, vs', sd', h1, h2, h3, h4, h5⟩ := reloadLoop_quiet l sd1 henv (hdb ▸ hr)
        (vs.insert x q) ((if out = [] then out else out ++ ['\n']) ++ reloadMessage x (some ⟨x, q⟩))
        (touched ++ [x])
      rw [hdb] at h2 h4 h5
      refine ⟨reloadMessage x (some ⟨x, q⟩) :: texts, vs', sd', ?_, h2, h3,
        .cons (.inl ⟨q, hs, rfl⟩) h4, fun y => ⟨fun hy => ?_, fun hy => ⟨fun w hw => ?_, fun hn => ?_⟩⟩⟩
      · rw [h1]; simp [joinAfter]
      · simp only [List.mem_cons, not_or] at hy
        rw [(h5 y).1 hy.2, lookup_insert, if_neg hy.1]
      · by_cases hyl : y ∈ l
        · exact ((h5 y).2 hyl).1 w hw
        · rw [(h5 y).1 hyl]
          have hyx : y = x := by simpa [hyl] using hy
          subst hyx
          rw [lookup_insert, if_pos rfl, stored_unique hr.unique hs hw]
      · have hyx : y ≠ x := by rintro rfl; exact hn q hs
        have hyl : y ∈ l := by simpa [hyx] using hy
        rw [((h5 y).2 hyl).2 hn, lookup_insert, if_neg hyx]
    · rw [hl]
      simp only
      obtain ⟨texts, vs', sd', h1, h2, h3, h4, h5⟩ := reloadLoop_quiet l sd1 henv (hdb ▸ hr)
        vs ((if out = [] then out else out ++ ['\n']) ++ reloadMessage x none)
        (touched ++ [x])
      rw [hdb] at h2 h4 h5
      refine ⟨reloadMessage x none :: texts, vs', sd', ?_, h2, h3,
        .cons (.inr ⟨hs, rfl⟩) h4, fun y => ⟨fun hy => ?_, fun hy => ⟨fun w hw => ?_, fun hn => ?_⟩⟩⟩
      · rw [h1]; simp [joinAfter]
      · simp only [List.mem_cons, not_or] at hy
        exact (h5 y).1 hy.2
      · have hyx : y ≠ x := by rintro rfl; exact hs w hw
        have hyl : y ∈ l := by simpa [hyx] using hy
        exact ((h5 y).2 hyl).1 w hw
      · by_cases hyl : y ∈ l
        · exact ((h5 y).2 hyl).2 hn
        · exact (h5 y).1 hyl

/-- Without interference: after /reloadvar each listed variable that is stored has its stored value, and
every other variable the value it had; the output has one line for each listed variable, saying so. -/
theorem C42_reload (m : Machine) (hm : HashOk m) (ce : CommandExecutor)
    (hce : CommandExecutor.new = .ok ce) (line : Str) (s s' : Session) (out : Str) (p : Position)
    (arguments : Positioned Str)
    (ht : tokenize line s.args.radix = .ok (.command ⟨"reloadvar".toList, p⟩ arguments))
    (h : calculate m ce line s = (.ok out, s')) (hq : Quiet s)
    (hr : ∀ sd, s.db = some sd → Reachable sd.db) :
    ∃ sd', s'.db = some sd' ∧
      (∀ x, Lists s.args.radix line "reloadvar" x →
        (∀ q, Stored sd'.db x q → sessionValue s' x = some q) ∧
        ((∀ q, ¬ Stored sd'.db x q) → sessionValue s' x = sessionValue s x)) ∧
      (∀ x, ¬ Lists s.args.radix line "reloadvar" x → sessionValue s' x = sessionValue s x) ∧
      ∃ names texts, (∀ x, x ∈ names ↔ Lists s.args.radix line "reloadvar" x) ∧ names.Nodup ∧
        List.Forall₂ (ReloadLine sd'.db) names texts ∧ out = List.intercalate ['\n'] texts := by
  have hunl := fun x hx => command_line_value (y := x) hm resolve_reload ht hx
  rw [new_eq_table hce] at h
  rw [h] at hunl
  obtain ⟨id, s1, s2, touched, h1, h2, h3, h4, h5, h6, h7⟩ := calculate_command_ok h ht resolve_reload
  unfold Cmd.execute executeReloadVar at h4
  simp only at h4
  cases hts : tokenizeVariableList arguments.value with
  | err e => rw [hts] at h4; simp at h4
  | panic k => rw [hts] at h4; simp at h4
  | diverge => rw [hts] at h4; simp at h4
  | ok ts =>
    have hlist : ∀ x, x ∈ m.hashOrder (ts.map (·.value)) ↔ Lists s.args.radix line "reloadvar" x := by
      intro x
      rw [hash_mem hm]
      constructor
      · intro hx; exact ⟨p, arguments, ts, ht, hts, hx⟩
      · rintro ⟨p', a', ts', ht', hts', hx⟩
        rw [ht] at ht'
        simp only [Outcome.ok.injEq, ParsedInput.command.injEq] at ht'
        obtain ⟨_, rfl⟩ := ht'
        rw [hts] at hts'
        cases hts'
        exact hx
    rw [hts] at h4
    simp only at h4
    cases hd1 : s1.db with
    | none => rw [hd1] at h4; simp at h4
    | some sd1 =>
      obtain ⟨sd, hd, hrel⟩ := recordInput_sched h1 hd1
      have henv := (hrel.quiet (hq sd hd)).1
      have hr1 : Reachable sd1.db := (hr sd hd).evolves hrel.db
      rw [hd1] at h4
      simp only at h4
      cases hv1 : s1.vars with
      | none => rw [hv1] at h4; simp at h4
      | some vs =>
        rw [hv1] at h4
        simp only at h4
        obtain ⟨texts, vs', sd2, g1, g2, g3, g4, g5⟩ :=
          reloadLoop_quiet (m.hashOrder (ts.map (·.value))) sd1 henv hr1 vs [] []
        rw [g1] at h4
        simp only [Prod.mk.injEq, Outcome.ok.injEq, List.nil_append] at h4
        obtain ⟨⟨ho, htc⟩, rfl⟩ := h4
        unfold SessRel at h5
        simp only at h5
        cases hd' : s'.db with
        | none => rw [hd'] at h5; exact h5.elim
        | some sd' =>
          rw [hd'] at h5
          have hst : ∀ x q, Stored sd'.db x q ↔ Stored sd1.db x q := by
            intro x q
            refine (SdRel.quiet h5 g3).2.keeps (P := fun d => Stored d x q ↔ Stored sd1.db x q) ?_
              (by rw [g2])
            rintro op db ⟨y, i, rfl⟩ ih
            rw [stored_touch, ih]
          have hv' : ∀ x, sessionValue s' x = vs'.lookup x := by
            intro x
            have := h6.vars
            unfold sessionValue
            rw [this]
          have hv : ∀ x, sessionValue s x = vs.lookup x := by
            intro x
            unfold sessionValue
            rw [← h2, hv1]
          refine ⟨sd', rfl, fun x hx => ⟨fun q hs => ?_, fun hs => ?_⟩, hunl,
            m.hashOrder (ts.map (·.value)), texts, hlist, ?_, ?_, ?_⟩
          · rw [hv']
            exact ((g5 x).2 ((hlist x).2 hx)).1 q ((hst x q).1 hs)
          · rw [hv', hv]
            exact ((g5 x).2 ((hlist x).2 hx)).2 fun q h => hs q ((hst x q).2 h)
          · exact (hm _).nodup_iff.2 (List.nodup_dedup _)
          · refine List.Forall₂.imp (fun x t h => ?_) g4
            rcases h with ⟨q, hs, e⟩ | ⟨hs, e⟩
            · exact .inl ⟨q, (hst x q).2 hs, e⟩
            · exact .inr ⟨fun q h => hs q ((hst x q).1 h), e⟩
          · rw [← ho]
            apply joinAfter_nil
            intro t ht
            have : ∀ {l : List Str} {texts : List Str}, List.Forall₂ (ReloadLine sd1.db) l texts →
                ∀ t ∈ texts, t ≠ [] := by
              intro l texts h
              induction h with
              | nil => simp
              | cons h _ ih =>
                intro t ht
                rcases List.mem_cons.1 ht with rfl | ht
                · rcases h with ⟨q, _, rfl⟩ | ⟨_, rfl⟩ <;> simp
                · exact ih t ht
            exact this g4 t ht

/-- In any circumstances: an unlisted variable keeps its value. -/
theorem C42_others (m : Machine) (hm : HashOk m) (ce : CommandExecutor)
    (hce : CommandExecutor.new = .ok ce) (line y : Str) (s : Session) (p : Position)
    (arguments : Positioned Str)
    (ht : tokenize line s.args.radix = .ok (.command ⟨"reloadvar".toList, p⟩ arguments))
    (hy : ¬ Lists s.args.radix line "reloadvar" y) :
    sessionValue (calculate m ce line s).2 y = sessionValue s y := by
  rw [new_eq_table hce]
  exact command_line_value hm resolve_reload ht hy

/-- In any circumstances: a listed variable has afterwards the value it had or one that was stored at
some point in between. -/
theorem C42_interference (m : Machine) (ce : CommandExecutor) (line x : Str) (s : Session) (p : Position)
    (arguments : Positioned Str)
    (ht : tokenize line s.args.radix = .ok (.command ⟨"reloadvar".toList, p⟩ arguments))
    (hr : ∀ sd, s.db = some sd → Reachable sd.db) (v : Rat)
    (hv : sessionValue (calculate m ce line s).2 x = some v) :
    sessionValue s x = some v ∨ ∃ sd d, s.db = some sd ∧
      Evolves (fun op => Scheduled sd op ∨ ¬ Stores x op) sd.db d ∧ Stored d x v := by
  have ha : ¬ Assigns s.args.radix line x := by
    rintro ⟨p', q', ts', h⟩
    rw [ht] at h
    simp at h
  exact (calculate_loaded ha).2.1 (fun sd hd => (hr sd hd).varsOk) v hv

example : (calculate (exMachine true) table "/reloadvar $x $y".toList
      (exDbSession [("$x".toList, 1), ("$y".toList, 2)] exDb)).1 =
        .ok "Set $x to 2/3\n$y unchanged".toList ∧
    (calculate (exMachine true) table "/reloadvar $x $y".toList
      (exDbSession [("$x".toList, 1), ("$y".toList, 2)] exDb)).2.vars =
        some ⟨[("$x".toList, 2 / 3), ("$y".toList, 2)]⟩ := by
  decide +kernel

/-! ## C43 Unknown variables are errors -/

/-- Using a variable that is in neither place: the error names it and says where it is used. -/
theorem C43_unknown (m : Machine) (args : Args) (t : SyntaxTree) (id : Option Int) (x : Str)
    (p : Position) (env env' : Env) (hr : Reaches m args t.root env (.variable x p) env')
    (hv : env'.vars.isSome) (hn : sessionValues env' x = none)
    (hdb : ∀ sd, env'.db = some sd → sd.env = [] ∧ Reachable sd.db ∧ ∀ q, ¬ Stored sd.db x q) :
    ∃ env'', t.execute m args id env =
      (.err (.input ("Unknown variable: ".toList ++ x) (some p)), env'') := by
  have hx : ∃ env'', (Node.variable x p).execute m args env' =
      (.err (.input ("Unknown variable: ".toList ++ x) (some p)), env'') := by
    unfold Node.execute execVariable
    obtain ⟨vars, db⟩ := env'
    cases vars with
    | none => simp at hv
    | some vs =>
      simp only [sessionValues] at hn
      simp only
      unfold VariableStore.get
      rw [hn]
      cases db with
      | none => exact ⟨_, rfl⟩
      | some sd =>
        obtain ⟨h1, h2, h3⟩ := hdb sd rfl
        rcases reload_quiet h1 h2 vs x with ⟨q, sd', hs, _⟩ | ⟨sd', _, _, _, hl⟩
        · exact absurd hs (h3 q)
        · simp only
          rw [hl]
          exact ⟨_, rfl⟩
  obtain ⟨env'', hx⟩ := hx
  rcases reaches_fails' hr hx (.inl ⟨_, rfl⟩) with ⟨e, env3, h1, h3⟩ | ⟨k, env3, h1, h3⟩
  · simp only [Prod.mk.injEq, Outcome.err.injEq] at h1
    obtain ⟨rfl, rfl⟩ := h1
    refine ⟨env'', ?_⟩
    unfold SyntaxTree.execute
    rw [andThen_of_err h3]
  · simp at h1

/-- Without a variable store. -/
theorem C43_no_store (m : Machine) (args : Args) (t : SyntaxTree) (id : Option Int) (x : Str)
    (p : Position) (env env' : Env) (hr : Reaches m args t.root env (.variable x p) env')
    (hv : env'.vars = none) :
    t.execute m args id env = (.err (.input "Variable store unavailable".toList (some p)), env') := by
  have hx : (Node.variable x p).execute m args env' =
      (.err (.input "Variable store unavailable".toList (some p)), env') := by
    unfold Node.execute execVariable
    rw [hv]
    rfl
  rcases reaches_fails' hr hx (.inl ⟨_, rfl⟩) with ⟨e, env3, h1, h3⟩ | ⟨k, env3, h1, h3⟩
  · simp only [Prod.mk.injEq, Outcome.err.injEq] at h1
    obtain ⟨rfl, rfl⟩ := h1
    unfold SyntaxTree.execute
    rw [andThen_of_err h3]
  · simp at h1

/-- Assigning without a variable store. -/
theorem C43_no_store_assignment (m : Machine) (args : Args) (t : SyntaxTree) (id : Option Int)
    (x : Positioned Str) (ht : t.resultVar = some x) (env env' : Env) (v : Rat)
    (hx : t.root.execute m args env = (.ok v, env')) (hv : env'.vars = none) :
    t.execute m args id env =
      (.err (.input "Variable store unavailable".toList (some x.position)), env') := by
  unfold SyntaxTree.execute
  rw [andThen_of_ok hx]
  simp only [ht, hv]
  rfl

/-- Only then: if a variable is reported as unknown, the session does not have it, and it is not stored
in the database the program looked at. -/
theorem C43_only_unknown (m : Machine) (args : Args) (x : Str) (p : Position) (env env' : Env)
    (hr : ∀ sd, env.db = some sd → Reachable sd.db)
    (h : (Node.variable x p).execute m args env =
      (.err (.input ("Unknown variable: ".toList ++ x) (some p)), env')) :
    sessionValues env x = none ∧ ∀ sd, env.db = some sd →
      ∃ d, Evolves (Scheduled sd) sd.db d ∧ ∀ q, ¬ Stored d x q := by
  unfold Node.execute execVariable at h
  obtain ⟨vars, db⟩ := env
  cases vars with
  | none => exact ⟨rfl, fun sd hd => by
      simp only [Prod.mk.injEq, Outcome.err.injEq, Failure.input.injEq] at h
      have h1 : List.head? noVariableStoreMsg = some 'U' := congrArg List.head? h.1.1
      exact absurd h1 (by decide)⟩
  | some vs =>
    simp only at h
    rcases get_cases vs x db with ⟨w, hl, hg⟩ | ⟨hl, rfl, hg⟩ | ⟨sd, hl, rfl, hh⟩
    · rw [hg] at h; simp at h
    · exact ⟨hl, fun sd hd => by simp at hd⟩
    · rcases hh with ⟨w, _, hg⟩ | ⟨hn, hg⟩ | ⟨e, _, hg⟩ | ⟨k, _, hg⟩
      · rw [hg] at h; simp at h
      · refine ⟨hl, fun sd0 hd => ?_⟩
        simp only [Option.some.injEq] at hd
        subst hd
        have he : Evolves (Scheduled sd) sd.db sd.seen :=
          ⟨sd.nextEnv.others, fun _ h => nextEnv_scheduled h, rfl⟩
        refine ⟨sd.seen, he, fun q hs => ?_⟩
        have hru := (hr sd rfl).evolves he
        unfold SavedData.getVariable at hn
        rcases run_cases sd (getVariableTx x) with ⟨_, hrun⟩ | ⟨_, hrun⟩
        · rw [hrun] at hn; simp at hn
        · rw [hrun, getVariable_of_stored hru.unique hs] at hn; simp at hn
      · rw [hg] at h; simp at h
      · rw [hg] at h; simp at h

example : (calculate (exMachine true) table "1 + $z".toList (exDbSession [] exDb)).1 =
      .err (.input "Unknown variable: $z".toList (some ⟨4, 2⟩)) ∧
    oneShot (exMachine true) .default "1 + $z".toList =
      .ok (.inputError "Variable store unavailable".toList) := by decide +kernel

/-! ## C44 Assignments survive database failure in the session -/

/-- Once the right side is evaluated, the session's variable gets the value, whatever happens when it is
stored; if storing fails, the failure is reported. -/
theorem C44_update (m : Machine) (args : Args) (t : SyntaxTree) (id : Option Int) (env env1 : Env)
    (x : Positioned Str) (v : Rat) (ht : t.resultVar = some x)
    (h : t.root.execute m args env = (.ok v, env1)) (hv : env1.vars.isSome) :
    sessionValues (t.execute m args id env).2 x.value = some v ∧
    (∀ sd i e, env1.db = some sd → id = some i → (sd.setVariable ⟨x.value, v⟩ i).1 = .err e →
      (t.execute m args id env).1 = .err (.runtime (.db e))) := by
  unfold SyntaxTree.execute
  rw [andThen_of_ok h]
  simp only [ht]
  cases hvs : env1.vars with
  | none => rw [hvs] at hv; simp at hv
  | some vs =>
    simp only
    have hu := update_vars vs ⟨x.value, v⟩ id env1.db
    constructor
    · rcases hp : vs.update ⟨x.value, v⟩ id env1.db with ⟨r, vs', db'⟩
      rw [hp] at hu
      simp only at hu
      have : vs'.lookup x.value = some v := by rw [hu, lookup_insert, if_pos rfl]
      cases r <;> exact this
    · intro sd i e hd hi he
      have hp1 : (vs.update ⟨x.value, v⟩ id env1.db).1 = .err (.db e) := by
        unfold VariableStore.update
        rw [hd, hi]
        simp only
        rw [he]
        rfl
      rcases hp : vs.update ⟨x.value, v⟩ id env1.db with ⟨r, vs', db'⟩
      rw [hp] at hp1
      simp only at hp1
      rw [hp1]

/-- The same for a whole input: once it is recorded and the variables in it are marked as used, an
assignment whose right side has a value gives the session's variable that value, even if it cannot be
stored. -/
theorem C44_session (m : Machine) (ce : CommandExecutor) (line x : Str) (s s1 s2 : Session)
    (id : Option Int) (p q : Position) (ts : List PTok) (n : Node) (env : Env) (v : Rat)
    (ht : tokenize line s.args.radix = .ok (.tokens (⟨.variable x, p⟩ :: ⟨.assign, q⟩ :: ts)))
    (hn : Expr 4 ts n) (hrec : recordInput s = (.ok id, s1)) (hvs : s.vars.isSome)
    (htouch : touchAll id (m.hashOrder (variableNames (⟨.variable x, p⟩ :: ⟨.assign, q⟩ :: ts))) s1 =
      (.ok (), s2))
    (hx : n.execute m s.args ⟨s2.vars, s2.db⟩ = (.ok v, env)) :
    sessionValue (calculate m ce line s).2 x = some v ∧
    (∀ sd i e, env.db = some sd → id = some i → (sd.setVariable ⟨x, v⟩ i).1 = .err e →
      (calculate m ce line s).1 = .err (.runtime (.db e))) := by
  obtain ⟨ha, hv⟩ := recordInput_args s
  rw [hrec] at ha hv
  simp only at ha hv
  have hon : OnlyDb s1 s2 := by
    have := touchAll_only id (m.hashOrder (variableNames (⟨.variable x, p⟩ :: ⟨.assign, q⟩ :: ts))) s1
    rw [htouch] at this
    exact this
  have hnew : SyntaxTree.new (⟨.variable x, p⟩ :: ⟨.assign, q⟩ :: ts) = .ok ⟨some ⟨x, p⟩, n⟩ :=
    (parse_iff _ ⟨some ⟨x, p⟩, n⟩).2 (.assignment hn)
  have hsome : env.vars.isSome := by
    have := (execute_extends m s.args n ⟨s2.vars, s2.db⟩).1
    rw [hx] at this
    simp only at this
    rw [← this, hon.vars, hv]
    exact hvs
  have hC := C44_update m s.args ⟨some ⟨x, p⟩, n⟩ id ⟨s2.vars, s2.db⟩ env ⟨x, p⟩ v rfl hx hsome
  have hcalc : calculate m ce line s = ((executeTree m ⟨some ⟨x, p⟩, n⟩ id).andThen
      fun result s => (displayResult s.args result, s)) s2 := by
    rw [calculate_eq, andThen_of_ok hrec]
    unfold afterRecording
    rw [ha, ht]
    simp only
    unfold calculateTokens
    cases hvs' : s1.vars with
    | none => rw [hv] at hvs'; rw [hvs'] at hvs; simp at hvs
    | some vs =>
      simp only
      rw [andThen_of_ok htouch, if_neg (by simp), hnew]
      rfl
  have hargs : s2.args = s.args := hon.args.trans ha
  rw [hcalc]
  unfold executeTree St.andThen
  simp only
  rw [hargs]
  rcases hq : SyntaxTree.execute m s.args ⟨some ⟨x, p⟩, n⟩ id ⟨s2.vars, s2.db⟩ with ⟨r, env2⟩
  rw [hq] at hC
  constructor
  · cases r <;> exact hC.1
  · intro sd i e h1 h2 h3
    have := hC.2 sd i e h1 h2 h3
    simp only at this
    rw [this]

/-- A failure before that (of the recording, or of marking the variables as used) leaves the session's
variables as they were. -/
theorem C44_earlier_failure (m : Machine) (ce : CommandExecutor) (line : Str) (s s1 : Session)
    (e : Failure) (hrec : recordInput s = (.err e, s1)) :
    calculate m ce line s = (.err e, s1) ∧ s1.vars = s.vars := by
  have hv := (recordInput_args s).2
  rw [hrec] at hv
  refine ⟨?_, hv⟩
  rw [calculate_eq, andThen_of_err hrec]

/-- Recording and marking succeed, storing fails. -/
example : (calculate (exMachine true) table "$x = 1/3".toList
      ⟨.default, some ⟨exDb, none, [⟨[], false⟩, ⟨[], false⟩, ⟨[], true⟩], []⟩, some (.new true), some ⟨[]⟩⟩).1 =
        .err (.runtime (.db .environment)) ∧
    (calculate (exMachine true) table "$x = 1/3".toList
      ⟨.default, some ⟨exDb, none, [⟨[], false⟩, ⟨[], false⟩, ⟨[], true⟩], []⟩, some (.new true), some ⟨[]⟩⟩).2.vars =
        some ⟨[("$x".toList, 1 / 3)]⟩ := by decide +kernel

end Bcalc
