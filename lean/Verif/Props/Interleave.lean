import Verif.Spec.Interleave
import Verif.Props.Mentions

/-! # C102: the operations of sessions interleave -/

namespace Bcalc
open Spec

theorem recordedIn_append (a b : List DbOp) : recordedIn (a ++ b) = recordedIn a ++ recordedIn b := by
  unfold recordedIn; rw [List.filterMap_append]

theorem step_recorded (st : Store) (op : DbOp) : (st.step op).recorded = st.recorded ++ recordedIn [op] := by
  cases op <;> simp only [Store.step, recordedIn, Store.trim, List.filterMap_cons, List.filterMap_nil, List.append_nil] <;>
    split <;> rfl

theorem foldl_recorded (ops : List DbOp) (st : Store) :
    (ops.foldl Store.step st).recorded = st.recorded ++ recordedIn ops := by
  induction ops generalizing st with
  | nil => simp [recordedIn]
  | cons op ops ih =>
    rw [List.foldl_cons, ih, step_recorded, List.append_assoc, ← recordedIn_append]; rfl

theorem storeAfter_recorded (ops : List DbOp) : (storeAfter ops).recorded = recordedIn ops := by
  unfold storeAfter; rw [foldl_recorded]; rfl

theorem storeAfter_append (a : List DbOp) (op : DbOp) : storeAfter (a ++ [op]) = (storeAfter a).step op := by
  unfold storeAfter; rw [List.foldl_append]; rfl

theorem orderly_prefix {a b : List DbOp} (h : Orderly (a ++ b)) : Orderly a := fun pre op rest he =>
  h pre op (rest ++ b) (by rw [he]; simp)

theorem orderly_snoc {a : List DbOp} {op : DbOp} (h : Orderly a) (ho : Rightful a op) : Orderly (a ++ [op]) := by
  intro pre o rest he
  rcases List.eq_nil_or_concat rest with rfl | ⟨r, x, rfl⟩
  · obtain ⟨h1, h2⟩ := List.append_inj' he rfl
    cases h2
    rw [← h1]; exact ho
  · rw [List.concat_eq_append, ← List.cons_append, ← List.append_assoc] at he
    exact h pre o r (List.append_inj' he rfl).1

/-- Operations in order keep the variables mentioned. -/
theorem orderly_mentioned (ops : List DbOp) (h : Orderly ops) : AllMentioned (storeAfter ops) := by
  induction ops using List.reverseRecOn with
  | nil => intro x q i hx; cases hx
  | append_singleton ops op ih =>
    have ha := ih (orderly_prefix h)
    have ho := h ops op [] rfl
    rw [storeAfter_append]
    have hrec := storeAfter_recorded ops
    cases op with
    | openDb => exact ha
    | add line => exact ha.add line
    | setVar var i =>
      obtain ⟨k, line, h1, h2, h3⟩ := ho
      exact (ha.op (line := line) (i := i) ⟨k, h1, by rw [hrec]; exact h2⟩ (.inr (.inl ⟨var, rfl, h3⟩))).1
    | touch x i =>
      obtain ⟨k, line, h1, h2, h3⟩ := ho
      exact (ha.op (line := line) (i := i) ⟨k, h1, by rw [hrec]; exact h2⟩ (.inl ⟨x, rfl, h3⟩)).1
    | clear x =>
      refine ha.sub (fun y v hy => ?_) fun _ _ h => h
      simp only [Store.step] at hy
      split at hy
      · cases hy
      · exact hy
    | setCap n =>
      simp only [Store.step]
      split
      · exact ha
      · exact ha.sub (fun x v hx => by have := trim_vars_some _ x v hx; exact this) fun _ _ h => h

/-! ## C102 Interleaved sessions -/

/-- Whatever operations have been performed on a new database, if each that set or used a variable did so for an input
recorded before that mentions it, then every saved variable is mentioned by the saved input that last set or used it. -/
theorem C102_orderly (ops : List DbOp) (h : Orderly ops) : VariablesMentioned (after ops newDb) := fun _ hv =>
  row_mentioned (rep_after ops) (orderly_mentioned ops h) hv

/-- A session that processes a line, with any operations of others in between and any failures, does that: it records
its line at most once and before all else, and sets and uses variables only for it, and only such as it mentions. -/
theorem C102_session (m : Machine) (hm : HashOk m) (ce : CommandExecutor) (hce : CommandExecutor.new = .ok ce)
    (before : List DbOp) (line : Str) (s s' : Session) (sd sd' : SavedData) (r : Outcome Failure Str)
    (hsd : sd.db = after before newDb) (h : SubmitsAmid line s sd) (hc : calculate m ce line s = (r, s'))
    (hd : s'.db = some sd') :
    ∃ (k : Nat) (seg later : List (Bool × DbOp)), seg = recording line sd.env ++ later ∧
      sd'.env = sd.env.drop (1 + k) ∧ ofOthers later = ((sd.env.drop 1).take k).flatMap (·.others) ∧
      recordedIn (ofItself later) = [] ∧
      sd'.db = after (before ++ allOf seg) newDb ∧
      (∃ new, sd'.commits = sd.commits ++ new ∧
        ∀ db ∈ new, ∃ pre post, seg = pre ++ post ∧ db = after (before ++ allOf pre) newDb) ∧
      ∀ pre op post, seg = pre ++ (true, op) :: post → Rightful (before ++ allOf pre) op := by
  rw [new_eq_table hce] at hc
  obtain ⟨hval, ⟨inp, hi, hcur⟩, hsd'⟩ := h
  obtain ⟨sd1, h1, h2, h3⟩ := recordInput_cases hi hcur hsd'
  unfold SavedData.addToInputHistory at h2 h3
  have hseen : sd.seen = after (before ++ sd.nextEnv.others) newDb := by
    rw [after_append, ← hsd]; rfl
  have hany : (sd.env.take 1).any (·.fault) = sd.nextEnv.fault := by
    unfold SavedData.nextEnv
    cases sd.env <;> simp
  have hf : allOf (sd.nextEnv.others.map fun op => (false, op)) = sd.nextEnv.others := by
    simp [allOf, Function.comp_def]
  unfold recording
  rw [hany, take_others]
  rw [calculate_eq] at hc
  unfold St.andThen at hc
  rcases hrec : recordInput s with ⟨r1, s1⟩
  rw [hrec] at h1 h3 hc
  simp only at h1 h3
  rcases run_cases sd (addToInputHistoryTx line) with ⟨hb, hr⟩ | ⟨hb, hr⟩
  · rw [hr] at h2 h3
    simp only at h2 h3
    rw [h3] at hc
    simp only [Prod.mk.injEq] at hc
    rw [← hc.2, h1] at hd
    simp only [Option.some.injEq] at hd
    rw [← hd, ← h2]
    refine ⟨0, sd.nextEnv.others.map fun op => (false, op), [], by simp [hb], by simp, by simp [ofOthers], rfl, ?_,
      ⟨[], by simp, by simp⟩, ?_⟩
    · rw [hf]; exact hseen
    · intro pre op post he
      have : (true, op) ∈ sd.nextEnv.others.map fun op => (false, op) := by rw [he]; simp
      simp at this
  · obtain ⟨db1, hadd, _⟩ := (rep_after (before ++ sd.nextEnv.others)).add line
    rw [← hseen, storeAfter_recorded] at hadd
    rw [hr, hadd] at h2 h3
    simp only at h2 h3
    have hdb1 : db1 = after (before ++ sd.nextEnv.others ++ [.add line]) newDb := by
      rw [after_append, ← hseen]
      exact (commit_ok hadd).symm
    rw [h3] at hc
    simp only at hc
    have hrest := afterRecording_db m table line ((recordedIn (before ++ sd.nextEnv.others)).length + 1) s1
    rw [hc] at hrest
    unfold SessRel at hrest
    have hd1 : s1.db = some sd1 := by rw [h1]
    have hrad : s1.args.radix = s.args.radix := by rw [h1]
    rw [hd1, hrad] at hrest
    simp only at hrest
    rw [hd] at hrest
    obtain ⟨k, seg, g1, g2, g3, g4, new, g5, g6⟩ := SdRel.merges hrest
    rw [← h2] at g1 g2 g4 g5 g6
    simp only at g1 g2 g4 g5 g6
    have hown := fun p hp hb => thenOp_mentions hm hval.radix (g3 p hp hb)
    refine ⟨k, (sd.nextEnv.others.map fun op => (false, op)) ++ [(true, .add line)] ++ seg, seg, by simp [hb], ?_, ?_, ?_, ?_, ?_, ?_⟩
    · rw [g1]; simp [Nat.add_comm]
    · rw [List.drop_one, ← g2]; rfl
    · unfold recordedIn
      rw [List.filterMap_eq_nil_iff]
      intro op hop
      obtain ⟨p, hp, rfl⟩ := List.mem_map.1 hop
      obtain ⟨hp1, hp2⟩ := List.mem_filter.1 hp
      rcases hown p hp1 hp2 with ⟨y, he, _⟩ | ⟨v, he, _⟩ | ⟨y, he⟩ | ⟨n, he⟩ <;> rw [he]
    · rw [g4, hdb1, ← after_append]
      simp [allOf, Function.comp_def]
    · refine ⟨db1 :: new, by rw [g5]; simp, fun db hdb => ?_⟩
      rcases List.mem_cons.1 hdb with rfl | hdb
      · exact ⟨_, seg, rfl, by rw [hdb1]; simp [allOf, Function.comp_def]⟩
      · obtain ⟨p, q, rfl, he⟩ := g6 db hdb
        exact ⟨_, q, (List.append_assoc _ _ _).symm, by rw [he, hdb1, ← after_append]; simp [allOf, Function.comp_def]⟩
    · intro pre op post he
      have hin : (true, op) ∈ seg → ∀ pre', pre = (sd.nextEnv.others.map fun op => (false, op)) ++ [(true, .add line)] ++ pre' →
          Rightful (before ++ allOf pre) op := by
        intro hm pre' hpre
        have hk : (recordedIn (before ++ allOf pre))[(recordedIn (before ++ sd.nextEnv.others)).length]? = some line := by
          have : before ++ allOf pre = (before ++ sd.nextEnv.others) ++ ([.add line] ++ allOf pre') := by
            rw [hpre]; simp [allOf, Function.comp_def]
          rw [this, recordedIn_append _ ([DbOp.add line] ++ allOf pre'), recordedIn_append [DbOp.add line]]
          simp [recordedIn]
        rcases hown _ hm rfl with ⟨y, he, hs⟩ | ⟨v, he, hs⟩ | ⟨y, he⟩ | ⟨n, he⟩ <;> simp only at he <;> subst he
        · exact ⟨_, line, rfl, hk, hs⟩
        · exact ⟨_, line, rfl, hk, hs⟩
        · trivial
        · trivial
      rcases List.append_eq_append_iff.1 he with ⟨a, ha, hb'⟩ | ⟨a, ha, hb'⟩
      · exact hin (by rw [hb']; simp) a ha
      · rcases List.eq_nil_or_concat a with rfl | ⟨a', x, rfl⟩
        · simp only [List.nil_append] at hb'
          exact hin (by rw [← hb']; simp) [] (by rw [ha]; simp)
        · cases a' with
          | nil =>
            simp only [List.concat_nil, List.singleton_append, List.cons.injEq] at hb'
            have := (List.append_inj' ha rfl).2
            rw [hb'.1.symm] at this
            cases this
            trivial
          | cons y a' =>
            have hy : y = (true, op) := by simp at hb'; exact hb'.1.symm
            subst hy
            rw [List.concat_eq_append, ← List.append_assoc] at ha
            have hl := (List.append_inj' ha rfl).1
            have : (true, op) ∈ sd.nextEnv.others.map fun op => (false, op) := by rw [hl]; simp
            simp at this

theorem recordedIn_others (p : List (Bool × DbOp)) (h : recordedIn (ofItself p) = []) :
    recordedIn (allOf p) = recordedIn (ofOthers p) := by
  induction p with
  | nil => rfl
  | cons a p ih =>
    obtain ⟨b, op⟩ := a
    cases b with
    | false =>
      have h' : recordedIn (ofItself p) = [] := by simpa [ofItself] using h
      have e1 : allOf ((false, op) :: p) = [op] ++ allOf p := rfl
      have e2 : ofOthers ((false, op) :: p) = [op] ++ ofOthers p := by simp [ofOthers]
      rw [e1, e2, recordedIn_append, recordedIn_append, ih h']
    | true =>
      have e1 : allOf ((true, op) :: p) = [op] ++ allOf p := rfl
      have e2 : ofOthers ((true, op) :: p) = ofOthers p := by simp [ofOthers]
      have e3 : ofItself ((true, op) :: p) = [op] ++ ofItself p := by simp [ofItself]
      rw [e3, recordedIn_append] at h
      obtain ⟨h1, h2⟩ := List.append_eq_nil_iff.1 h
      rw [e1, e2, recordedIn_append, h1, ih h2, List.nil_append]

theorem rightful_congr {a b : List DbOp} (h : recordedIn a = recordedIn b) {op : DbOp} (ho : Rightful a op) :
    Rightful b op := by
  cases op <;> simp only [Rightful, MentionedUnder] at ho ⊢ <;> first | trivial | (rw [← h]; exact ho)

/-- So, if what others do is in order, whatever they do and however it falls between the operations of the session, and
whatever fails: all is in order, at each point of time, and every saved variable is mentioned. -/
theorem C102_among (m : Machine) (hm : HashOk m) (ce : CommandExecutor) (hce : CommandExecutor.new = .ok ce)
    (before : List DbOp) (line : Str) (s s' : Session) (sd sd' : SavedData) (r : Outcome Failure Str)
    (hsd : sd.db = after before newDb) (h : SubmitsAmid line s sd)
    (ho : Orderly (before ++ allOf (recording line sd.env) ++ afterwards sd.env))
    (hc : calculate m ce line s = (r, s')) (hd : s'.db = some sd') :
    VariablesMentioned sd'.db ∧
    (∀ new, sd'.commits = sd.commits ++ new → ∀ db ∈ new, VariablesMentioned db) ∧
    ∃ now, Orderly now ∧ sd'.db = after now newDb ∧ before <+: now ∧
      recordedIn now ++ recordedIn (sd'.env.flatMap (·.others)) =
        recordedIn (before ++ allOf (recording line sd.env) ++ afterwards sd.env) := by
  obtain ⟨k, seg, later, rfl, he, hl, hi, hdb, ⟨new', hn', hcm⟩, hown⟩ :=
    C102_session m hm ce hce before line s s' sd sd' r hsd h hc hd
  have haft : afterwards sd.env = ofOthers later ++ sd'.env.flatMap (·.others) := by
    rw [hl, he, afterwards, ← List.drop_drop, ← List.flatMap_append, List.take_append_drop]
  have hord : Orderly (before ++ allOf (recording line sd.env ++ later)) := by
    intro pre op rest hsplit
    rcases List.append_eq_append_iff.1 hsplit with ⟨a, ha, hb⟩ | ⟨a, ha, hb⟩
    · obtain ⟨p, q, hseg, hp, hq⟩ := List.map_eq_append_iff.1 hb
      obtain ⟨⟨b, op'⟩, q', rfl, rfl, hq'⟩ := List.map_eq_cons_iff.1 hq
      rw [ha, ← hp]
      cases b with
      | true => exact hown p op' q' hseg
      | false =>
        rcases List.append_eq_append_iff.1 hseg with ⟨c, hc1, hc2⟩ | ⟨c, hc1, hc2⟩
        · -- later
          have hsplit' : before ++ allOf (recording line sd.env) ++ afterwards sd.env =
              (before ++ allOf (recording line sd.env) ++ ofOthers c) ++ op' ::
                (ofOthers q' ++ sd'.env.flatMap (·.others)) := by
            rw [haft, hc2]
            simp [ofOthers]
          refine rightful_congr ?_ (ho _ _ _ hsplit')
          have hci : recordedIn (ofItself c) = [] := by
            rw [hc2] at hi
            have : ofItself (c ++ (false, op') :: q') = ofItself c ++ ofItself q' := by simp [ofItself]
            rw [this, recordedIn_append] at hi
            exact (List.append_eq_nil_iff.1 hi).1
          have e : allOf p = allOf (recording line sd.env) ++ allOf c := by rw [hc1]; simp [allOf]
          show _ = recordedIn (before ++ allOf p)
          rw [e]
          simp only [recordedIn_append, recordedIn_others c hci, List.append_assoc]
        · cases c with
          | nil =>
            simp only [List.nil_append] at hc2
            simp only [List.append_nil] at hc1
            have hsplit' : before ++ allOf (recording line sd.env) ++ afterwards sd.env =
                (before ++ allOf p) ++ op' :: (ofOthers q' ++ sd'.env.flatMap (·.others)) := by
              rw [haft, ← hc2, hc1]
              simp [ofOthers]
            exact ho _ _ _ hsplit'
          | cons y c =>
            simp only [List.cons_append, List.cons.injEq] at hc2
            obtain ⟨rfl, hc2⟩ := hc2
            refine ho (before ++ allOf p) op' (allOf c ++ afterwards sd.env) ?_
            rw [hc1]
            simp [allOf]
    · cases a with
      | nil =>
        simp only [List.nil_append] at hb
        simp only [List.append_nil] at ha
        obtain ⟨⟨b, op'⟩, q', hseg, hop, _⟩ := List.map_eq_cons_iff.1 hb.symm
        simp only at hop
        subst hop
        cases b with
        | true =>
          have := hown [] op' q' hseg
          rw [ha] at this
          simpa [allOf] using this
        | false =>
          refine rightful_congr (a := before) (by rw [ha]) ?_
          cases hrec : recording line sd.env with
          | nil =>
            rw [hrec] at hseg
            simp only [List.nil_append] at hseg
            refine ho before op' (ofOthers q' ++ sd'.env.flatMap (·.others)) ?_
            rw [hrec, haft, hseg]
            simp [ofOthers, allOf]
          | cons y c =>
            rw [hrec, List.cons_append, List.cons.injEq] at hseg
            obtain ⟨rfl, _⟩ := hseg
            refine ho before op' (allOf c ++ afterwards sd.env) ?_
            rw [hrec]
            simp [allOf]
      | cons y a =>
        simp only [List.cons_append, List.cons.injEq] at hb
        obtain ⟨rfl, _⟩ := hb
        exact ho pre op (a ++ allOf (recording line sd.env) ++ afterwards sd.env) (by rw [ha]; simp)
  refine ⟨by rw [hdb]; exact C102_orderly _ hord, fun new hn db hdb' => ?_, _, hord, hdb, List.prefix_append _ _, ?_⟩
  · rw [hn, List.append_cancel_left_eq] at hn'
    subst hn'
    obtain ⟨p, q, hpq, he'⟩ := hcm db hdb'
    rw [he']
    refine C102_orderly _ (orderly_prefix (b := allOf q) ?_)
    rw [hpq] at hord
    simpa [allOf] using hord
  · have e : allOf (recording line sd.env ++ later) = allOf (recording line sd.env) ++ allOf later := by simp [allOf]
    rw [haft, e]
    simp only [recordedIn_append, recordedIn_others later hi, List.append_assoc]

/-! ### An example -/

theorem exSpells (c : Char) : SpellsOut ['$', 'y', '=', c] ['$', 'y'] := by
  refine ⟨⟨_, rfl⟩, ?_, [], ['=', c], rfl, fun p c h => by simp at h, fun c cs h => ?_⟩
  · intro c hc
    simp only [List.mem_cons, List.not_mem_nil, or_false] at hc
    rcases hc with rfl | rfl <;> refine ⟨by unfold Blank; decide, fun t h => ?_⟩ <;> cases h
  · cases h
    exact fun h => h.2 _ .equals

/-- While a session computes `$x=$y+1`, another one sets `$y` to 1 before the line is recorded, and to 2 afterwards. -/
def exSchedule : List EnvStep :=
  [⟨[.add "$y=1".toList, .setVar ⟨"$y".toList, 1⟩ 1], false⟩,
   ⟨[.add "$y=2".toList, .setVar ⟨"$y".toList, 2⟩ 3], false⟩]

def exAmid : Session :=
  ⟨.default, some ⟨newDb, none, exSchedule, []⟩,
    some { InputHistory.new true with current := [some "$x=$y+1".toList] }, some .new⟩

def exAmidAfter : Session := (calculate ⟨true, 20, List.dedup⟩ table "$x=$y+1".toList exAmid).2

def exAmidDb : SavedData := exAmidAfter.db.getD ⟨newDb, none, [], []⟩

theorem exOrderly : Orderly ([] ++ allOf (recording "$x=$y+1".toList exSchedule) ++ afterwards exSchedule) := by
  have hl : ([] ++ allOf (recording "$x=$y+1".toList exSchedule) ++ afterwards exSchedule) =
      ((((([] ++ [.add "$y=1".toList]) ++ [.setVar ⟨"$y".toList, 1⟩ 1]) ++ [.add "$x=$y+1".toList]) ++
        [.add "$y=2".toList]) ++ [.setVar ⟨"$y".toList, 2⟩ 3]) := by decide +kernel
  rw [hl]
  refine orderly_snoc (orderly_snoc (orderly_snoc (orderly_snoc (orderly_snoc (fun a op b h => by simp at h) ?_) ?_) ?_) ?_) ?_
  · trivial
  · exact ⟨0, "$y=1".toList, rfl, rfl, exSpells _⟩
  · trivial
  · trivial
  · exact ⟨2, "$y=2".toList, rfl, rfl, exSpells _⟩

/-- The session answers 3, and the database has both variables. -/
example : SubmitsAmid "$x=$y+1".toList exAmid ⟨newDb, none, exSchedule, []⟩ ∧ newDb = after [] newDb ∧
    (calculate ⟨true, 20, List.dedup⟩ table "$x=$y+1".toList exAmid).1 = .ok "3".toList ∧ exAmidAfter.db = some exAmidDb ∧
    exAmidDb.db.vars = [⟨"$y".toList, "2".toList, "1".toList, 2⟩, ⟨"$x".toList, "3".toList, "1".toList, 2⟩] ∧
    exAmidDb.db.history.map (·.input) = ["$y=1".toList, "$x=$y+1".toList, "$y=2".toList] := by
  refine ⟨⟨⟨by decide, fun r h => (by cases h), by decide⟩, ⟨_, rfl, by decide +kernel⟩, rfl⟩, ?_,
    by decide +kernel, by decide +kernel, by decide +kernel, by decide +kernel⟩
  simp [after]

end Bcalc
