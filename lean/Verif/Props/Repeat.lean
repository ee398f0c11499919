import Verif.Proof.Independent
import Verif.Props.Independent
import Verif.Props.Sessions
import Verif.Props.Conversation

/-! # C104: asked again, answered again -/

namespace Bcalc
open Spec

theorem touch_apply {db : Db} {i : Int} (hf : db.fkOk = true) (hi : db.hasId i = true) (x : Str) :
    (DbOp.touch x i).apply db = marked [x] i db := by
  have : touchVariableTx x i db = .ok ((), marked [x] i db) := by
    unfold touchVariableTx exec
    have hfk := fkOk_marked (l := [x]) hf hi
    unfold marked at hfk ⊢
    simp only [List.mem_singleton] at hfk ⊢
    simp only [hfk, if_true]
  exact commit_ok this

theorem touches_apply {i : Int} : ∀ (l : List Str) {db : Db} (_ : db.fkOk = true) (_ : db.hasId i = true),
    after (l.map (DbOp.touch · i)) db = marked l i db
  | [], db, hf, hi => (marked_nil i db).symm
  | x :: l, db, hf, hi => by
    have h1 : after ((x :: l).map (DbOp.touch · i)) db = after (l.map (DbOp.touch · i)) ((DbOp.touch x i).apply db) := rfl
    rw [h1, touch_apply hf hi, touches_apply l (fkOk_marked hf hi) hi, marked_marked]

/-- What a line that is not a command found in the database, the next line finds too. -/
theorem stored_again {db : Db} (hr : Reachable db) {line line' : Str} {i : Int} {A : Db}
    (ha : addToInputHistoryTx line db = .ok (i, A)) (l : List Str) {x : Str} (hx : x ∈ l) {q : Rat}
    (hs : Stored (marked l i A) x q) : Stored ((DbOp.add line').apply (marked l i A)) x q := by
  obtain ⟨st, hst⟩ := hr.rep
  obtain ⟨A', hA, hrepA⟩ := hst.add line
  rw [ha] at hA
  simp only [Outcome.ok.injEq, Prod.mk.injEq] at hA
  obtain ⟨hi, rfl⟩ := hA
  have hhas : A.hasId i = true := by
    rw [hasId_iff, hrepA.mem_ids]
    have h1 := hrepA.wf.capPos
    have h2 := hrepA.le_len
    unfold Store.step Store.trim at h1 h2 ⊢
    unfold Store.Has
    simp only [List.length_append, List.length_singleton] at h1 h2 ⊢
    omega
  have hfk : A.fkOk = true := (fkOk_iff A).2 hrepA.wf.fk
  obtain ⟨st', hrep', g1, g2, g3⟩ := ownOps_shape (i := i) (l.map (DbOp.touch · i)) hrepA (by
    intro op hop
    obtain ⟨y, _, rfl⟩ := List.mem_map.1 hop
    exact .inl ⟨y, rfl⟩)
  rw [touches_apply l hfk hhas] at hrep'
  obtain ⟨row, hrow, hn, hnum, hden⟩ := hs
  have hrow0 := hrow
  unfold marked at hrow
  obtain ⟨row0, hrow0A, hre⟩ := List.mem_map.1 hrow
  have hname : row0.name = x := by
    by_cases hm : row0.name ∈ l
    · rw [if_pos hm] at hre; rw [← hn, ← hre]
    · rw [if_neg hm] at hre; rw [← hn, ← hre]
  rw [if_pos (hname ▸ hx)] at hre
  have hlast : row.lastUsedBy = i := by rw [← hre]
  have hv : st'.vars x = some (q, i) := (hrep'.vars x q i).2 ⟨row, hrow0, hn, hnum, hden, hlast⟩
  have hvA : (st.step (.add line)).vars x = some (q, row0.lastUsedBy) :=
    (hrepA.vars x q _).2 ⟨row0, hrow0A, hname, by rw [← hnum, ← hre], by rw [← hden, ← hre], rfl⟩
  -- the capacity is at least two
  have hcap : 2 ≤ st.cap := by
    by_contra hlt
    have hpos := hst.wf.capPos
    unfold Store.step Store.trim at hvA
    simp only at hvA
    cases hx0 : st.vars x with
    | none => rw [hx0] at hvA; cases hvA
    | some qi =>
      obtain ⟨q', j⟩ := qi
      rw [hx0] at hvA
      simp only at hvA
      split at hvA
      · rename_i hH
        simp only [Option.some.injEq, Prod.mk.injEq] at hvA
        obtain ⟨_, rfl⟩ := hvA
        obtain ⟨r0, hr0, _, _, _, hr4⟩ := (hst.vars x q' row0.lastUsedBy).1 hx0
        obtain ⟨hr1, hr2, hr3⟩ := C49_alive db hr r0 hr0
        have hm : row0.lastUsedBy ∈ db.ids := by
          unfold Db.ids
          exact List.mem_map.2 ⟨hr1, hr2, hr3.trans hr4⟩
        rw [hst.mem_ids] at hm
        unfold Store.Has at hH hm
        simp only [List.length_append, List.length_singleton] at hH
        omega
      · cases hvA
  have hkept : 1 ≤ st'.kept := by
    refine hrep'.pos ?_
    rw [g1]
    unfold Store.step Store.trim
    simp
  have hrep'' := hrep'.step (.add line')
  have hv' : (st'.step (.add line')).vars x = some (q, i) := by
    unfold Store.step Store.trim
    simp only
    rw [hv]
    simp only
    rw [if_pos]
    unfold Store.Has
    have c1 : st'.cap = st.cap := g2
    have c2 : st'.recorded.length = st.recorded.length + 1 := by
      rw [g1]; unfold Store.step Store.trim; simp
    simp only [List.length_append, List.length_singleton]
    rw [c2]
    omega
  obtain ⟨r, h1, h2, h3, h4, _⟩ := (hrep''.vars x q i).1 hv'
  exact ⟨r, h1, h2, h3, h4⟩

/-- What is in the database after a line that assigns nothing. -/
theorem traceless_db {m : Machine} {ce : CommandExecutor} {line : Str} {s t : Session} {r : Outcome Failure Str}
    (h : Ready s line) (hv : ValidSettings s.args) {ts : List PTok}
    (ht : tokenize line s.args.radix = .ok (.tokens ts)) (hc : calculate m ce line s = (r, t))
    (hi : Traceless s.args.radix line r) {sd : SavedData} (hd : s.db = some sd) :
    ∃ i A sdt, addToInputHistoryTx line sd.db = .ok (i, A) ∧ t.db = some sdt ∧
      sdt.db = marked (m.hashOrder (variableNames ts)) i A := by
  obtain ⟨hist, hin, hcur⟩ := h.inputs
  have hreach := h.reachable sd hd
  obtain ⟨st, hrep⟩ := hreach.rep
  obtain ⟨A, hx, hrepA⟩ := hrep.add line
  have hdb' : (DbOp.add line).apply sd.db = A := commit_ok hx
  obtain ⟨j, hj⟩ := recordInput_quiet hin hcur hd hreach h.quiet
  have hij : j = (st.recorded.length : Int) + 1 := by
    obtain ⟨sd1, _, g2, g3⟩ := recordInput_cases hin hcur hd
    unfold SavedData.addToInputHistory at g2 g3
    rw [run_quiet (h.quiet sd hd), hx, hj] at g3
    simp only [Outcome.ok.injEq, Option.some.injEq] at g3
    exact g3
  have hid := recorded_idOk (.inl (by rw [hin]; rfl)) h.quiet h.reachable hj
  rw [← hij] at hx
  rw [hdb'] at hj hid
  refine ⟨j, A, ?_⟩
  rw [calculate_eq, andThen_of_ok hj] at hc
  unfold afterRecording at hc
  simp only [ht] at hc
  obtain ⟨hq1, hr1, j', hj', hhas⟩ := hid
  cases hj'
  simp only at hq1 hr1 hhas
  have hvs := h.vars
  obtain ⟨c, htouch⟩ := touchAll_quiet (m.hashOrder (variableNames ts)) (i := j) (s := { s with
      inputs := some { hist with internal := hist.internal ++ [line], current := [some []], index := 0 }
      db := some { sd with db := A, commits := sd.commits ++ [A] } }) rfl hq1 (reachable_fk hr1) hhas hvs
  simp only at htouch
  generalize hS2 : ({ s with
      inputs := some { hist with internal := hist.internal ++ [line], current := [some []], index := 0 }
      db := some { sd with db := marked (m.hashOrder (variableNames ts)) j A, commits := c } } : Session) = s2 at htouch
  have hd2 : ∃ sd2, s2.db = some sd2 ∧ sd2.db = marked (m.hashOrder (variableNames ts)) j A := by
    rw [← hS2]; exact ⟨_, rfl, rfl⟩
  have ha2 : s2.args = s.args := by rw [← hS2]
  have hv2 : s2.vars = s.vars := by rw [← hS2]
  have hq2 : EnvQuiet s2.env := by
    intro sd2 hsd2
    rw [← hS2] at hsd2
    unfold Session.env at hsd2
    cases hsd2
    refine ⟨hq1, ?_⟩
    rw [← touches_apply _ (reachable_fk hr1) hhas]
    obtain ⟨ops, hops⟩ := hr1
    exact ⟨ops ++ _, by rw [after_append, ← hops]⟩
  have hid2 : IdOk (some j) s2.db := by
    rw [← hS2]
    refine ⟨hq1, (hq2 _ (by rw [← hS2]; rfl)).2, j, rfl, hhas⟩
  clear hS2
  rw [calculateTokens_after (s2 := s2) (by
    simp only
    cases hvv : s.vars with
    | none => rw [hvv] at hvs; cases hvs
    | some vs => simp only; rw [← htouch, hvv])] at hc
  obtain ⟨sd2, hsd2, hsd2'⟩ := hd2
  have done : t = s2 → ∃ sdt, addToInputHistoryTx line sd.db = .ok (j, A) ∧ t.db = some sdt ∧
      sdt.db = marked (m.hashOrder (variableNames ts)) j A := fun e => ⟨sd2, hx, e ▸ hsd2, hsd2'⟩
  by_cases hts : ts = []
  · rw [if_pos hts] at hc
    exact done (Prod.mk.inj hc).2.symm
  rw [if_neg hts] at hc
  cases hn : SyntaxTree.new ts with
  | err e => rw [hn] at hc; exact done (Prod.mk.inj hc).2.symm
  | panic k => rw [hn] at hc; exact done (Prod.mk.inj hc).2.symm
  | diverge => rw [hn] at hc; exact done (Prod.mk.inj hc).2.symm
  | ok tree =>
    rw [hn] at hc
    simp only [Outcome.mapErr, St.lift, St.andThen] at hc
    have hkept := execute_kept m s2.args tree.root s2.env hq2
    obtain ⟨hq3, hdb3⟩ := hkept
    have henv : (⟨s2.vars, s2.db⟩ : Env) = s2.env := rfl
    have fin : ∀ env, (tree.root.execute m s2.args s2.env).2 = env → t.db = env.db →
        ∃ sdt, addToInputHistoryTx line sd.db = .ok (j, A) ∧ t.db = some sdt ∧
          sdt.db = marked (m.hashOrder (variableNames ts)) j A := by
      intro env he ht
      rw [he] at hdb3
      have : s2.env.db = some sd2 := hsd2
      rw [this] at hdb3
      cases hdd : env.db with
      | none => rw [hdd] at hdb3; cases hdb3
      | some sd3 =>
        rw [hdd] at hdb3
        simp only [Option.map_some, Option.some.injEq] at hdb3
        exact ⟨sd3, hx, by rw [ht, hdd], by rw [hdb3, hsd2']⟩
    unfold executeTree SyntaxTree.execute St.andThen at hc
    rw [henv] at hc
    rcases he : tree.root.execute m s2.args s2.env with ⟨r1, env⟩
    rw [he] at hc
    have hkid : IdOk (some j) env.db := by
      have := execute_kept m s2.args tree.root s2.env
      rw [he] at this
      exact IdOk.kept (vars := s2.vars) hid2 this
    have hsome : env.vars.isSome = true := by
      have := execute_sight m s2.args tree.root s2.env
      rw [he] at this
      rw [(this hq2).2.1]
      show s2.vars.isSome = true
      rw [hv2]; exact hvs
    cases r1 with
    | ok v =>
      simp only at hc
      cases htv : tree.resultVar with
      | none =>
        rw [htv] at hc
        simp only at hc
        have h3 := (Prod.mk.inj hc).2
        exact fin env (by rw [he]) (by rw [← h3])
      | some x =>
        exfalso
        rw [htv] at hc
        simp only at hc
        cases hev : env.vars with
        | none => rw [hev] at hsome; cases hsome
        | some vs =>
          rw [hev] at hc
          obtain ⟨db', hu, _, _⟩ := update_seen hkid vs ⟨x.value, v⟩
          simp only [hu] at hc
          obtain ⟨text, hdisp, _⟩ := displays_of_display s2.args (ha2 ▸ hv) v
          rw [hdisp] at hc
          have hr := (Prod.mk.inj hc).1
          have hinp : Input ts (some x) tree.root := by
            refine (C10_parser_iff_grammar ts ⟨some x, tree.root⟩).1 ?_
            rw [hn, ← htv]
          rcases hi with ⟨e, he⟩ | ⟨_, hna⟩
          · rw [he] at hr; cases hr
          · exact hna _ (input_assigns ht hinp)
    | err e =>
      simp only at hc
      have h3 := (Prod.mk.inj hc).2
      exact fin env (by rw [he]) (by rw [← h3])
    | panic k =>
      simp only at hc
      have h3 := (Prod.mk.inj hc).2
      exact fin env (by rw [he]) (by rw [← h3])
    | diverge =>
      simp only at hc
      have h3 := (Prod.mk.inj hc).2
      exact fin env (by rw [he]) (by rw [← h3])

/-- After a line that assigns nothing, the same line finds the same values. -/
theorem again_step {m : Machine} (hm : HashOk m) {ce : CommandExecutor} {line : Str} {s : Session} {ρ : Valuation}
    (h : Ready s line) (hρ : SeenBy s line ρ) (hv : ValidSettings s.args) (hc : ¬ CommandLine line)
    {r : Outcome Failure Str} {t : Session} (hcalc : calculate m ce line s = (r, t))
    (hi : Traceless s.args.radix line r) :
    r = pureAnswer m s.args ρ line ∧ t.args = s.args ∧ Undisturbed t ∧
      ∀ hist : InputHistory, (hist.currentLine : Outcome RuntimeErr Str) = .ok line →
        ∃ ρ', SeenBy { t with inputs := some hist } line ρ' ∧
          pureAnswer m s.args ρ' line = pureAnswer m s.args ρ line := by
  obtain ⟨t', e, ha, hvs, hq, hsee, _⟩ := calculate_pure (m := m) (ce := ce) h hρ hv.radix.1 hv.radix.2 hc
  rw [hcalc] at e
  simp only [Prod.mk.injEq] at e
  obtain ⟨rfl, rfl⟩ := e
  rw [traceless_effect hv hi] at hsee
  have hu := undisturbed_env hvs hq
  refine ⟨rfl, ha, hu, fun hist hhist => ?_⟩
  obtain ⟨ρ', hρ'⟩ := C73_values _ line (hu.ready hhist)
  refine ⟨ρ', hρ', ?_⟩
  cases ht : tokenize line s.args.radix with
  | err e => unfold pureAnswer; rw [ht]
  | panic k => unfold pureAnswer; rw [ht]
  | diverge => unfold pureAnswer; rw [ht]
  | ok tok =>
    cases tok with
    | command => unfold pureAnswer; rw [ht]
    | tokens ts =>
      refine pureAnswer_local m s.args hv.radix.1 hv.radix.2 line fun x hx => ?_
      have hmem : x ∈ m.hashOrder (variableNames ts) := by
        obtain ⟨ts', p, lx, hp⟩ := hx
        have hl := ((C01_tokens_iff _ hv.radix.1 hv.radix.2 line ts).1 ht).2.2
        have : ts' = ts := by
          have h1 := (C01_tokens_iff _ hv.radix.1 hv.radix.2 line ts').2
            ⟨((C01_tokens_iff _ hv.radix.1 hv.radix.2 line ts).1 ht).1, hc, lx⟩
          rw [ht] at h1
          cases h1
          rfl
        subst this
        rw [hash_mem hm]
        unfold variableNames
        exact List.mem_filterMap.2 ⟨_, hp, rfl⟩
      have key : ∀ q, ρ' x = some q ↔ ρ x = some q := by
        intro q
        rw [hρ' x q, hsee x q]
        constructor
        · rintro (h1 | ⟨h1, h2, sd, hd, hst⟩)
          · exact .inl h1
          · exact .inr ⟨h1, h2, sd, hd, stored_apply (by rintro ⟨_, _, h⟩; cases h) hst⟩
        · rintro (h1 | ⟨h1, h2, sd, hd, hst⟩)
          · exact .inl h1
          · refine .inr ⟨h1, h2, sd, hd, ?_⟩
            cases hds : s.db with
            | none =>
              have hk := calculate_db m ce line s
              rw [hcalc] at hk
              unfold SessRel at hk
              have hd' : t.db = some sd := hd
              rw [hds, hd'] at hk
              exact hk.elim
            | some sd0 =>
              obtain ⟨i, A, sdt, g1, g2, g3⟩ := traceless_db h hv ht hcalc hi hds
              have hd' : t.db = some sd := hd
              rw [g2] at hd'
              cases hd'
              rw [g3] at hst ⊢
              exact stored_again (h.reachable sd0 hds) g1 _ hmem hst
      cases hx1 : ρ' x with
      | none =>
        cases hx2 : ρ x with
        | none => rfl
        | some q => rw [(key q).2 hx2] at hx1; cases hx1
      | some q => rw [(key q).1 hx1]

theorem again_all {m : Machine} (hm : HashOk m) {ce : CommandExecutor} {line : Str} (hc : ¬ CommandLine line)
    {args : Args} (hv : ValidSettings args) {r : Outcome Failure Str} (hi : Traceless args.radix line r) :
    ∀ (talk : List (Str × Outcome Failure Str)) {s t : Session}, Undisturbed s → s.args = args →
    (∀ hist : InputHistory, (hist.currentLine : Outcome RuntimeErr Str) = .ok line →
      ∃ ρ, SeenBy { s with inputs := some hist } line ρ ∧ pureAnswer m args ρ line = r) →
    Dialogue m ce s talk t → (∀ p ∈ talk, p.1 = line) → ∀ p ∈ talk, p.2 = r
  | [], s, t, _, _, _, _, _ => by simp
  | (l, r') :: talk, s, t, hs, ha, hρ, hd, hl => by
    have hll : l = line := hl (l, r') (by simp)
    subst hll
    cases hd with
    | @line _ hist _ _ s1 _ _ hcur hcalc hd =>
      obtain ⟨ρ, h1, h2⟩ := hρ hist hcur
      subst ha
      obtain ⟨t', e, _⟩ := calculate_pure (m := m) (ce := ce) (hs.ready hcur) h1 hv.radix.1 hv.radix.2 hc
      rw [hcalc] at e
      have hr : r' = r := by
        have := (Prod.mk.inj e).1
        rw [this]
        exact h2
      subst hr
      obtain ⟨_, g2, g3, g4⟩ := again_step hm (hs.ready hcur) h1 hv hc hcalc hi
      have := again_all hm hc hv hi talk g3 g2 (fun hist' hh => by
        obtain ⟨ρ', k1, k2⟩ := g4 hist' hh
        exact ⟨ρ', k1, k2.trans h2⟩) hd (fun p hp => hl p (by simp [hp]))
      intro p hp
      rcases List.mem_cons.1 hp with rfl | hp
      · rfl
      · exact this p hp

/-- A line that is no command and assigns nothing (or got an error), given again and again, is answered in the same way
each time: in any session, whatever it has loaded of the saved variables, and whatever the capacity of the history (the
line itself being recorded each time, and old inputs, and the variables they used last, being dropped). -/
theorem C104_again (m : Machine) (hm : HashOk m) (ce : CommandExecutor) (s t : Session) (hs : Undisturbed s)
    (hv : ValidSettings s.args) (line : Str) (hc : ¬ CommandLine line) (r : Outcome Failure Str)
    (talk : List (Str × Outcome Failure Str)) (hd : Dialogue m ce s ((line, r) :: talk) t)
    (hi : Traceless s.args.radix line r) (hl : ∀ p ∈ talk, p.1 = line) : ∀ p ∈ talk, p.2 = r := by
  cases hd with
  | @line _ hist _ _ s1 _ _ hcur hcalc hd =>
    obtain ⟨ρ, h1⟩ := C73_values _ line (hs.ready hcur)
    obtain ⟨g1, g2, g3, g4⟩ := again_step hm (hs.ready hcur) h1 hv hc hcalc hi
    have g2' : s1.args = s.args := g2
    exact again_all hm hc hv hi talk g3 g2' (fun hist' hh => by
      obtain ⟨ρ', k1, k2⟩ := g4 hist' hh
      exact ⟨ρ', k1, k2.trans g1.symm⟩) hd hl

theorem converse_dialogue {m : Machine} {ce : CommandExecutor} : ∀ (lines : List Str) {s t : Session}
    {answers : List Shown}, s.inputs.isSome = true → converse m ce s lines = .ok (answers, t) →
    ∃ talk, Dialogue m ce s talk t ∧ talk.map (·.1) = lines ∧ talk.map (shown ·.2) = answers.map .ok
  | [], s, t, answers, _, h => by
    cases h
    exact ⟨[], .done, rfl, rfl⟩
  | line :: lines, s, t, answers, hi, h => by
    unfold converse at h
    obtain ⟨answer, g1, g2⟩ := outcome_bind_ok h
    obtain ⟨⟨rest, t1⟩, g3, g4⟩ := outcome_bind_ok g2
    cases g4
    obtain ⟨i, hin, hcur⟩ := given_offers hi line
    have hgiven : given s line = { s with inputs := some i } := by
      rw [← hin]; rfl
    have hin1 : (calculate m ce line (given s line)).2.inputs.isSome = true := by
      rw [calculate_inputs m ce line hin hcur]; rfl
    obtain ⟨talk, k1, k2, k3⟩ := converse_dialogue lines hin1 g3
    refine ⟨(line, (calculate m ce line (given s line)).1) :: talk, ?_, by simp [k2], by simp [k3, g1]⟩
    exact .line (h := i) hcur (by rw [← hgiven]) k1

/-- At the keyboard: Enter, and then Up and Enter as often as one likes, prints the same answer each time. -/
theorem C104_keyboard (m : Machine) (hm : HashOk m) (ce : CommandExecutor) (e e' : Editor) (h : Awaits m ce e)
    (hu : Undisturbed e.session) (hv : ValidSettings e.args) (line : Str) (hs : Shows e line) (hc : ¬ CommandLine line)
    (ha : ∀ x, ¬ Assigns e.args.radix line x) (mods mods' : Mods) (t t' : TermInfo) (n : Nat) (outs : List StepOut)
    (hr : runEvents m ce e ((Event.key .enter mods, t) ::
      (List.replicate n [(Event.key .up mods', t'), (Event.key .enter mods, t)]).flatten) = .ok (outs, e')) :
    ∃ answer, outs.filterMap (·.output) = List.replicate (n + 1) answer := by
  obtain ⟨s', h1, _⟩ := C103_session m ce e e' h hu.quiet _ outs hr
  rw [C103_recall m ce mods mods' t t' line n e e' outs h hs hr] at h1
  obtain ⟨talk, h2, h3, h4⟩ := converse_dialogue _ rfl h1
  cases talk with
  | nil => cases h3
  | cons p talk =>
    obtain ⟨l, r⟩ := p
    rw [List.map_cons, List.replicate_succ, List.cons.injEq] at h3
    obtain ⟨hl, h3⟩ := h3
    replace hl : l = line := hl
    subst l
    have h5 := C104_again m hm ce e.session s' hu hv line hc r talk h2 (.inr ⟨hc, ha⟩) fun p hp => by
      have : p.1 ∈ talk.map (·.1) := List.mem_map.2 ⟨p, hp, rfl⟩
      rw [h3] at this
      exact List.eq_of_mem_replicate this
    generalize outs.filterMap (·.output) = answers at h4 ⊢
    have hlen : answers.length = n + 1 := by
      have := congrArg List.length h4
      have h3' := congrArg List.length h3
      simp only [List.map_cons, List.length_cons, List.length_map, List.length_replicate] at this h3'
      omega
    cases answers with
    | nil => cases hlen
    | cons a answers =>
      simp only [List.map_cons, List.cons.injEq] at h4
      refine ⟨a, ?_⟩
      rw [List.replicate_succ, List.cons.injEq]
      refine ⟨rfl, List.eq_replicate_iff.2 ⟨by simpa using hlen, ?_⟩⟩
      intro b hb
      have : Outcome.ok b ∈ answers.map (Outcome.ok (ε := RuntimeErr)) := List.mem_map.2 ⟨b, hb, rfl⟩
      rw [← h4.2] at this
      obtain ⟨p, hp, hpe⟩ := List.mem_map.1 this
      rw [h5 p hp, h4.1] at hpe
      cases hpe
      rfl

/-- A database that keeps two inputs, with a saved `$x` that the session has not loaded yet. -/
def exTwo : Db := after [.add "$x = 2/3".toList, .setVar ⟨"$x".toList, 2 / 3⟩ 1, .setCap 2] newDb

/-- The session on it. -/
def exFresh : Session := ⟨.default, some ⟨exTwo, none, [], []⟩, none, some ⟨[]⟩⟩

example : HashOk exForward ∧ Undisturbed exFresh ∧ Stored exTwo "$x".toList (2 / 3) ∧ sessionValue exFresh "$x".toList = none ∧
    (exTalk exForward exFresh (List.replicate 4 "$x * 7".toList)).1 =
      List.replicate 4 ("$x * 7".toList, .ok "4.66667".toList) ∧
    ¬ CommandLine "$x * 7".toList ∧ Traceless 10 "$x * 7".toList (.ok "4.66667".toList) := by
  have h1 : tokenize "$x * 7".toList 10 = .ok (.tokens [⟨.variable "$x".toList, ⟨0, 2⟩⟩, ⟨.binary .multiply, ⟨3, 1⟩⟩, ⟨.number 7, ⟨5, 1⟩⟩]) := by
    decide +kernel
  have h2 := ((C01_tokens_iff 10 (by decide) (by decide) _ _).1 h1).2.1
  refine ⟨fun l => List.Perm.refl _, ⟨rfl, ?_, ?_⟩, ⟨⟨"$x".toList, ['2'], ['3'], 1⟩, by decide +kernel, by decide +kernel⟩,
    by decide +kernel, by decide +kernel, h2, .inr ⟨h2, fun x hx => ?_⟩⟩
  · intro sd h; cases h; exact ⟨_, rfl⟩
  · intro sd h; cases h; rfl
  · obtain ⟨p, q, us, e⟩ := (assigns_of_tokens h1 x).1 hx
    simp at e

end Bcalc
