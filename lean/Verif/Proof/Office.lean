import Verif.Spec.Office
import Verif.Proof.CalculatorCommand
import Verif.Props.Together

/-! # Several calculators: what a line commits on the way -/

namespace Bcalc
open Spec

/-- A piece of a session alone at its database that commits only what it leaves. -/
def Once (s s' : Session) : Prop :=
  ∀ sd, s.db = some sd → sd.env = [] → ∃ sd', s'.db = some sd' ∧ sd'.env = [] ∧
    ∃ new, sd'.commits = sd.commits ++ new ∧ ∀ c ∈ new, c = sd'.db

theorem Once.refl (s : Session) : Once s s := fun sd hd he => ⟨sd, hd, he, [], by simp, by simp⟩

theorem once_run {s s' : Session}
    (h : ∀ sd, s.db = some sd → ∃ (α : Type) (tx : Tx α), s'.db = some (sd.run tx).2) : Once s s' := by
  intro sd hd he
  obtain ⟨α, tx, hd'⟩ := h sd hd
  refine ⟨_, hd', ?_⟩
  rw [run_quiet he]
  rcases tx sd.db with ⟨a, db'⟩ | e | k | _
  · exact ⟨he, [db'], rfl, by simp⟩
  all_goals exact ⟨he, [], by simp, by simp⟩

theorem executeHistcap_once (arguments : Positioned Str) (s : Session) : Once s (executeHistcap arguments s).2 := by
  have hrefl : Once s s := .refl _
  unfold executeHistcap
  rcases (intListArgs arguments.value >>= histcapArgument) with a | e | k | _
  · simp only
    cases hd : s.db with
    | none => exact hrefl
    | some sd =>
      simp only
      cases a with
      | none =>
        simp only
        have hg : Once s { s with db := some sd.getMaxHistorySize.2 } :=
          once_run fun sd' hd' => ⟨Int, selectMeta metaMaxHistorySize, by rw [hd] at hd'; cases hd'; rfl⟩
        rcases hx : sd.getMaxHistorySize with ⟨r, sd'⟩
        rw [hx] at hg
        cases r <;> exact hg
      | some n =>
        simp only
        have hg : Once s { s with db := some (sd.setMaxHistorySize n).2 } := by
          unfold SavedData.setMaxHistorySize
          cases validateMaxHistorySize n with
          | error e => exact fun sd' hd' he => ⟨sd', by rw [hd] at hd'; cases hd'; rfl, he, [], by simp, by simp⟩
          | ok _ => exact once_run fun sd' hd' => ⟨Unit, setMaxHistorySizeTx n, by rw [hd] at hd'; cases hd'; rfl⟩
        rcases hx : sd.setMaxHistorySize n with ⟨r, sd'⟩
        rw [hx] at hg
        cases r <;> exact hg
  all_goals exact hrefl

theorem histcap_once {m : Machine} {ce : CommandExecutor} {id : Option Int} {name arguments : Positioned Str} {s : Session}
    (hr : ce.resolve name.value = some .histcap) : Once s (calculateCommand m ce id name arguments s).2 := by
  have h1 : Once s (ce.executeCommand m name arguments s).2 := by
    unfold CommandExecutor.executeCommand
    rw [hr]
    exact executeHistcap_once arguments s
  rcases hx : ce.executeCommand m name arguments s with ⟨r, s1⟩
  rw [hx] at h1
  unfold calculateCommand St.andThen
  rw [hx]
  cases r with
  | ok r =>
    obtain ⟨out, touched⟩ := r
    have ht : touched = [] := by
      unfold CommandExecutor.executeCommand at hx
      rw [hr] at hx
      exact msg_touched (cmd := .histcap) (by simp) m ce arguments s hx
    subst ht
    simp only
    cases s1.vars <;> exact h1
  | err e => exact h1
  | panic k => exact h1
  | diverge => exact h1

/-- The uses that are noted for these variables. -/
def TouchOf (l : List Str) (i : Int) (op : DbOp) : Prop := ∃ x ∈ l, op = .touch x i

/-- Removing these variables. -/
def ClearOf (l : List Str) (op : DbOp) : Prop := ∃ x ∈ l, op = .clear x

theorem touches_list {l : List Str} {i : Int} : ∀ {ops : List DbOp}, (∀ op ∈ ops, TouchOf l i op) →
    ∃ part : List Str, (∀ x ∈ part, x ∈ l) ∧ ops = part.map (DbOp.touch · i)
  | [], _ => ⟨[], by simp, rfl⟩
  | op :: ops, h => by
    obtain ⟨part, h1, h2⟩ := touches_list fun o ho => h o (List.mem_cons_of_mem _ ho)
    obtain ⟨x, hx, rfl⟩ := h op (List.mem_cons_self ..)
    exact ⟨x :: part, by simpa using ⟨hx, h1⟩, by rw [h2]; rfl⟩

theorem clears_list {l : List Str} : ∀ {ops : List DbOp}, (∀ op ∈ ops, ClearOf l op) →
    ∃ part : List Str, (∀ x ∈ part, x ∈ l) ∧ ops = part.map DbOp.clear
  | [], _ => ⟨[], by simp, rfl⟩
  | op :: ops, h => by
    obtain ⟨part, h1, h2⟩ := clears_list fun o ho => h o (List.mem_cons_of_mem _ ho)
    obtain ⟨x, hx, rfl⟩ := h op (List.mem_cons_self ..)
    exact ⟨x :: part, by simpa using ⟨hx, h1⟩, by rw [h2]; rfl⟩

theorem Rep.touched {st : Store} {db db' : Db} (h : Rep st db) (hne : st.recorded ≠ []) {l : List Str}
    (he : Evolves (TouchOf l st.recorded.length) db db') : ∃ part : List Str, (∀ x ∈ part, x ∈ l) ∧ Rep (st.use part) db' := by
  obtain ⟨ops, h1, rfl⟩ := he
  obtain ⟨part, h2, rfl⟩ := touches_list h1
  refine ⟨part, h2, ?_⟩
  have h3 := h.after (part.map (DbOp.touch · (st.recorded.length : Int)))
  rw [store_touches part st (h.newest hne)] at h3
  exact h3

theorem Rep.cleared {st : Store} {db db' : Db} (h : Rep st db) {l : List Str} (he : Evolves (ClearOf l) db db') :
    ∃ part : List Str, (∀ x ∈ part, x ∈ l) ∧ Rep (st.forget part) db' := by
  obtain ⟨ops, h1, rfl⟩ := he
  obtain ⟨part, h2, rfl⟩ := clears_list h1
  refine ⟨part, h2, ?_⟩
  have h3 := h.after (part.map DbOp.clear)
  rw [store_clears part st] at h3
  exact h3

theorem Spec.Evolves.reachable {own : DbOp → Prop} {db db' : Db} (h : Evolves own db db') (hr : Reachable db) : Reachable db' := by
  obtain ⟨ops, _, rfl⟩ := h
  obtain ⟨ops', rfl⟩ := hr
  exact ⟨ops' ++ ops, by unfold after; rw [List.foldl_append]⟩

/-- A line whose evaluation comes to no end, or that panics, has only noted the uses of variables. -/
theorem tokens_dead {m : Machine} (hm : HashOk m) {c : Calculator} {s s' : Session} {i : Int} {ts : List PTok}
    {r : Outcome Failure Str} (hf : Follows c s) (hv : ValidSettings s.args) (hid : IdOk (some i) s.db)
    (hn : Newest (some i) c.saved) (hne : ∀ st, c.saved = some st → st.recorded ≠ [])
    (hcalc : calculateTokens m (some i) ts s = (r, s')) (hbad : (∃ k, r = .panic k) ∨ r = .diverge) :
    SessRel (TouchOf (variablesOf ts) i) s s' := by
  have hmem : ∀ x, x ∈ m.hashOrder (variableNames ts) ↔ x ∈ variablesOf ts := fun x => hash_mem hm
  obtain ⟨s2, h2, hid2, ha2, hv2, hf2⟩ := sim_use hf hid hn hne (variablesOf ts) _ hmem
  have hn2 := hn.use (variablesOf ts)
  have hne2 := recorded_use hne (variablesOf ts)
  have hrel : SessRel (TouchOf (variablesOf ts) i) s s2 := by
    obtain ⟨vs, hvs⟩ := Option.isSome_iff_exists.1 hf.store
    rw [hvs] at h2
    have := touchAll_db (own := TouchOf (variablesOf ts) i) (some i) (m.hashOrder (variableNames ts))
      (fun x hx j hj => by cases hj; exact ⟨x, (hmem x).1 hx, rfl⟩) s
    simp only at h2
    rw [h2] at this
    exact this
  rw [calculateTokens_after h2] at hcalc
  have hok : ∀ {t : Str} {s3 : Session}, ((.ok t, s3) : Outcome Failure Str × Session) = (r, s') → False := by
    intro t s3 h; cases h; rcases hbad with ⟨k, h⟩ | h <;> cases h
  have herr : ∀ {t : Failure} {s3 : Session}, ((.err t, s3) : Outcome Failure Str × Session) = (r, s') → False := by
    intro t s3 h; cases h; rcases hbad with ⟨k, h⟩ | h <;> cases h
  by_cases hts : ts = []
  · rw [if_pos hts] at hcalc
    exact (hok hcalc).elim
  · rw [if_neg hts] at hcalc
    rcases C12_total ts with ⟨tree, hn⟩ | ⟨er, hn⟩
    · rw [hn] at hcalc
      simp only [Outcome.mapErr, St.lift, St.andThen] at hcalc
      unfold executeTree SyntaxTree.execute St.andThen at hcalc
      obtain ⟨env, he, hid3, hvs3, hf3⟩ := sim_execute (m := m) hf2 hid2 tree.root
      have henv : (⟨s2.vars, s2.db⟩ : Env) = s2.env := rfl
      have hdb := execute_db (TouchOf (variablesOf ts) i) m s2.args tree.root s2.env
      rw [he] at hdb
      have hrel2 : SessRel (TouchOf (variablesOf ts) i) s { s2 with vars := env.vars, db := env.db } :=
        OptRel.trans hrel hdb
      rw [henv, he] at hcalc
      cases hr : tree.root.pure m s2.args true (c.use (variablesOf ts)).finds with
      | panic k =>
        rw [hr] at hcalc
        cases hcalc
        exact hrel2
      | diverge =>
        rw [hr] at hcalc
        cases hcalc
        exact hrel2
      | err f =>
        rw [hr] at hcalc
        exact (herr hcalc).elim
      | ok v =>
        rw [hr] at hcalc
        have hva : ValidSettings s2.args := by rw [ha2]; exact hv
        obtain ⟨text, ht, hd⟩ := displayResult_written s2.args (outputRadix_valid hva).1 (outputRadix_valid hva).2 v
        cases htv : tree.resultVar with
        | none =>
          rw [htv] at hcalc
          simp only [ht] at hcalc
          exact (hok hcalc).elim
        | some x =>
          rw [htv] at hcalc
          cases hev : env.vars with
          | none => rw [hev] at hvs3; cases hvs3
          | some vs =>
            obtain ⟨db', hu, hf4⟩ := sim_assign hf3 hid3 hn2 hne2 (vs := vs) hev x.value v
            simp only [hev, hu, ht] at hcalc
            exact (hok hcalc).elim
    · rw [hn] at hcalc
      exact (herr hcalc).elim

/-- A piece of a session alone at its database that changes nothing. -/
def Idle (s s' : Session) : Prop :=
  ∀ sd, s.db = some sd → sd.env = [] → ∃ sd', s'.db = some sd' ∧ sd'.env = [] ∧ sd'.db = sd.db ∧
    ∃ new, sd'.commits = sd.commits ++ new ∧ ∀ c ∈ new, c = sd.db

/-- A piece of a session alone at its database that commits only what it found and what it leaves. -/
def Steady (s s' : Session) : Prop :=
  ∀ sd, s.db = some sd → sd.env = [] → ∃ sd', s'.db = some sd' ∧ sd'.env = [] ∧
    ∃ new, sd'.commits = sd.commits ++ new ∧ ∀ c ∈ new, c = sd.db ∨ c = sd'.db

theorem Once.steady {s s' : Session} (h : Once s s') : Steady s s' := by
  intro sd hd he
  obtain ⟨sd', h1, h2, new, h3, h4⟩ := h sd hd he
  exact ⟨sd', h1, h2, new, h3, fun c hc => .inr (h4 c hc)⟩

theorem Steady.refl (s : Session) : Steady s s := (Once.refl s).steady

theorem Idle.then {s1 s2 s3 : Session} (h : Idle s1 s2) (h' : Once s2 s3) : Steady s1 s3 := by
  intro sd hd he
  obtain ⟨sd2, h1, h2, h3, new, h4, h5⟩ := h sd hd he
  obtain ⟨sd3, k1, k2, new', k4, k5⟩ := h' sd2 h1 h2
  refine ⟨sd3, k1, k2, new ++ new', by rw [k4, h4, List.append_assoc], fun c hc => ?_⟩
  rcases List.mem_append.1 hc with hc | hc
  · exact .inl (h5 c hc)
  · exact .inr (k5 c hc)

theorem idle_of_rel {s s' : Session} (h : SessRel (fun _ => False) s s') : Idle s s' := by
  intro sd hd he
  unfold SessRel at h
  rw [hd] at h
  obtain ⟨sd', hd', hrel⟩ := h.some_left
  obtain ⟨new, hn, hc⟩ := hrel.quiet_commits he
  obtain ⟨he', hev⟩ := hrel.quiet he
  have same : ∀ {db : Db}, Evolves (fun _ => False) sd.db db → db = sd.db := by
    rintro db ⟨ops, h1, rfl⟩
    cases ops with
    | nil => rfl
    | cons op ops => exact (h1 op (List.mem_cons_self ..)).elim
  exact ⟨sd', hd', he', same hev, new, hn, fun c hm => same (hc c hm).1⟩

theorem executeTree_steady (m : Machine) (tree : SyntaxTree) (id : Option Int) (s : Session) :
    Steady s (executeTree m tree id s).2 := by
  have h1 := execute_db (fun _ => False) m s.args tree.root ⟨s.vars, s.db⟩
  rcases hx : tree.root.execute m s.args ⟨s.vars, s.db⟩ with ⟨r, env⟩
  rw [hx] at h1
  simp only at h1
  have hs : Idle s { s with vars := env.vars, db := env.db } := idle_of_rel h1
  have hs' : Steady s { s with vars := env.vars, db := env.db } := hs.then (Once.refl _)
  unfold executeTree
  simp only
  unfold SyntaxTree.execute St.andThen
  rw [hx]
  cases r with
  | ok v =>
    simp only
    cases hr : tree.resultVar with
    | none => exact hs'
    | some x =>
      simp only
      obtain ⟨vars, db⟩ := env
      cases vars with
      | none => exact hs'
      | some vs =>
        simp only at hs ⊢
        refine hs.then ?_
        rcases hu : vs.update ⟨x.value, v⟩ id db with ⟨r, vs', db'⟩
        have hdb : db' = (vs.update ⟨x.value, v⟩ id db).2.2 := by rw [hu]
        have hg : Once { s with vars := some vs, db := db } { s with vars := some vs', db := db' } := by
          cases db with
          | none => intro sd hd; cases hd
          | some sd =>
            cases id with
            | none =>
              have : db' = some sd := hdb
              subst this
              exact fun sd' hd he => ⟨sd', hd, he, [], by simp, by simp⟩
            | some i =>
              refine once_run fun sd' hd => ⟨Unit, setVariableTx ⟨x.value, v⟩ i, ?_⟩
              simp only [Option.some.injEq] at hd
              subst hd
              exact hdb
        cases r <;> exact hg
  | err e => exact hs'
  | panic k => exact hs'
  | diverge => exact hs'

/-- Any line: what it commits until the uses of variables are noted, and the rest. -/
theorem tokens_commits {m : Machine} (hm : HashOk m) {s s' : Session} {i : Int} {ts : List PTok}
    {r : Outcome Failure Str} {sd : SavedData} (hd : s.db = some sd) (hq : sd.env = [])
    (hcalc : calculateTokens m (some i) ts s = (r, s')) :
    ∃ sd' new, s'.db = some sd' ∧ sd'.commits = sd.commits ++ new ∧
      ∀ db ∈ new, Evolves (TouchOf (variablesOf ts) i) sd.db db ∨ db = sd'.db := by
  have hmem : ∀ x, x ∈ m.hashOrder (variableNames ts) ↔ x ∈ variablesOf ts := fun x => hash_mem hm
  have h1 : SessRel (TouchOf (variablesOf ts) i) s ((match s.vars with
      | some _ => touchAll (some i) (m.hashOrder (variableNames ts))
      | none => fun s => (.ok (), s) : Sess Unit) s).2 := by
    cases s.vars with
    | none => exact SessRel.refl _ _
    | some vs =>
      exact touchAll_db (own := TouchOf (variablesOf ts) i) (some i) (m.hashOrder (variableNames ts))
        (fun x hx j hj => by cases hj; exact ⟨x, (hmem x).1 hx, rfl⟩) s
  rcases hx : (match s.vars with
      | some _ => touchAll (some i) (m.hashOrder (variableNames ts))
      | none => fun s => (.ok (), s) : Sess Unit) s with ⟨r1, s1⟩
  rw [hx] at h1
  unfold SessRel at h1
  rw [hd] at h1
  obtain ⟨sd1, hd1, hrel⟩ := h1.some_left
  obtain ⟨new, hn, hc⟩ := hrel.quiet_commits hq
  obtain ⟨hq1, hev⟩ := hrel.quiet hq
  have hrest : Steady s1 s' := by
    have hcalc : St.andThen (match s.vars with
        | some _ => touchAll (some i) (m.hashOrder (variableNames ts))
        | none => fun s => (.ok (), s) : Sess Unit) (fun _ => if ts = [] then (fun s => (.ok [], s)) else
        (St.lift (Outcome.mapErr Failure.ofSyntax (SyntaxTree.new ts))).andThen fun tree =>
          (executeTree m tree (some i)).andThen fun result s => (displayResult s.args result, s)) s = (r, s') := hcalc
    unfold St.andThen at hcalc
    rw [hx] at hcalc
    cases r1 with
    | ok u =>
      simp only at hcalc
      by_cases hts : ts = []
      · rw [if_pos hts] at hcalc
        cases hcalc
        exact Steady.refl _
      · rw [if_neg hts] at hcalc
        rcases C12_total ts with ⟨tree, hn⟩ | ⟨er, hn⟩
        · rw [hn] at hcalc
          simp only [Outcome.mapErr, St.lift] at hcalc
          have := executeTree_steady m tree (some i) s1
          rcases he : executeTree m tree (some i) s1 with ⟨r2, s2⟩
          rw [he] at this hcalc
          cases r2 <;> cases hcalc <;> exact this
        · rw [hn] at hcalc
          cases hcalc
          exact Steady.refl _
    | err e => cases hcalc; exact Steady.refl _
    | panic k => cases hcalc; exact Steady.refl _
    | diverge => cases hcalc; exact Steady.refl _
  obtain ⟨sd', k1, _, new', k3, k4⟩ := hrest sd1 hd1 hq1
  refine ⟨sd', new ++ new', k1, by rw [k3, hn, List.append_assoc], fun db hdb => ?_⟩
  rcases List.mem_append.1 hdb with h | h
  · exact .inl (hc db h).1
  · rcases k4 db h with rfl | h
    · exact .inl hev
    · exact .inr h

theorem evolves_none {own : DbOp → Prop} {db db' : Db} (h : Evolves own db db') (hno : ∀ op, ¬ own op) : db' = db := by
  obtain ⟨ops, h1, rfl⟩ := h
  cases ops with
  | nil => rfl
  | cons op ops => exact (hno op (h1 op (List.mem_cons_self ..))).elim

/-- What a process leaves that dies after it has recorded a line. -/
theorem sim_dies {m : Machine} (hm : HashOk m) {line : Str} {s s' : Session} {c : Calculator} (h : Ready s line)
    (hf : Follows c s) (hv : ValidSettings s.args) {r : Outcome Failure Str} (hcalc : calculate m table line s = (r, s'))
    {sd sd' : SavedData} (hd : s.db = some sd) (hd' : s'.db = some sd') {new : List Db}
    (hnew : sd'.commits = sd.commits ++ new) {db : Db} (hdb : db ∈ new) :
    ∃ st, Interrupted (evaluator m) c line st ∧ Rep st db ∧ Reachable db := by
  obtain ⟨id, s1, h1, ha1, hv1, hid1, hf1, hn1, hne1⟩ := sim_record h hf
  obtain ⟨hist, hi, hcur⟩ := h.inputs
  have hq := h.quiet sd hd
  obtain ⟨i, hrec⟩ := recordInput_quiet hi hcur hd (h.reachable sd hd) h.quiet
  rw [h1] at hrec
  simp only [Prod.mk.injEq, Outcome.ok.injEq] at hrec
  obtain ⟨rfl, hs1⟩ := hrec
  generalize hA : (DbOp.add line).apply sd.db = A at hs1
  have hd1 : s1.db = some { sd with db := A, commits := sd.commits ++ [A] } := by rw [hs1]
  have hsv := hf1.saved
  rw [hd1] at hsv
  cases hc1 : (c.record line).saved with
  | none => rw [hc1] at hsv; exact hsv.elim
  | some st0 =>
    rw [hc1] at hsv hn1
    obtain ⟨hrep, _, hr⟩ := hsv
    have hne := hne1 st0 hc1
    unfold Newest at hn1
    simp only [Option.map_some, Option.some.injEq] at hn1
    subst hn1
    simp only at hrep hr
    -- what is left, in each of the three ways
    have first : db = A → ∃ st, Interrupted (evaluator m) c line st ∧ Rep st db ∧ Reachable db := by
      rintro rfl; exact ⟨st0, .recorded hc1, hrep, hr⟩
    have last : ∀ c', Enters (evaluator m) c line r c' → Follows c' s' → db = sd'.db →
        ∃ st, Interrupted (evaluator m) c line st ∧ Rep st db ∧ Reachable db := by
      rintro c' he hf' rfl
      have hsv := hf'.saved
      rw [hd'] at hsv
      cases hc : c'.saved with
      | none => rw [hc] at hsv; exact hsv.elim
      | some st =>
        rw [hc] at hsv
        exact ⟨st, .finished he hc, hsv.1, hsv.2.2⟩
    -- what is committed after the recording
    have rest : ∀ new' : List Db, sd'.commits = (sd.commits ++ [A]) ++ new' → db = A ∨ db ∈ new' := by
      intro new' h2
      rw [hnew, List.append_assoc, List.append_cancel_left_eq] at h2
      rw [h2] at hdb
      rcases List.mem_append.1 hdb with h | h
      · exact .inl (List.mem_singleton.1 h)
      · exact .inr h
    have of_rel : ∀ own, SessRel own s1 s' → db = A ∨ Evolves own A db := by
      intro own hrel
      unfold SessRel at hrel
      rw [hd1, hd'] at hrel
      obtain ⟨new', hn', hc'⟩ := SdRel.quiet_commits hrel hq
      rcases rest new' hn' with h | h
      · exact .inl h
      · exact .inr (hc' db h).1
    have hcalc0 := hcalc
    rw [calculate_eq, andThen_of_ok h1] at hcalc
    unfold afterRecording at hcalc
    have hset : s.args = c.settings := hf.settings
    rw [ha1] at hcalc
    rcases tokenize_spec hv.radix.1 hv.radix.2 line with ⟨i, hi, _, e⟩ | ⟨ha, p, hp, hc', e⟩ |
      ⟨hasc, hcl, ⟨ts, e, hl⟩ | ⟨w, st, e, hb, _⟩⟩
    · rw [e] at hcalc
      cases hcalc
      rcases of_rel (fun _ => False) (SessRel.refl _ _) with h | h
      · exact first h
      · exact first (evolves_none h fun _ => id)
    · rcases p with ts | ⟨name, arguments⟩
      · exact absurd hp (extract_tokens line ts)
      · rw [e] at hcalc
        simp only at hcalc
        have hrel := calculateCommand_db m table (some (st0.recorded.length : Int)) name arguments s1
        rw [hcalc] at hrel
        simp only at hrel
        cases hres : table.resolve name.value with
        | none =>
          rcases of_rel _ hrel with h | h
          · exact first h
          · refine first (evolves_none h ?_)
            rintro op (⟨cmd, h2, _⟩ | ⟨x, j, _, ⟨h2, _⟩, _⟩) <;> rw [hres] at h2 <;> cases h2
        | some cmd =>
          have hcmd : IsCommand line cmd arguments.value :=
            (isCommand_iff s.args.radix).2 ⟨name.value, name.position, arguments.position, e, hres⟩
          by_cases hh : cmd = .histcap
          · subst hh
            have hon := histcap_once (m := m) (id := some (st0.recorded.length : Int)) (arguments := arguments) (s := s1) hres
            rw [hcalc] at hon
            obtain ⟨sd2, k1, _, new', k3, k4⟩ := hon _ hd1 hq
            rw [hd'] at k1
            cases k1
            rcases rest new' k3 with h | h
            · exact first h
            · obtain ⟨c', h2, h3⟩ := sim_command hm ‹Ready s line› hf hcmd hcalc0
              exact last c' h2 h3 (k4 db h)
          · rcases of_rel _ hrel with h | h
            · exact first h
            · cases hts : tokenizeVariableList arguments.value with
              | ok ns =>
                have hvars := variables_of_list hts
                by_cases hp : cmd = .purgeVar
                · subst hp
                  have h2 : Evolves (ClearOf (ns.map (·.value))) A db := h.mono fun op ho => by
                    rcases ho with ⟨cmd, h2, ⟨_, ts, h3, x, h4, rfl⟩ | ⟨rfl, _⟩⟩ | ⟨x, j, _, ⟨h2, _⟩, _⟩
                    · rw [hts] at h3
                      cases h3
                      exact ⟨x, (hash_mem hm).1 h4, rfl⟩
                    · rw [hres] at h2; cases h2
                    · rw [hres] at h2; cases h2
                  obtain ⟨part, h3, h4⟩ := hrep.cleared h2
                  exact ⟨_, .forgotten hc1 hcmd hvars h3, h4, h2.reachable hr⟩
                · by_cases hl : cmd = .reloadVar
                  · subst hl
                    have h2 : Evolves (TouchOf (ns.map (·.value)) st0.recorded.length) A db := h.mono fun op ho => by
                      rcases ho with ⟨cmd, h2, ⟨rfl, _⟩ | ⟨rfl, _⟩⟩ | ⟨x, j, h1, ⟨h2, ts, h3, h4⟩, rfl⟩
                      · rw [hres] at h2; cases h2
                      · rw [hres] at h2; cases h2
                      · cases h1
                        rw [hts] at h3
                        cases h3
                        exact ⟨x, (hash_mem hm).1 h4, rfl⟩
                    obtain ⟨part, h3, h4⟩ := hrep.touched hne h2
                    exact ⟨_, .reloaded hc1 hcmd hvars h3, h4, h2.reachable hr⟩
                  · refine first (evolves_none h ?_)
                    rintro op (⟨cmd', h2, ⟨rfl, _⟩ | ⟨rfl, _⟩⟩ | ⟨x, j, _, ⟨h2, _⟩, _⟩)
                    · rw [hres] at h2; cases h2; exact hp rfl
                    · rw [hres] at h2; cases h2; exact hh rfl
                    · rw [hres] at h2; cases h2; exact hl rfl
              | _ =>
                refine first (evolves_none h ?_)
                rintro op (⟨cmd', h2, ⟨rfl, ts, h3, _⟩ | ⟨rfl, _⟩⟩ | ⟨x, j, _, ⟨h2, ts, h3, _⟩, _⟩)
                · rw [hts] at h3; cases h3
                · rw [hres] at h2; cases h2; exact hh rfl
                · rw [hts] at h3; cases h3
    · rw [e] at hcalc
      simp only at hcalc
      have hlex : Lexes c.settings.radix 0 line ts := by rw [← hset]; exact (hl ts).2 rfl
      have used : Evolves (TouchOf (variablesOf ts) st0.recorded.length) A db →
          ∃ st, Interrupted (evaluator m) c line st ∧ Rep st db ∧ Reachable db := by
        intro h2
        obtain ⟨part, h3, h4⟩ := hrep.touched hne h2
        exact ⟨_, .used hc1 hasc hcl hlex h3, h4, h2.reachable hr⟩
      by_cases hbad : (∃ k, r = .panic k) ∨ r = .diverge
      · have hrel := tokens_dead hm hf1 (by rw [ha1]; exact hv) hid1 (by rw [hc1]; rfl) hne1 hcalc hbad
        rcases of_rel _ hrel with h | h
        · exact first h
        · exact used h
      · obtain ⟨sd2, new', k1, k2, k3⟩ := tokens_commits hm hd1 hq hcalc
        rw [hd'] at k1
        cases k1
        rcases rest new' k2 with h | h
        · exact first h
        · rcases k3 db h with h | h
          · exact used h
          · obtain ⟨c', h2, h3⟩ := sim_step hm ‹Ready s line› hf hv hcalc0 (fun k hk => hbad (.inl ⟨k, hk⟩))
              (fun hk => hbad (.inr hk))
            exact last c' h2 h3 h
    · rw [e] at hcalc
      cases hcalc
      rcases of_rel (fun _ => False) (SessRel.refl _ _) with h | h
      · exact first h
      · exact first (evolves_none h fun _ => id)

end Bcalc
