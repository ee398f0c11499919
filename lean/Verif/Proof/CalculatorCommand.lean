import Verif.Proof.CalculatorLine

/-! # The calculator on one page: commands -/

namespace Bcalc
open Spec

theorem variables_of_list {text : Str} {ns : List (Positioned Str)} (h : tokenizeVariableList text = .ok ns) :
    Variables text (ns.map (·.value)) := by
  obtain ⟨_, h1, ts, h2, h3⟩ := (C09_variable_list_iff text ns).1 h
  refine ⟨h1, ts, h2, ?_⟩
  clear h2 h
  induction h3 with
  | nil => rfl
  | cons h _ ih => simp only [List.map_cons, h.1, ih]

/-- `/histcap` -/
theorem sim_histcap {m : Machine} {ce : CommandExecutor} {c : Calculator} {s s' : Session} {arguments : Positioned Str}
    {text : Str} {touched : List Str} (hs : Follows c s)
    (h : Cmd.execute m ce .histcap arguments s = (.ok (text, touched), s')) :
    touched = [] ∧ ∃ c', c.Does arguments.value .histcap text c' ∧ Follows c' s' := by
  unfold Cmd.execute executeHistcap at h
  simp only at h
  rcases hl : tokenizeIntList arguments.value 10 with l | e | k | _
  · rw [intListArgs_ok hl] at h
    simp only [Outcome.bind_ok] at h
    have hsv := hs.saved
    match l, hl, h with
    | [], hl, h =>
      simp only [histcapArgument] at h
      cases hd : s.db with
      | none => rw [hd] at h; cases h
      | some sd =>
        rw [hd] at h hsv
        cases hc : c.saved with
        | none => rw [hc] at hsv; exact hsv.elim
        | some st =>
          rw [hc] at hsv
          obtain ⟨hrep, hq, hr⟩ := hsv
          have hcap : lookupKey metaMaxHistorySize sd.db.metaInt = some (st.cap : Int) := hrep.wf.hcap
          have hrun : sd.getMaxHistorySize = (.ok (st.cap : Int), { sd with commits := sd.commits ++ [sd.db] }) := by
            unfold SavedData.getMaxHistorySize
            rw [run_quiet hq]
            unfold selectMeta
            simp only [hcap]
          simp only [hrun] at h
          cases h
          refine ⟨rfl, c, ?_, hs.settings, hs.store, hs.values, ?_⟩
          · have hb : ∀ ch ∈ arguments.value, Blank ch := by
              obtain ⟨_, _, ts, h1, h2⟩ := (C08_int_list_iff 10 (by decide) (by decide) _ _).1 hl
              cases h2
              exact blanks_of_lexes h1 rfl
            have := Calculator.Does.capacity (c := c) hc hb
            rw [intDisplay_nat]
            exact this
          · rw [hc]; exact ⟨hrep, hq, hr⟩
    | [i], hl, h =>
      simp only [histcapArgument] at h
      cases hvm : validateMaxHistorySize i.value with
      | error e => rw [hvm] at h; cases h
      | ok u =>
        rw [hvm] at h
        simp only at h
        have hi : 1 ≤ i.value := by
          unfold validateMaxHistorySize at hvm
          split at hvm
          · cases hvm
          · omega
        cases hd : s.db with
        | none => rw [hd] at h; cases h
        | some sd =>
          rw [hd] at h hsv
          cases hc : c.saved with
          | none => rw [hc] at hsv; exact hsv.elim
          | some st =>
            rw [hc] at hsv
            obtain ⟨hrep, hq, hr⟩ := hsv
            obtain ⟨db', hx, hrep'⟩ := hrep.setCap i.value hi
            have hrun : sd.setMaxHistorySize i.value = (.ok (), { sd with db := db', commits := sd.commits ++ [db'] }) := by
              unfold SavedData.setMaxHistorySize
              simp only [hvm]
              rw [run_quiet hq, hx]
            simp only [hrun] at h
            cases h
            obtain ⟨n, hn⟩ := Int.eq_ofNat_of_zero_le (show 0 ≤ i.value by omega)
            have hint : Integers arguments.value [(n : Int)] := by
              have := integers_of_ok hl
              simp only [List.map_cons, List.map_nil, hn] at this
              exact this
            refine ⟨rfl, _, .limit (n := n) (by rw [hc]; rfl) hint (by omega), hs.settings, hs.store, hs.values, ?_⟩
            unfold Calculator.limit
            simp only [hc, Option.map_some]
            refine ⟨?_, hq, ?_⟩
            · have : st.step (.setCap i.value) = { st with cap := n }.trim := by
                unfold Store.step
                simp only
                rw [if_neg (by omega), hn]
                rfl
              rw [this] at hrep'
              exact hrep'
            · have hap : (DbOp.setCap i.value).apply sd.db = db' := by
                unfold DbOp.apply
                simp only [hvm]
                exact commit_ok hx
              show Reachable db'
              rw [← hap]
              exact hr.evolves (Evolves.one (kind := fun _ => True) trivial _)
    | a :: b :: l, hl, h => simp only [histcapArgument] at h; cases h
  all_goals
    unfold intListArgs at h
    rw [hl] at h
    cases h

/-- `/purgevar` -/
theorem sim_purge {m : Machine} (hm : HashOk m) {ce : CommandExecutor} {c : Calculator} {s s' : Session}
    {arguments : Positioned Str} {text : Str} {touched : List Str} (hs : Follows c s)
    (h : Cmd.execute m ce .purgeVar arguments s = (.ok (text, touched), s')) :
    touched = [] ∧ ∃ c', c.Does arguments.value .purgeVar text c' ∧ Follows c' s' := by
  unfold Cmd.execute executePurgeVar at h
  simp only at h
  rcases hl : tokenizeVariableList arguments.value with l | e | k | _
  · rw [hl] at h
    simp only at h
    obtain ⟨vs, hvs⟩ := Option.isSome_iff_exists.1 hs.store
    rw [hvs] at h
    simp only at h
    have hmem : ∀ x, x ∈ m.hashOrder (l.map (·.value)) ↔ x ∈ l.map (·.value) := fun x => hash_mem hm
    have hvar := variables_of_list hl
    generalize l.map (·.value) = names at hmem hvar h
    have hsv := hs.saved
    have hval : ∀ {vs' : VariableStore}, (∀ y, vs'.lookup y = if y ∈ m.hashOrder names then none else vs.lookup y) →
        ∀ x, vs'.lookup x = (c.forget names).values x := by
      intro vs' hv x
      rw [hv x]
      unfold Calculator.forget
      simp only [hmem]
      have := hs.values x
      unfold sessionValue at this
      rw [hvs] at this
      split
      · rfl
      · exact this
    cases hd : s.db with
    | none =>
      rw [hd] at h hsv
      obtain ⟨vs', hp, hv⟩ := purgeLoop_none (m.hashOrder names) vs
      rw [hp] at h
      cases h
      refine ⟨rfl, _, .forget hvar, hs.settings, rfl, hval hv, ?_⟩
      cases hc : c.saved with
      | none => unfold Calculator.forget; simp only [hc]; trivial
      | some st => rw [hc] at hsv; exact hsv.elim
    | some sd =>
      rw [hd] at h hsv
      cases hc : c.saved with
      | none => rw [hc] at hsv; exact hsv.elim
      | some st =>
        rw [hc] at hsv
        obtain ⟨hrep, hq, hr⟩ := hsv
        obtain ⟨vs', cm, hp, hv⟩ := purgeLoop_quiet (m.hashOrder names) vs sd hq (reachable_fk hr)
        rw [hp] at h
        cases h
        refine ⟨rfl, _, .forget hvar, hs.settings, rfl, hval hv, ?_⟩
        unfold Calculator.forget
        simp only [hc, Option.map_some]
        refine ⟨hrep.purged names _ hmem, hq, ?_⟩
        show Reachable (purged _ sd.db)
        rw [← purges_apply _ (reachable_fk hr)]
        obtain ⟨ops, hops⟩ := hr
        exact ⟨ops ++ _, by rw [after_append, ← hops]⟩
  all_goals
    rw [hl] at h
    cases h

theorem reload_texts {st : Store} {db : Db} (hrep : Rep st db) {l texts : List Str} (h : List.Forall₂ (ReloadLine db) l texts) :
    texts = l.map (reloadText st) := by
  induction h with
  | nil => rfl
  | @cons x t _ _ hx _ ih =>
    rw [List.map_cons, ← ih]
    congr 1
    unfold reloadText
    rcases hx with ⟨q, hq, rfl⟩ | ⟨hno', rfl⟩
    · obtain ⟨i, hi⟩ := (hrep.stored x q).1 hq
      rw [hi, fraction_eq]
    · cases hv : st.vars x with
      | none => rfl
      | some v => exact absurd ((hrep.stored x v.1).2 ⟨v.2, hv⟩) (hno' v.1)

/-- `/reloadvar` -/
theorem sim_reload {m : Machine} (hm : HashOk m) {ce : CommandExecutor} {c : Calculator} {s s' : Session}
    {arguments : Positioned Str} {text : Str} {touched : List Str} (hs : Follows c s)
    (h : Cmd.execute m ce .reloadVar arguments s = (.ok (text, touched), s')) :
    ∃ names st, c.saved = some st ∧ (∀ x, x ∈ touched ↔ x ∈ names) ∧
      c.Does arguments.value .reloadVar text ((c.reload st names).use names) ∧ Follows (c.reload st names) s' ∧
      (s'.db.map (·.db) = s.db.map (·.db)) := by
  unfold Cmd.execute executeReloadVar at h
  simp only at h
  rcases hl : tokenizeVariableList arguments.value with l | e | k | _
  · rw [hl] at h
    simp only at h
    obtain ⟨vs, hvs⟩ := Option.isSome_iff_exists.1 hs.store
    have hmem : ∀ x, x ∈ m.hashOrder (l.map (·.value)) ↔ x ∈ l.map (·.value) := fun x => hash_mem hm
    have hnd : (m.hashOrder (l.map (·.value))).Nodup := (hm (l.map (·.value))).nodup_iff.2 (List.nodup_dedup _)
    have hvar := variables_of_list hl
    generalize l.map (·.value) = names at hmem hvar h hnd
    have hsv := hs.saved
    cases hd : s.db with
    | none => rw [hd] at h; cases h
    | some sd =>
      rw [hd, hvs] at h
      rw [hd] at hsv
      simp only at h
      cases hc : c.saved with
      | none => rw [hc] at hsv; exact hsv.elim
      | some st =>
        rw [hc] at hsv
        obtain ⟨hrep, hq, hr⟩ := hsv
        obtain ⟨texts, vs', sd', h1, h2, h3, h4, h5⟩ := reloadLoop_quiet (m.hashOrder names) sd hq hr vs [] []
        rw [h1] at h
        cases h
        have hno : ∀ x, st.vars x = none → ∀ q, ¬ Stored sd.db x q := by
          intro x hx q hq
          obtain ⟨i, hi⟩ := (hrep.stored x q).1 hq
          rw [hx] at hi; cases hi
        have htexts : texts = (m.hashOrder names).map (reloadText st) := reload_texts hrep h4
        have hne : ∀ t ∈ texts, t ≠ [] := by
          rw [htexts]
          intro t ht
          obtain ⟨x, _, rfl⟩ := List.mem_map.1 ht
          unfold reloadText
          split
          · intro h; simp at h
          · intro h; simp at h
        refine ⟨names, st, rfl, ?_, ?_, ⟨hs.settings, rfl, ?_, ?_⟩, ?_⟩
        · intro x; rw [List.nil_append]; exact hmem x
        · rw [joinAfter_nil texts hne, htexts]
          exact .reload hc hvar hnd hmem
        · intro x
          show vs'.lookup x = _
          have hval : vs.lookup x = c.values x := by
            have := hs.values x
            unfold sessionValue at this
            rw [hvs] at this
            exact this
          unfold Calculator.reload
          simp only
          split
          · rename_i hx
            have hx' := (hmem x).2 hx
            obtain ⟨g1, g2⟩ := (h5 x).2 hx'
            cases hv : st.vars x with
            | none => rw [g2 (hno x hv)]; exact hval
            | some v => exact g1 v.1 ((hrep.stored x v.1).2 ⟨v.2, hv⟩)
          · rename_i hx
            rw [(h5 x).1 (fun h => hx ((hmem x).1 h))]
            exact hval
        · show SavedSim c.saved (some sd')
          rw [hc]
          exact ⟨by rw [h2]; exact hrep, h3, by rw [h2]; exact hr⟩
        · simp only [Option.map_some, h2]
  all_goals
    rw [hl] at h
    cases h

theorem Follows.dbSome {c : Calculator} {s : Session} (h : Follows c s) : s.db.isSome = c.saved.isSome := by
  have := h.saved
  cases hc : c.saved <;> cases hd : s.db <;> rw [hc, hd] at this <;> first | rfl | exact this.elim

theorem lacks_record (c : Calculator) (line : Str) (cmd : Cmd) : (c.record line).Lacks cmd ↔ c.Lacks cmd := by
  unfold Calculator.Lacks Calculator.record
  simp only [Option.map_eq_none_iff]

theorem lacks_iff {c : Calculator} {s : Session} (h : Follows c s) (cmd : Cmd) : Lacking s cmd ↔ c.Lacks cmd := by
  have hd : s.db = none ↔ c.saved = none := by
    have := h.dbSome
    cases hc : c.saved <;> cases hd : s.db <;> rw [hc, hd] at this <;> simp_all
  have hv : s.vars ≠ none := by
    have := h.store
    intro h0; rw [h0] at this; cases this
  unfold Lacking Calculator.Lacks
  cases cmd <;> simp_all

/-- A command. -/
theorem sim_command {m : Machine} (hm : HashOk m) {line : Str} {s : Session} {c : Calculator}
    (h : Ready s line) (hf : Follows c s) {cmd : Cmd} {arguments : Str}
    (hl : IsCommand line cmd arguments) {r : Outcome Failure Str} {s' : Session} (hcalc : calculate m table line s = (r, s')) :
    ∃ c', Enters (evaluator m) c line r c' ∧ Follows c' s' := by
  obtain ⟨id, s1, h1, ha1, hv1, hid1, hf1, hn1, hne1⟩ := sim_record h hf
  have hset : s.args = c.settings := hf.settings
  by_cases hob : ∃ t p, Objection s line arguments cmd t p
  · obtain ⟨t, p, ho⟩ := hob
    have h2 := (C76_complaint_iff m table new_table line s s1 id h1 cmd arguments hl t p).2 ho
    obtain ⟨_, h3⟩ := C76_justified m table new_table line s cmd arguments hl t p h2
    rw [hcalc] at h2 h3
    simp only at h2 h3
    rw [h1] at h3
    simp only at h3
    subst h2 h3
    exact ⟨_, .objection hl ⟨s, hset, h.vars, hf.dbSome, ho⟩, hf1⟩
  · have hno : ∀ t p, ¬ Objection s line arguments cmd t p := fun t p ho => hob ⟨t, p, ho⟩
    obtain ⟨text, hok⟩ := C79_carried_out m table new_table line s h cmd arguments hl hno
    rw [hcalc] at hok
    simp only at hok
    subst hok
    suffices ∃ c', (c.record line).Does arguments cmd text c' ∧ Follows c' s' by
      obtain ⟨c', h2, h3⟩ := this
      exact ⟨c', .command hl h2, h3⟩
    by_cases hsetting : Setting cmd
    · have hsr : (c.record line).settings = s.args := hset.symm
      by_cases hna : NoArgument arguments cmd
      · have := C64_show m table new_table line s s1 id h1 cmd hsetting arguments hl hna
        rw [hcalc] at this
        cases this
        refine ⟨_, ?_, hf1⟩
        rw [← hsr]
        exact .show hsetting hna
      · by_cases hrq : ∃ a', Requests arguments s.args cmd a'
        · obtain ⟨a', ha'⟩ := hrq
          obtain ⟨h2, h3⟩ := C64_set m table new_table line s s1 id h1 cmd arguments hl a' ha'
          obtain ⟨a2, _, h4⟩ := C65_setting_command m table new_table line s cmd hsetting arguments hl
          rw [hcalc] at h2 h3 h4
          simp only at h2 h3 h4
          rw [h1] at h4
          simp only at h4
          rw [h4] at h3
          simp only at h3
          cases h2
          subst h3 h4
          rw [← hsr] at ha'
          exact ⟨_, .set ha', rfl, hf1.store, hf1.values, hf1.saved⟩
        · obtain ⟨t, p, h2⟩ := C64_otherwise m table new_table line s s1 id h1 cmd hsetting arguments hl hna
            (fun a' ha' => hrq ⟨a', ha'⟩)
          rw [hcalc] at h2
          cases h2
    · obtain ⟨name, p, q, ht, hres⟩ := (isCommand_iff s.args.radix).1 hl
      have hcalc' := hcalc
      rw [calculate_eq, andThen_of_ok h1] at hcalc'
      unfold afterRecording at hcalc'
      rw [ha1, ht] at hcalc'
      simp only at hcalc'
      unfold calculateCommand at hcalc'
      obtain ⟨⟨out', touched⟩, s2, h2, h3⟩ := andThen_ok hcalc'
      unfold CommandExecutor.executeCommand at h2
      rw [hres] at h2
      simp only at h2 h3
      obtain ⟨_, s3, h4, h5⟩ := andThen_ok h3
      simp only [Prod.mk.injEq, Outcome.ok.injEq] at h5
      obtain ⟨rfl, rfl⟩ := h5
      cases cmd with
      | fractional => exact absurd trivial hsetting
      | radix => exact absurd trivial hsetting
      | convertToRadix => exact absurd trivial hsetting
      | upper => exact absurd trivial hsetting
      | commas => exact absurd trivial hsetting
      | precision => exact absurd trivial hsetting
      | histcap =>
        obtain ⟨rfl, c', hd, hf'⟩ := sim_histcap hf1 h2
        have : s3 = s2 := by
          cases hv : s2.vars <;> rw [hv] at h4 <;> cases h4 <;> rfl
        exact ⟨c', hd, by rw [this]; exact hf'⟩
      | purgeVar =>
        obtain ⟨rfl, c', hd, hf'⟩ := sim_purge hm hf1 h2
        have : s3 = s2 := by
          cases hv : s2.vars <;> rw [hv] at h4 <;> cases h4 <;> rfl
        exact ⟨c', hd, by rw [this]; exact hf'⟩
      | reloadVar =>
        obtain ⟨names, st, hst, hmem, hd, hf', hdb⟩ := sim_reload hm hf1 h2
        have hid2 : IdOk id s2.db := by
          have hsv := hf'.saved
          have hc' : ((c.record line).reload st names).saved = some st := hst
          rw [hc'] at hsv
          cases hd1 : s1.db with
          | none =>
            have := hf1.saved
            rw [hst, hd1] at this
            exact this.elim
          | some sd1 =>
            rw [hd1] at hid1 hdb
            cases hd2 : s2.db with
            | none => rw [hd2] at hdb; cases hdb
            | some sd2 =>
              rw [hd2] at hsv hdb
              simp only [Option.map_some, Option.some.injEq] at hdb
              obtain ⟨_, _, i, hi, hi'⟩ := hid1
              exact ⟨hsv.2.1, hsv.2.2, i, hi, by rw [hdb]; exact hi'⟩
        obtain ⟨s4, g1, _, _, _, g2⟩ := sim_use hf' hid2 hn1 hne1 names touched hmem
        have h6 : (Outcome.ok (), s4) = (Outcome.ok _, s3) := g1.symm.trans h4
        cases h6
        exact ⟨_, hd, g2⟩
      | help =>
        rcases topic_total arguments with hb | ⟨topic, start, htop⟩
        · obtain ⟨text', entries, g1, g2, g3, g4, g5⟩ := C79_listing m table new_table line s s1 id h1 arguments hl hb
          rw [hcalc] at g1
          cases g1
          refine ⟨_, .help (.listing hb g2 g3 g4 fun cmd d hd => ?_), hf1⟩
          rw [g5 cmd d hd, lacks_record, lacks_iff hf]
        · by_cases hk : ∃ n cmd, (n, cmd) ∈ commandNames ∧ n.toList = topic
          · obtain ⟨n, cmd, hn, rfl⟩ := hk
            obtain ⟨text', g1, g2, g3, g4⟩ := C79_topic m table new_table line s s1 id h1 arguments hl n cmd hn start htop
            rw [hcalc] at g1
            cases g1
            refine ⟨_, .help (.topic hn htop g2 g3 ?_), hf1⟩
            rw [g4, lacks_record, lacks_iff hf]
          · exact absurd (Objection.help (s := s) (line := line) htop fun n cmd hn he => hk ⟨n, cmd, hn, he⟩) (hno _ _)

theorem extract_tokens (line : Str) (ts : List PTok) : maybeExtractCommand line ≠ some (.tokens ts) := by
  intro h
  unfold maybeExtractCommand at h
  simp only at h
  repeat' split at h
  all_goals cases h

/-- The place of an unknown command. -/
theorem unknown_slashed {m : Machine} {line name arguments : Str} (hl : NamedCommand line name arguments)
    (hn : ∀ n cmd, (n, cmd) ∈ commandNames → n.toList ≠ name) {s s1 : Session} {id : Option Int}
    (hrec : recordInput s = (.ok id, s1)) {text : Str} {p : Position}
    (h : calculate m table line s = (.err (.input text (some p)), s1)) : SlashedAt line name p := by
  have hargs := (recordInput_args s).1
  rw [hrec] at hargs
  simp only at hargs
  obtain ⟨p', q, ht⟩ := tokenize_named hl s.args.radix
  have hres : table.resolve name = none := by
    cases h : table.resolve name with
    | none => rfl
    | some cmd =>
      obtain ⟨n, h1, h2⟩ := (C66_names table new_table name cmd).1 h
      exact absurd h2.symm (hn n cmd h1)
  rw [calculate_eq, andThen_of_ok hrec] at h
  unfold afterRecording at h
  rw [hargs, ht] at h
  simp only at h
  unfold calculateCommand CommandExecutor.executeCommand St.andThen at h
  simp only at h
  rw [hres] at h
  cases h
  exact (slashed_tokenize hl.1 _ _ s.args.radix).2 ⟨_, _, ht⟩

/-- A line. -/
theorem sim_step {m : Machine} (hm : HashOk m) {line : Str} {s : Session} {c : Calculator}
    (h : Ready s line) (hf : Follows c s) (hv : ValidSettings s.args)
    {r : Outcome Failure Str} {s' : Session} (hcalc : calculate m table line s = (r, s')) (hnp : ∀ k, r ≠ .panic k)
    (hnd : r ≠ .diverge) : ∃ c', Enters (evaluator m) c line r c' ∧ Follows c' s' := by
  by_cases hc : Ascii line ∧ CommandLine line
  · rcases tokenize_spec hv.radix.1 hv.radix.2 line with ⟨i, hi, hna, e⟩ | ⟨ha, p, hp, hc', e⟩ | ⟨_, hcl, _⟩
    · exact absurd hc.1 hna
    · rcases p with ts | ⟨name, arguments⟩
      · exact absurd hp (extract_tokens line ts)
      · have hname := named_of_tokenize e
        by_cases hk : ∃ n cmd, (n, cmd) ∈ commandNames ∧ n.toList = name.value
        · obtain ⟨n, cmd, hn, hnn⟩ := hk
          rw [← hnn] at hname
          exact sim_command hm h hf ⟨n, hn, hname⟩ hcalc
        · obtain ⟨id, s1, h1, ha1, hv1, hid1, hf1, hn1, hne1⟩ := sim_record h hf
          have hk' : ∀ n cmd, (n, cmd) ∈ commandNames → n.toList ≠ name.value := fun n cmd hn he => hk ⟨n, cmd, hn, he⟩
          obtain ⟨p, h2, h3⟩ := C66_unknown m table new_table line name.value arguments.value hname hk' s s1 id h1
          have h4 := unknown_slashed hname hk' h1 h2
          rw [hcalc] at h2
          cases h2
          exact ⟨_, .unknown hname hk' h4, hf1⟩
    · exact absurd hc.2 hcl
  · exact sim_line hm h hf hv (not_and_or.1 hc) hcalc hnp hnd

end Bcalc
