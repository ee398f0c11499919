import Verif.Proof.Calculator
import Verif.Proof.Evaluator
import Verif.Props.Written
import Verif.Props.Order

/-! # The calculator on one page: lines that are not commands -/

namespace Bcalc
open Spec

theorem Calculator_use_finds (c : Calculator) (names : List Str) : (c.use names).finds = c.finds := by
  funext x
  unfold Calculator.finds Calculator.use
  simp only
  cases c.values x with
  | some q => rfl
  | none =>
    simp only
    cases c.saved with
    | none => rfl
    | some st =>
      simp only [Option.map_some]
      unfold Store.use
      simp only
      split
      · cases st.vars x <;> rfl
      · rfl

theorem Newest.use {id : Option Int} {c : Calculator} (h : Newest id c.saved) (names : List Str) :
    Newest id (c.use names).saved := by
  unfold Newest Calculator.use at *
  rw [h]
  cases c.saved <;> rfl

theorem recorded_use {c : Calculator} (h : ∀ st, c.saved = some st → st.recorded ≠ []) (names : List Str) :
    ∀ st, (c.use names).saved = some st → st.recorded ≠ [] := by
  intro st hst
  unfold Calculator.use at hst
  cases hc : c.saved with
  | none => rw [hc] at hst; cases hst
  | some st0 =>
    rw [hc] at hst
    simp only [Option.map_some, Option.some.injEq] at hst
    subst hst
    exact h st0 hc

/-- Evaluating. -/
theorem sim_execute {m : Machine} {c : Calculator} {s : Session} {id : Option Int} (hs : Follows c s) (hid : IdOk id s.db)
    (n : Node) : ∃ env, n.execute m s.args s.env = (n.pure m s.args true c.finds, env) ∧ IdOk id env.db ∧ env.vars.isSome ∧
      Follows (c.remember (Looked (pureVal m s.args c.finds) n)) { s with vars := env.vars, db := env.db } := by
  have hq : EnvQuiet s.env := hid.quiet
  have hkept := execute_kept m s.args n s.env
  have hsight := execute_sight m s.args n s.env
  have hp := execute_pure m s.args c.finds n s.env hq hs.sees
  have hst : s.env.vars.isSome = true := hs.store
  have hl := execute_looked m s.args c.finds n hq hs.sees hst
  rw [hst] at hp
  rcases he : n.execute m s.args s.env with ⟨r, env⟩
  rw [he] at hkept hsight hp hl
  simp only at hp hl hkept
  subst hp
  have hvs : env.vars.isSome = true := by rw [(hsight hq).2.1]; exact hst
  have hid' : IdOk id env.db := IdOk.kept (vars := s.vars) hid hkept
  refine ⟨env, rfl, hid', hvs, hs.settings, hvs, ?_, ?_⟩
  · intro x
    show sessionValues env x = _
    unfold Calculator.remember
    simp only
    split
    · rename_i hx; exact (hl x).1 hx
    · rename_i hx
      rw [(hl x).2 hx]
      exact hs.values x
  · show SavedSim c.saved env.db
    obtain ⟨hq', hdb⟩ := hkept hq
    have hsv := hs.saved
    have hdb' : env.db.map (·.db) = s.db.map (·.db) := hdb
    cases hd : s.db with
    | none =>
      rw [hd] at hsv hdb'
      cases hed : env.db with
      | none => exact hsv
      | some sd => rw [hed] at hdb'; cases hdb'
    | some sd =>
      rw [hd] at hsv hdb'
      cases hed : env.db with
      | none => rw [hed] at hdb'; cases hdb'
      | some sd' =>
        rw [hed] at hdb'
        simp only [Option.map_some, Option.some.injEq] at hdb'
        cases hc : c.saved with
        | none => rw [hc] at hsv; exact hsv.elim
        | some st =>
          rw [hc] at hsv
          exact ⟨by rw [hdb']; exact hsv.1, hq' sd' hed⟩

/-- Assigning. -/
theorem sim_assign {c : Calculator} {s : Session} {id : Option Int} (hs : Follows c s) (hid : IdOk id s.db)
    (hn : Newest id c.saved) (hne : ∀ st, c.saved = some st → st.recorded ≠ []) {vs : VariableStore} (hvs : s.vars = some vs)
    (x : Str) (v : Rat) : ∃ db', vs.update ⟨x, v⟩ id s.db = (.ok (), vs.insert x v, db') ∧
      Follows (c.assign x v) { s with vars := some (vs.insert x v), db := db' } := by
  obtain ⟨db', hu, hid', _⟩ := update_seen hid vs ⟨x, v⟩
  refine ⟨db', hu, hs.settings, rfl, ?_, ?_⟩
  · intro y
    show (vs.insert x v).lookup y = _
    rw [lookup_insert]
    unfold Calculator.assign
    simp only
    split
    · rfl
    · rw [← hs.values y]
      unfold sessionValue
      rw [hvs]
  · show SavedSim (c.saved.map (·.assign x v)) db'
    have hsv := hs.saved
    cases hd : s.db with
    | none =>
      rw [hd] at hsv hid hu
      cases hid
      have : db' = none := by
        have : vs.update ⟨x, v⟩ none none = (.ok (), vs.insert x v, none) := rfl
        rw [this] at hu
        exact ((Prod.mk.inj (Prod.mk.inj hu).2).2).symm
      subst this
      cases hc : c.saved with
      | none => trivial
      | some st => rw [hc] at hsv; exact hsv.elim
    | some sd =>
      rw [hd] at hsv hid hu
      cases hc : c.saved with
      | none => rw [hc] at hsv; exact hsv.elim
      | some st =>
        rw [hc] at hsv
        obtain ⟨hrep, hq, hr⟩ := hsv
        obtain ⟨_, _, i, rfl, hi⟩ := hid
        unfold Newest at hn
        rw [hc] at hn
        simp only [Option.map_some, Option.some.injEq] at hn
        subst hn
        have hhas := hrep.newest (hne st hc)
        rcases hrep.setVar ⟨x, v⟩ st.recorded.length with ⟨_, db1, h1, h2⟩ | ⟨h, _⟩
        · unfold VariableStore.update SavedData.setVariable at hu
          simp only [run_quiet hq, h1] at hu
          have := ((Prod.mk.inj (Prod.mk.inj hu).2).2)
          subst this
          refine ⟨?_, hq, hid'.2.1⟩
          have hstep : st.step (.setVar ⟨x, v⟩ st.recorded.length) = st.assign x v := by
            unfold Store.step Store.assign; simp only; rw [if_pos hhas]
          rw [hstep] at h2
          exact h2
        · exact absurd hhas h


theorem Calculator_use_nil (c : Calculator) : c.use [] = c := by
  unfold Calculator.use Store.use
  simp only [List.not_mem_nil, if_false]
  cases c with
  | mk a v sv => cases sv <;> rfl

theorem findIdx_first {line : Str} {i : Nat} (h : line.findIdx? (fun c => !isAscii c) = some i) :
    ∃ pre ch rest, line = pre ++ ch :: rest ∧ Ascii pre ∧ 128 ≤ ch.toNat ∧ i = pre.length := by
  rw [List.findIdx?_eq_some_iff_getElem] at h
  obtain ⟨hi, h1, h2⟩ := h
  refine ⟨line.take i, line[i], line.drop (i + 1), ?_, ?_, ?_, ?_⟩
  · rw [← List.drop_eq_getElem_cons hi, List.take_append_drop]
  · intro c hc
    obtain ⟨j, hj, rfl⟩ := List.mem_iff_getElem.1 hc
    rw [List.length_take] at hj
    have := h2 j (by omega)
    rw [List.getElem_take]
    simpa [isAscii] using this
  · simpa [isAscii] using h1
  · rw [List.length_take]; omega

/-- A line that is not a command, or that is not ASCII. -/
theorem sim_line {m : Machine} (hm : HashOk m) {ce : CommandExecutor} {line : Str} {s : Session} {c : Calculator}
    (h : Ready s line) (hf : Follows c s) (hv : ValidSettings s.args) (hc : ¬ Ascii line ∨ ¬ CommandLine line)
    {r : Outcome Failure Str} {s' : Session} (hcalc : calculate m ce line s = (r, s')) (hnp : ∀ k, r ≠ .panic k)
    (hnd : r ≠ .diverge) : ∃ c', Enters (evaluator m) c line r c' ∧ Follows c' s' := by
  obtain ⟨id, s1, h1, ha1, hv1, hid1, hf1, hn1, hne1⟩ := sim_record h hf
  rw [calculate_eq, andThen_of_ok h1] at hcalc
  unfold afterRecording at hcalc
  rw [ha1] at hcalc
  have hset : s.args = c.settings := hf.settings
  rcases tokenize_spec hv.radix.1 hv.radix.2 line with ⟨i, hi, _, e⟩ | ⟨ha, p, hp, hc', _⟩ |
    ⟨hasc, hcl, ⟨ts, e, hl⟩ | ⟨w, st, e, hb, _⟩⟩
  · rw [e] at hcalc
    cases hcalc
    obtain ⟨pre, ch, rest, h2, h3, h4, h5⟩ := findIdx_first hi
    subst h5
    exact ⟨_, .character h2 h3 h4, hf1⟩
  · rcases hc with hc | hc
    · exact absurd ha hc
    · exact absurd hc' hc
  · rw [e] at hcalc
    simp only at hcalc
    have hlex : Lexes c.settings.radix 0 line ts := by rw [← hset]; exact (hl ts).2 rfl
    have hmem : ∀ x, x ∈ m.hashOrder (variableNames ts) ↔ x ∈ variablesOf ts := fun x => hash_mem hm
    obtain ⟨s2, h2, hid2, ha2, hv2, hf2⟩ := sim_use hf1 hid1 hn1 hne1 (variablesOf ts) _ hmem
    have hn2 := hn1.use (variablesOf ts)
    have hne2 := recorded_use hne1 (variablesOf ts)
    rw [calculateTokens_after h2] at hcalc
    by_cases hts : ts = []
    · subst hts
      rw [if_pos rfl] at hcalc
      cases hcalc
      refine ⟨_, .blank (lexes_blank hlex rfl), ?_⟩
      have : variablesOf [] = [] := rfl
      rw [this, Calculator_use_nil] at hf2
      exact hf2
    · rw [if_neg hts] at hcalc
      rcases C12_total ts with ⟨tree, hn⟩ | ⟨er, hn⟩
      · have hin := (C10_parser_iff_grammar ts tree).1 hn
        rw [hn] at hcalc
        simp only [Outcome.mapErr, St.lift, St.andThen] at hcalc
        unfold executeTree SyntaxTree.execute St.andThen at hcalc
        obtain ⟨env, he, hid3, hvs3, hf3⟩ := sim_execute (m := m) hf2 hid2 tree.root
        have henv : (⟨s2.vars, s2.db⟩ : Env) = s2.env := rfl
        have hargs : s2.args = c.settings := (ha2.trans ha1).trans hset
        rw [henv, he] at hcalc
        rw [Calculator_use_finds, hargs] at hcalc hf3
        generalize hV : pureVal m c.settings (c.record line).finds = V at hf3
        have hV' : V = (evaluator m).val c.settings (c.record line).finds := hV.symm
        cases hr : tree.root.pure m c.settings true (c.record line).finds with
        | panic k =>
          rw [hr] at hcalc
          cases hcalc
          exact absurd rfl (hnp k)
        | diverge =>
          rw [hr] at hcalc
          cases hcalc
          exact absurd rfl hnd
        | err f =>
          rw [hr] at hcalc
          cases hcalc
          obtain ⟨t, p, rfl, href⟩ := pure_refused m c.settings (by rw [← hset]; exact hv.radix.1) _ _ _ hr
          rw [hV] at href
          exact ⟨_, .refused hasc hcl hlex hin hV' href, hf3⟩
        | ok v =>
          rw [hr] at hcalc
          have hval : V tree.root v := by rw [← hV]; exact hr
          obtain ⟨text, ht, hd⟩ := displayResult_written c.settings (outputRadix_valid (by rw [← hset]; exact hv)).1 (outputRadix_valid (by rw [← hset]; exact hv)).2 v
          cases htv : tree.resultVar with
          | none =>
            rw [htv] at hcalc hin
            simp only [ht] at hcalc
            cases hcalc
            exact ⟨_, .value hasc hcl hlex hin hV' hval hd, hf3⟩
          | some x =>
            rw [htv] at hcalc hin
            cases hev : env.vars with
            | none => rw [hev] at hvs3; cases hvs3
            | some vs =>
              obtain ⟨db', hu, hf4⟩ := sim_assign hf3 hid3 hn2 hne2 (vs := vs) hev x.value v
              simp only [hev, hu, ht] at hcalc
              cases hcalc
              exact ⟨_, .assignment hasc hcl hlex hin hV' hval hd, hf4⟩
      · rw [hn] at hcalc
        cases hcalc
        exact ⟨_, .syntax hasc hcl hlex hts (new_defect (lexes_pairwise hlex) hn), hf2⟩
  · rw [e] at hcalc
    cases hcalc
    rw [hset] at hb
    exact ⟨_, .word hasc hcl hb, hf1⟩

end Bcalc
