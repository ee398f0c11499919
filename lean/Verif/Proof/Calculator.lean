import Verif.Proof.Pure
import Verif.Props.Repeat
import Verif.Props.Help
import Verif.Spec.Calculator

/-! # The calculator on one page: the session follows it -/

namespace Bcalc
open Spec

/-- The saved data of the calculator and the database of the session. -/
def SavedSim : Option Store → Option SavedData → Prop
  | none, none => True
  | some st, some sd => Rep st sd.db ∧ sd.env = [] ∧ Reachable sd.db
  | _, _ => False

/-- The session is in the state of the calculator. -/
structure Follows (c : Calculator) (s : Session) : Prop where
  settings : s.args = c.settings
  store : s.vars.isSome
  values : ∀ x, sessionValue s x = c.values x
  saved : SavedSim c.saved s.db

/-- The number of the newest input, if there are saved data. -/
def Newest (id : Option Int) (saved : Option Store) : Prop := id = saved.map fun st => (st.recorded.length : Int)

theorem store_touches {i : Int} : ∀ (l : List Str) (st : Store), st.Has i →
    (l.map (DbOp.touch · i)).foldl Store.step st =
      { st with vars := fun x => if x ∈ l then (st.vars x).map (fun v => (v.1, i)) else st.vars x }
  | [], st, _ => by simp
  | y :: l, st, h => by
    rw [List.map_cons, List.foldl_cons]
    have h1 : st.step (.touch y i) =
        { st with vars := fun x => if x = y then (st.vars x).map (fun v => (v.1, i)) else st.vars x } := by
      unfold Store.step; simp only; rw [if_pos h]
    rw [h1, store_touches l { st with vars := fun x => if x = y then (st.vars x).map (fun v => (v.1, i)) else st.vars x } h]
    simp only [Store.mk.injEq, true_and]
    funext x
    by_cases hx : x ∈ l <;> by_cases hy : x = y <;> simp [hx, hy] <;> (intro _; rfl)

theorem store_clears : ∀ (l : List Str) (st : Store),
    (l.map DbOp.clear).foldl Store.step st = { st with vars := fun x => if x ∈ l then none else st.vars x }
  | [], st => by simp
  | y :: l, st => by
    rw [List.map_cons, List.foldl_cons]
    have h1 : st.step (.clear y) = { st with vars := fun x => if x = y then none else st.vars x } := rfl
    rw [h1, store_clears l _]
    simp only [Store.mk.injEq, true_and]
    funext x
    by_cases hx : x ∈ l <;> by_cases hy : x = y <;> simp [hx, hy]

theorem Rep.newest {st : Store} {db : Db} (h : Rep st db) (hne : st.recorded ≠ []) : st.Has st.recorded.length := by
  have := h.pos hne
  unfold Store.Has
  omega

theorem Rep.marked {st : Store} {db : Db} (h : Rep st db) (hne : st.recorded ≠ []) (names l : List Str)
    (hl : ∀ x, x ∈ l ↔ x ∈ names) : Rep (st.use names) (marked l st.recorded.length db) := by
  have hn := h.newest hne
  have hf : db.fkOk = true := (fkOk_iff db).2 h.wf.fk
  have hid : db.hasId st.recorded.length = true := by rw [hasId_iff, h.mem_ids]; exact hn
  have h1 := h.after (l.map (DbOp.touch · st.recorded.length))
  rw [touches_apply l hf hid, store_touches l st hn] at h1
  unfold Store.use
  simp only [← hl]
  exact h1

theorem purge_apply {db : Db} (hf : db.fkOk = true) (x : Str) : (DbOp.clear x).apply db = purged [x] db := by
  have : clearVariableTx x db = .ok ((), purged [x] db) := by
    unfold clearVariableTx exec
    have hfk := fkOk_purged (l := [x]) hf
    unfold purged at hfk ⊢
    simp only [List.mem_singleton] at hfk ⊢
    simp only [hfk, if_true]
  exact commit_ok this

theorem purges_apply : ∀ (l : List Str) {db : Db} (_ : db.fkOk = true), after (l.map DbOp.clear) db = purged l db
  | [], db, hf => by unfold purged; simp [after]
  | x :: l, db, hf => by
    have h1 : after ((x :: l).map DbOp.clear) db = after (l.map DbOp.clear) ((DbOp.clear x).apply db) := rfl
    rw [h1, purge_apply hf, purges_apply l (fkOk_purged hf), purged_purged]

theorem Rep.purged {st : Store} {db : Db} (h : Rep st db) (names l : List Str)
    (hl : ∀ x, x ∈ l ↔ x ∈ names) : Rep (st.forget names) (purged l db) := by
  have hf : db.fkOk = true := (fkOk_iff db).2 h.wf.fk
  have h1 := h.after (l.map DbOp.clear)
  rw [purges_apply l hf, store_clears l st] at h1
  unfold Store.forget
  simp only [← hl]
  exact h1

theorem Rep.stored {st : Store} {db : Db} (h : Rep st db) (x : Str) (q : Rat) :
    Stored db x q ↔ ∃ i, st.vars x = some (q, i) := by
  unfold Stored
  constructor
  · rintro ⟨row, h1, h2, h3, h4⟩
    exact ⟨row.lastUsedBy, (h.vars x q _).2 ⟨row, h1, h2, h3, h4, rfl⟩⟩
  · rintro ⟨i, hi⟩
    obtain ⟨row, h1, h2, h3, h4, _⟩ := (h.vars x q i).1 hi
    exact ⟨row, h1, h2, h3, h4⟩

theorem Follows.sees {c : Calculator} {s : Session} (h : Follows c s) : SeenIn s.env c.finds := by
  intro x q
  have hv := h.values x
  have hsv : sessionValues s.env x = sessionValue s x := rfl
  unfold EnvSees Calculator.finds
  rw [hsv, hv]
  cases c.values x with
  | some w => simp
  | none =>
    have hsome : s.env.vars.isSome = true := h.store
    simp only [reduceCtorEq, false_or, true_and, hsome]
    have hs := h.saved
    show _ ↔ ∃ sd, s.db = some sd ∧ _
    cases hc : c.saved with
    | none =>
      cases hd : s.db with
      | none => simp
      | some sd => rw [hc, hd] at hs; exact hs.elim
    | some st =>
      cases hd : s.db with
      | none => rw [hc, hd] at hs; exact hs.elim
      | some sd =>
        rw [hc, hd] at hs
        simp only [Option.some.injEq, exists_eq_left', hs.1.stored, Option.map_eq_some_iff, Prod.exists, exists_and_right,
          exists_eq_right]

/-- Recording. -/
theorem sim_record {c : Calculator} {s : Session} {line : Str} (h : Ready s line) (hs : Follows c s) :
    ∃ id s1, recordInput s = (.ok id, s1) ∧ s1.args = s.args ∧ s1.vars = s.vars ∧ IdOk id s1.db ∧
      Follows (c.record line) s1 ∧ Newest id (c.record line).saved ∧
      ∀ st, (c.record line).saved = some st → st.recorded ≠ [] := by
  obtain ⟨hist, hi, hcur⟩ := h.inputs
  have hsv := hs.saved
  cases hd : s.db with
  | none =>
    have hrec : recordInput s = (.ok none, { s with
        inputs := some { hist with internal := hist.internal ++ [line], current := [some []], index := 0 }, db := none }) := by
      unfold recordInput
      rw [hi]
      simp only
      unfold InputHistory.inputFinished
      rw [hcur, hd]
      rfl
    rw [hd] at hsv
    cases hc : c.saved with
    | some st => rw [hc] at hsv; exact hsv.elim
    | none =>
      refine ⟨none, _, hrec, rfl, rfl, recorded_idOk (.inr hd) h.quiet h.reachable hrec,
        ⟨hs.settings, hs.store, hs.values, ?_⟩, ?_, ?_⟩
      · unfold Calculator.record; simp only [hc]; trivial
      · unfold Calculator.record Newest; simp only [hc]; rfl
      · unfold Calculator.record; simp only [hc]; intro st h; cases h
  | some sd =>
    rw [hd] at hsv
    cases hc : c.saved with
    | none => rw [hc] at hsv; exact hsv.elim
    | some st =>
      rw [hc] at hsv
      obtain ⟨hrep, hq, hr⟩ := hsv
      obtain ⟨i, hrec⟩ := recordInput_quiet hi hcur hd (h.reachable sd hd) h.quiet
      obtain ⟨A, hx, hrepA⟩ := hrep.add line
      have hdb' : (DbOp.add line).apply sd.db = A := commit_ok hx
      have hij : i = (st.recorded.length : Int) + 1 := by
        obtain ⟨sd1, _, g2, g3⟩ := recordInput_cases hi hcur hd
        unfold SavedData.addToInputHistory at g2 g3
        rw [run_quiet (h.quiet sd hd), hx, hrec] at g3
        simp only [Outcome.ok.injEq, Option.some.injEq] at g3
        exact g3
      have hidok := recorded_idOk (.inl (by rw [hi]; rfl)) h.quiet h.reachable hrec
      refine ⟨some i, _, hrec, rfl, rfl, hidok, ⟨hs.settings, hs.store, hs.values, ?_⟩, ?_, ?_⟩
      · unfold Calculator.record
        simp only [hc, Option.map_some]
        refine ⟨?_, hq, hidok.2.1⟩
        simp only [hdb']
        exact hrepA
      · unfold Calculator.record Newest
        simp only [hc, Option.map_some, Option.some.injEq]
        rw [hij]
        unfold Store.trim
        simp
      · unfold Calculator.record
        simp only [hc, Option.map_some, Option.some.injEq]
        rintro st' rfl
        unfold Store.trim
        simp

/-- Noting the use of variables. -/
theorem sim_use {c : Calculator} {s : Session} {id : Option Int} (hs : Follows c s) (hid : IdOk id s.db)
    (hn : Newest id c.saved) (hne : ∀ st, c.saved = some st → st.recorded ≠ []) (names l : List Str)
    (hl : ∀ x, x ∈ l ↔ x ∈ names) :
    ∃ s2, (match s.vars with
        | some _ => touchAll id l
        | none => fun s => (.ok (), s) : Sess Unit) s = (.ok (), s2) ∧ IdOk id s2.db ∧ s2.args = s.args ∧
      s2.vars = s.vars ∧ Follows (c.use names) s2 := by
  obtain ⟨vs, hvs⟩ := Option.isSome_iff_exists.1 hs.store
  obtain ⟨s2, h2, hid2, ha2, hv2, _⟩ := touchVars_seen hid l
  refine ⟨s2, h2, hid2, ha2, hv2, ?_⟩
  rw [hvs] at h2
  simp only at h2
  have hsv := hs.saved
  have hvals : ∀ x, sessionValue s2 x = c.values x := by
    intro x; rw [← hs.values x]; unfold sessionValue; rw [hv2]
  refine ⟨ha2.trans hs.settings, by rw [hv2]; exact hs.store, hvals, ?_⟩
  cases hd : s.db with
  | none =>
    rw [hd] at hsv hid
    cases hid
    rw [touchAll_none l hd] at h2
    cases h2
    cases hc : c.saved with
    | some st => rw [hc] at hsv; exact hsv.elim
    | none => unfold Calculator.use; simp only [hc, hd]; trivial
  | some sd =>
    rw [hd] at hsv hid
    cases hc : c.saved with
    | none => rw [hc] at hsv; exact hsv.elim
    | some st =>
      rw [hc] at hsv
      obtain ⟨hrep, hq, hr⟩ := hsv
      obtain ⟨_, _, i, rfl, hi⟩ := hid
      unfold Newest at hn
      rw [hc] at hn
      simp only [Option.map_some, Option.some.injEq] at hn
      obtain ⟨cm, ht⟩ := touchAll_quiet l hd hq (reachable_fk hr) hi hs.store
      rw [ht] at h2
      cases h2
      unfold Calculator.use
      simp only [hc, Option.map_some]
      refine ⟨?_, hq, hid2.2.1⟩
      rw [hn]
      exact hrep.marked (hne st hc) names l hl

end Bcalc
