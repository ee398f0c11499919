import Verif.Proof.Office
import Verif.Props.Calculator
import Verif.Props.Decides

/-! # C109 Several calculators that share the saved data -/

namespace Bcalc
open Spec

/-- The company is in the state of the office. -/
structure Tallies (c : Company) (o : Office) : Prop where
  desks : SameDesks c o
  valid : ∀ i a, c.members i = some a → ValidSettings a.args
  rep : Rep o.saved c.db
  reachable : Reachable c.db

theorem Spec.BeginsAs.keeps {c : Company} {o : Office} (h : BeginsAs c o) : Tallies c o := by
  obtain ⟨ops, h1, h2⟩ := h.saved
  exact ⟨h.desks, h.valid, by rw [h1, h2]; exact rep_after ops, ops, h1⟩

theorem Tallies.looksLike {c : Company} {o : Office} (h : Tallies c o) : LooksLike c o :=
  ⟨h.desks, h.rep.historyOf, h.rep.wf.hcap, fun x q => h.rep.stored x q⟩

/-- One member changes. -/
theorem Tallies.with {c : Company} {o : Office} (h : Tallies c o) {db : Db} {st : Store} (hrep : Rep st db)
    (hr : Reachable db) (i : Nat) {a : Option Member} {d : Option Desk}
    (hd : match a, d with
      | none, none => True
      | some a, some d => a.args = d.settings ∧ ∀ x, a.vars.lookup x = d.values x
      | _, _ => False)
    (hv : ∀ b, a = some b → ValidSettings b.args) : Tallies (c.with db i a) (o.with st i d) := by
  refine ⟨fun j => ?_, fun j b hb => ?_, hrep, hr⟩
  · have := h.desks j
    unfold Company.with Office.with
    simp only
    by_cases hj : j = i
    · rw [if_pos hj, if_pos hj]; exact hd
    · rw [if_neg hj, if_neg hj]; exact this
  · unfold Company.with at hb
    simp only at hb
    by_cases hj : j = i
    · rw [if_pos hj] at hb; exact hv b hb
    · rw [if_neg hj] at hb; exact h.valid j b hb

/-- The session in which a member submits a line. -/
theorem Tallies.submits {c : Company} {o : Office} (h : Tallies c o) {i : Nat} {line : Str} {s : Session} {sd : SavedData}
    (hs : Submits c i line s sd) : ∃ d, o.desks i = some d ∧ s.args = d.settings ∧ ValidSettings s.args ∧ Ready s line ∧
      Follows (o.calculator d) s := by
  obtain ⟨⟨a, h1, h2, h3⟩, hinp, hd, hsame, hq⟩ := hs
  have h4 := h.desks i
  rw [h1] at h4
  cases h5 : o.desks i with
  | none => rw [h5] at h4; exact h4.elim
  | some d =>
    rw [h5] at h4
    obtain ⟨h6, h7⟩ := h4
    refine ⟨d, rfl, h2.trans h6, by rw [h2]; exact h.valid i a h1,
      ⟨by rw [h3]; rfl, hinp, fun sd' h' => ?_, fun sd' h' => ?_⟩, h2.trans h6, by rw [h3]; rfl, fun x => ?_, ?_⟩
    · rw [hd] at h'; cases h'; rw [hsame]; exact h.reachable
    · rw [hd] at h'; cases h'; exact hq
    · unfold sessionValue; rw [h3]; exact h7 x
    · rw [hd]
      exact ⟨by rw [hsame]; exact h.rep, hq, by rw [hsame]; exact h.reachable⟩

theorem sim_together {m : Machine} (hm : HashOk m) {c c' : Company} {log : List Happening} (h : Together m table c log c')
    {o : Office} (hk : Tallies c o) : ∃ o', Works (evaluator m) o log o' ∧ Tallies c' o' := by
  induction h with
  | now => exact ⟨o, .now, hk⟩
  | @opens log c1 i args sd _ hv hn ho ih =>
    obtain ⟨o1, h1, h2⟩ := ih
    have hnone : o1.desks i = none := by
      have := h2.desks i
      rw [hn] at this
      cases hd : o1.desks i with
      | none => rfl
      | some d => rw [hd] at this; exact this.elim
    rw [opened_same h2.reachable ho]
    exact ⟨_, .opens h1 hv hnone, h2.with h2.rep h2.reachable i ⟨rfl, fun _ => rfl⟩ (by rintro b ⟨⟩; exact hv)⟩
  | leaves _ ih =>
    obtain ⟨o1, h1, h2⟩ := ih
    exact ⟨_, .leaves h1, h2.with h2.rep h2.reachable _ trivial (by rintro b ⟨⟩)⟩
  | @enters log c1 i line s sd r s' sd' vars _ hs hc hp hdv hd hvs ih =>
    obtain ⟨o1, h1, h2⟩ := ih
    obtain ⟨d, h3, h4, h5, h6, h7⟩ := h2.submits hs
    obtain ⟨c2, h8, h9⟩ := sim_step hm h6 h7 h5 hc hp hdv
    have hsv := h9.saved
    rw [hd] at hsv
    cases hc2 : c2.saved with
    | none => rw [hc2] at hsv; exact hsv.elim
    | some st =>
      rw [hc2] at hsv
      have hv' := C62_session m table new_table _ _ (.input (line := line) .now) h5
      rw [hc] at hv'
      rw [h4]
      refine ⟨_, .enters h1 h3 h8 hc2, h2.with hsv.1 hsv.2.2 i ⟨h9.settings, fun x => ?_⟩ (by rintro b ⟨⟩; exact hv')⟩
      have := h9.values x
      unfold sessionValue at this
      rw [hvs] at this
      exact this
  | @dies log c1 i line s sd r s' sd' new db _ hs hc hd hn hdb ih =>
    obtain ⟨o1, h1, h2⟩ := ih
    obtain ⟨d, h3, h4, h5, h6, h7⟩ := h2.submits hs
    obtain ⟨st, h8, h9, h10⟩ := sim_dies hm h6 h7 h5 hc hs.db hd hn hdb
    rw [h4]
    exact ⟨_, .dies h1 h3 h8, h2.with h9 h10 i trivial (by rintro b ⟨⟩)⟩

/-! ## C109 Several calculators that share the saved data, on one page -/

/-- Any number of sessions that share a database, whose lines come in any order, and each of which may be opened, may
end, and may die at any point while it processes a line, do together only what the office of calculators can do: all
replies are those of the calculators at the desks, and in the end the sessions are as the desks, and the database holds
the office's saved data. -/
theorem C109_together (m : Machine) (hm : HashOk m) : ∃ E : Evaluator, ∀ (ce : CommandExecutor)
    (_ : CommandExecutor.new = .ok ce) (c c' : Company) (o : Office) (_ : BeginsAs c o) (log : List Happening)
    (_ : Together m ce c log c'), ∃ o', Works E o log o' ∧ LooksLike c' o' := by
  refine ⟨evaluator m, fun ce hce c c' o hb log h => ?_⟩
  obtain rfl := new_eq_table hce
  obtain ⟨o', h1, h2⟩ := sim_together hm h hb.keeps
  exact ⟨o', h1, h2.looksLike⟩

/-- Every company with permitted settings at a database that can come about begins as some such office. -/
theorem C109_begins (c : Company) (hr : Reachable c.db) (hv : ∀ i a, c.members i = some a → ValidSettings a.args) :
    ∃ o, BeginsAs c o := by
  obtain ⟨ops, hops⟩ := hr
  refine ⟨⟨storeAfter ops, fun i => (c.members i).map fun a => ⟨a.args, a.vars.lookup⟩⟩, fun i => ?_, hv, ops, hops, rfl⟩
  cases h : c.members i with
  | none => simp only [Option.map_none, h]
  | some a => simp [h]

/-! ### An example -/

/-- The second session assigns to another variable, with the first one's value. -/
def exSecond : Session :=
  (calculate ⟨true, 20, List.dedup⟩ table "$y=$x+1".toList (exSubmit ⟨.default, .new⟩ exFirstDb.db "$y=$x+1")).2

def exSecondDb : SavedData := exSecond.db.getD ⟨newDb, none, [], []⟩

/-- It commits the recording, the use of the one variable, the reading of it, and the value of the other one.  It dies
after the second of these. -/
theorem exDies : 1 < exSecondDb.commits.length := by decide +kernel

theorem exTogetherDies : Together ⟨true, 20, List.dedup⟩ table exCompany
    [.died 1 .default "$y=$x+1".toList, .entered 0 .default "$x=2/3".toList (.ok "0.66667".toList)]
    (exCompany1.with (exSecondDb.commits[1]'exDies) 1 none) := by
  refine .dies (s := exSubmit ⟨.default, .new⟩ exFirstDb.db "$y=$x+1") (sd := ⟨exFirstDb.db, none, [], []⟩) (s' := exSecond)
    (r := (calculate ⟨true, 20, List.dedup⟩ table "$y=$x+1".toList (exSubmit ⟨.default, .new⟩ exFirstDb.db "$y=$x+1")).1)
    (sd' := exSecondDb) (new := exSecondDb.commits) exTogether
    ⟨⟨⟨.default, .new⟩, rfl, rfl, rfl⟩, ⟨_, rfl, by decide +kernel⟩, rfl, rfl, rfl⟩ Prod.mk.eta.symm ?_ (List.nil_append _).symm
    (List.getElem_mem exDies)
  unfold exSecondDb
  have : exSecond.db.isSome := by decide +kernel
  obtain ⟨sd, h⟩ := Option.isSome_iff_exists.1 this
  rw [h]; rfl

/-- The line is recorded, and the variable has no value. -/
example : historyOf (exSecondDb.commits[1]'exDies) = ["$x=2/3".toList, "$y=$x+1".toList] ∧
    historyOf exSecondDb.db = ["$x=2/3".toList, "$y=$x+1".toList] ∧
    (exSecondDb.commits[1]'exDies).vars.map (·.name) = ["$x".toList] ∧
    exSecondDb.db.vars.map (·.name) = ["$x".toList, "$y".toList] := by decide +kernel

example : BeginsAs exCompany ⟨storeAfter [], fun i => if i < 2 then some ⟨.default, fun _ => none⟩ else none⟩ ∧
    HashOk ⟨true, 20, List.dedup⟩ := by
  refine ⟨⟨fun i => ?_, fun i a h => ?_, [], rfl, rfl⟩, exMachine_hash⟩
  · unfold exCompany
    by_cases hi : i < 2 <;> simp [hi, VariableStore.lookup, VariableStore.new, assocGet]
  · unfold exCompany at h
    by_cases hi : i < 2
    · simp [hi] at h
      rw [← h]
      exact exDefault_valid
    · simp [hi] at h

end Bcalc
