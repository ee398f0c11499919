import Verif.Proof.Alike
import Verif.Props.Settings
import Verif.Props.HashOrder

/-! # Answers and databases (C85) -/

namespace Bcalc
open Spec

/-! ## C85 Answers depend on settings and values only -/

/-- The answer to a line depends only on the settings and the values that it finds: two sessions that agree in
these, whatever else is in their histories and databases, and in whatever order they iterate sets, answer the
same. -/
theorem C85_line (m m' : Machine) (hb : SameBuild m m') (ce ce' : CommandExecutor) (line : Str) (s s' : Session)
    (ρ : Valuation) (h : Ready s line) (h' : Ready s' line) (ha : s.args = s'.args) (hv : ValidSettings s.args)
    (hρ : SeenBy s line ρ) (hρ' : SeenBy s' line ρ) (hc : ¬ CommandLine line) :
    (calculate m ce line s).1 = (calculate m' ce' line s').1 := by
  obtain ⟨t, e, _⟩ := calculate_pure (m := m) (ce := ce) h hρ hv.radix.1 hv.radix.2 hc
  obtain ⟨t', e', _⟩ := calculate_pure (m := m') (ce := ce') h' hρ' (ha ▸ hv.radix.1) (ha ▸ hv.radix.2) hc
  rw [e, e', ha]
  obtain ⟨a, b, c⟩ := m
  obtain ⟨a', b', c'⟩ := m'
  obtain ⟨h1, h2⟩ := hb
  simp only at h1 h2
  subst h1 h2
  exact pureAnswer_order ⟨a, b, c'⟩ c s'.args ρ line

theorem dialogue_alike {m m' : Machine} (hb : SameBuild m m') (hm : HashOk m) (hm' : HashOk m') {s s' t t' : Session}
    {talk talk' : List (Str × Outcome Failure Str)} (h : Dialogue m table s talk t) (h' : Dialogue m' table s' talk' t')
    (hal : Alike s s') (hv : ValidSettings s.args) (hl : talk.map (·.1) = talk'.map (·.1))
    (hc : ∀ line ∈ talk.map (·.1), ¬ AboutDatabase line) : talk = talk' ∧ Alike t t' := by
  induction h generalizing s' talk' with
  | done =>
    cases h' with
    | done => exact ⟨rfl, hal⟩
    | line => simp at hl
  | @line s hist line r s1 talk t hcur he hd ih =>
    cases h' with
    | done => simp at hl
    | @line _ hist' line' r' s1' talk' _ hcur' he' hd' =>
      simp only [List.map_cons, List.cons.injEq] at hl
      obtain ⟨rfl, hl⟩ := hl
      obtain ⟨h1, h2⟩ := alike_any ⟨hb.1.symm, hb.2.symm⟩ hm hm' hal hv.radix.1 hv.radix.2 (hc line (by simp)) hcur hcur'
      have hv1 := C62_session m table new_table _ _ (.input (line := line) .now) (show ValidSettings { s with inputs := some hist }.args from hv)
      rw [he] at h1 h2 hv1
      rw [he'] at h1 h2
      simp only at h1 h2 hv1
      obtain ⟨h3, h4⟩ := ih hd' h2 hv1 hl fun line hl => hc line (by simp only [List.map_cons, List.mem_cons]; exact .inr hl)
      exact ⟨by rw [h1, h3], h4⟩

/-- Whether there is a database, and which, makes no difference to the answers of a session that already knows
the variables stored in it: whatever lines are entered, expressions, assignments, commands for settings,
`/purgevar` or anything else but the commands that speak of the database, all answers are the same, and so are
all values and settings afterwards. -/
theorem C85_dialogue (m m' : Machine) (hb : SameBuild m m') (hm : HashOk m) (hm' : HashOk m') (ce : CommandExecutor)
    (hce : CommandExecutor.new = .ok ce) (s s' t t' : Session) (talk talk' : List (Str × Outcome Failure Str))
    (hs : Undisturbed s) (hs' : Undisturbed s') (hk : KnowsAll s) (hk' : KnowsAll s') (ha : s.args = s'.args)
    (hv : ValidSettings s.args) (hx : ∀ x, sessionValue s x = sessionValue s' x)
    (h : Dialogue m ce s talk t) (h' : Dialogue m' ce s' talk' t') (hl : talk.map (·.1) = talk'.map (·.1))
    (hc : ∀ line ∈ talk.map (·.1), ¬ AboutDatabase line) :
    talk = talk' ∧ t.args = t'.args ∧ ∀ x, sessionValue t x = sessionValue t' x := by
  rw [new_eq_table hce] at h h'
  obtain ⟨h1, h2⟩ := dialogue_alike hb hm hm' h h' ⟨hs, hs', hk, hk', ha, hx⟩ hv hl hc
  exact ⟨h1, h2.args, h2.values⟩

/-- What is answered to the lines. -/
def exTalk (m : Machine) : Session → List Str → List (Str × Outcome Failure Str) × Session
  | s, [] => ([], s)
  | s, line :: lines =>
    match calculate m table line { s with inputs := some { InputHistory.new false with current := [some line] } } with
    | (r, s1) => ((line, r) :: (exTalk m s1 lines).1, (exTalk m s1 lines).2)

theorem exTalk_dialogue (m : Machine) : ∀ (lines : List Str) (s : Session),
    Dialogue m table s (exTalk m s lines).1 (exTalk m s lines).2
  | [], _ => .done
  | line :: lines, _ => .line (h := { InputHistory.new false with current := [some line] }) rfl rfl (exTalk_dialogue m lines _)

/-- A session that knows `$x`, with a database that stores it, or without one. -/
def exKnows (db : Option SavedData) : Session := ⟨.default, db, none, some ⟨[("$x".toList, 2 / 3)]⟩⟩

/-- Three lines. -/
def exLines : List Str := ["$y = 2 * $x".toList, "/radix 12".toList, "$y - b".toList]

example : Undisturbed (exKnows (some ⟨exDb, none, [], []⟩)) ∧ KnowsAll (exKnows (some ⟨exDb, none, [], []⟩)) ∧
    Undisturbed (exKnows none) ∧ KnowsAll (exKnows none) ∧ Stored exDb "$x".toList (2 / 3) := by
  refine ⟨⟨rfl, ?_, ?_⟩, ?_, ⟨rfl, ?_, ?_⟩, ?_, ?_⟩
  · intro sd h; cases h; exact ⟨_, rfl⟩
  · intro sd h; cases h; rfl
  · intro sd x q h hs
    cases h
    have hx : x = "$x".toList := by
      obtain ⟨r, hr, hn, _⟩ := hs
      have : exDb.vars.map (·.name) = ["$x".toList] := by decide +kernel
      have hm := List.mem_map_of_mem (f := VarRow.name) hr
      rw [this] at hm
      rw [← hn]
      simpa using hm
    subst hx
    decide +kernel
  · intro sd h; cases h
  · intro sd h; cases h
  · intro sd x q h; cases h
  · exact ⟨⟨"$x".toList, ['2'], ['3'], 1⟩, by decide +kernel, by decide +kernel⟩

/-- None of the lines speaks of the database. -/
example : ∀ line ∈ exLines, ¬ AboutDatabase line := by
  rintro line hl ⟨cmd, arguments, h, hc⟩
  obtain ⟨name, p, q, ht, hr⟩ := (isCommand_iff 10).1 h
  simp only [exLines, List.mem_cons, List.not_mem_nil, or_false] at hl
  have key : ∀ {i j k : Nat} {u v w : Str},
      tokenize line 10 = .ok (.command ⟨"radix".toList, ⟨i, j⟩⟩ ⟨u, ⟨k, 2⟩⟩) → False := by
    intro i j k u v w e
    rw [ht] at e
    cases e
    have : table.resolve "radix".toList = some .radix := by decide +kernel
    rw [this] at hr
    cases hr
    rcases hc with h | h | h <;> cases h
  rcases hl with rfl | rfl | rfl
  · have : ∃ ts, tokenize "$y = 2 * $x".toList 10 = .ok (.tokens ts) := ⟨[⟨.variable "$y".toList, ⟨0, 2⟩⟩, ⟨.assign, ⟨3, 1⟩⟩,
      ⟨.number 2, ⟨5, 1⟩⟩, ⟨.binary .multiply, ⟨7, 1⟩⟩, ⟨.variable "$x".toList, ⟨9, 2⟩⟩], by decide +kernel⟩
    obtain ⟨ts, e⟩ := this
    rw [ht] at e; cases e
  · have : tokenize "/radix 12".toList 10 = .ok (.command ⟨"radix".toList, ⟨0, 6⟩⟩ ⟨"12".toList, ⟨7, 2⟩⟩) := by decide +kernel
    exact key (v := []) (w := []) this
  · have : tokenize "$y - b".toList 10 ≠ .ok (.command ⟨name, p⟩ ⟨arguments, q⟩) := by
      intro e
      have : ∃ er, tokenize "$y - b".toList 10 = .err er := ⟨⟨.invalidNumber ['b'], ⟨5, 1⟩⟩, by decide +kernel⟩
      obtain ⟨er, e'⟩ := this
      rw [e] at e'; cases e'
    exact this ht

/-- The answers are the same, with a database and without. -/
example : (exTalk exForward (exKnows (some ⟨exDb, none, [], []⟩)) exLines).1 =
      [("$y = 2 * $x".toList, .ok "1.33333".toList), ("/radix 12".toList, .ok "Done".toList),
        ("$y - b".toList, .ok "-9.8".toList)] ∧
    (exTalk exBackward (exKnows none) exLines).1 =
      [("$y = 2 * $x".toList, .ok "1.33333".toList), ("/radix 12".toList, .ok "Done".toList),
        ("$y - b".toList, .ok "-9.8".toList)] := by
  decide +kernel

end Bcalc
