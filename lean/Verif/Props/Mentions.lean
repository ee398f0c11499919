import Verif.Spec.Mentions
import Verif.Props.Together
import Verif.Props.Lexical

/-! # C99: every saved variable is mentioned in the saved history -/

namespace Bcalc
open Spec

theorem blank_not_word {c : Char} (h : Blank c) : ¬ WordChar c := fun hw => hw.1 h

theorem symbol_not_word {c : Char} {t : Token} (h : Symbol c t) : ¬ WordChar c := fun hw => hw.2 t h

theorem lexes_mentions {radix : Nat} {x : Str} {pos : Nat} {text : Str} {ts : List PTok} (h : Lexes radix pos text ts) :
    ∀ pre : Str, ((∀ p c, pre = p ++ [c] → ¬ WordChar c) ∨ Boundary text) → ∀ t ∈ ts, t.value = .variable x →
      SpellsOut (pre ++ text) x := by
  induction h with
  | done => intro _ _ t ht; simp at ht
  | @blank pos c rest ts hb _ ih =>
    intro pre _ t ht hv
    have := ih (pre ++ [c]) (.inl fun p d he => by
      have := (List.append_inj' he rfl).2
      simp only [List.cons.injEq, and_true] at this
      rw [← this]; exact blank_not_word hb) t ht hv
    simpa using this
  | @symbol pos c tk rest ts hb _ ih =>
    intro pre _ t ht hv
    rcases List.mem_cons.1 ht with rfl | ht
    · simp only at hv
      subst hv
      cases hb
    · have := ih (pre ++ [c]) (.inl fun p d he => by
        have := (List.append_inj' he rfl).2
        simp only [List.cons.injEq, and_true] at this
        rw [← this]; exact symbol_not_word hb) t ht hv
      simpa using this
  | @word pos w tk rest ts hne hall hb hw _ ih =>
    intro pre hpre t ht hv
    rcases List.mem_cons.1 ht with rfl | ht
    · simp only at hv
      subst hv
      cases hw with
      | @«variable» _ r he =>
        refine ⟨⟨r, he⟩, hall, pre, rest, by simp, ?_, hb⟩
        rcases hpre with h | h
        · exact h
        · exact absurd (hall '$' (by rw [he]; simp)) (h '$' (r ++ rest) (by rw [he]; rfl))
    · have := ih (pre ++ w) (.inr hb) t ht hv
      simpa using this

/-- The variables of an expression stand in it. -/
theorem tokens_mentions {radix : Nat} (hr : 2 ≤ radix ∧ radix ≤ 16) {line x : Str} {ts : List PTok}
    (h : tokenize line radix = .ok (.tokens ts)) {p : Position} (hx : ⟨.variable x, p⟩ ∈ ts) : SpellsOut line x := by
  obtain ⟨_, _, hl⟩ := (tokenize_tokens_iff hr.1 hr.2 line ts).1 h
  exact lexes_mentions hl [] (.inl fun p c h => by simp at h) _ hx rfl

/-- The variables listed after a command stand in the line. -/
theorem listed_mentions {radix : Nat} (hr : 2 ≤ radix ∧ radix ≤ 16) {line x : Str} {name arguments : Positioned Str}
    (h : tokenize line radix = .ok (.command name arguments)) {ns : List (Positioned Str)}
    (hn : tokenizeVariableList arguments.value = .ok ns) (hx : x ∈ ns.map (·.value)) : SpellsOut line x := by
  obtain ⟨pre, tail, hl, _, _, ht, _⟩ := C04_command_split radix hr.1 hr.2 line name arguments h
  obtain ⟨_, _, ts, hlex, hall⟩ := (C09_variable_list_iff arguments.value ns).1 hn
  obtain ⟨n, hn1, rfl⟩ := List.mem_map.1 hx
  have hmem : ∃ t ∈ ts, t.value = .variable n.value := by
    clear hlex hn hx h
    induction hall with
    | nil => simp at hn1
    | cons hab _ ih =>
      rcases List.mem_cons.1 hn1 with rfl | hn1
      · exact ⟨_, List.mem_cons_self .., hab.1⟩
      · obtain ⟨t, h1, h2⟩ := ih hn1
        exact ⟨t, List.mem_cons_of_mem _ h1, h2⟩
  obtain ⟨t, ht1, ht2⟩ := hmem
  rcases ht with ⟨_, ha⟩ | ⟨b, hb, rfl⟩
  · rw [ha] at hlex
    generalize he : ([] : Str) = e at hlex
    cases hlex with
    | done => simp at ht1
    | blank => cases he
    | symbol => cases he
    | word hne => simp at he; exact absurd he.1 hne
  · have := lexes_mentions hlex (pre ++ '/' :: name.value ++ [b]) (.inl fun p d he => by
      have := (List.append_inj' he rfl).2
      simp only [List.cons.injEq, and_true] at this
      rw [← this]; exact blank_not_word hb) t ht1 ht2
    rw [hl]
    simpa using this

/-- What a line that has been recorded does to the variables, it does to those it mentions. -/
theorem thenOp_mentions {m : Machine} (hm : HashOk m) {radix : Nat} (hr : 2 ≤ radix ∧ radix ≤ 16) {line : Str} {i : Int}
    {op : DbOp} (h : ThenOp m table radix line i op) :
    (∃ y, op = .touch y i ∧ SpellsOut line y) ∨ (∃ var, op = .setVar var i ∧ SpellsOut line var.name) ∨
    (∃ y, op = .clear y) ∨ ∃ n, op = .setCap n := by
  rcases h with ⟨ts, ht, ⟨y, hy, j, hj, rfl⟩ | ⟨tree, hn, x, v, j, hx, hj, rfl⟩⟩ |
    ⟨name, arguments, ht, ⟨cmd, hres, ⟨rfl, ts, hts, y, hy, rfl⟩ | ⟨rfl, n, rfl⟩⟩ | ⟨y, j, hj, ⟨hres, ts, hts, hy⟩, rfl⟩⟩
  · cases hj
    refine .inl ⟨y, rfl, ?_⟩
    have hy := (hash_mem hm).1 hy
    unfold variableNames at hy
    obtain ⟨⟨tk, p⟩, h1, h2⟩ := List.mem_filterMap.1 hy
    simp only at h2
    cases tk <;> simp only [Option.some.injEq, reduceCtorEq] at h2
    subst h2
    exact tokens_mentions hr ht h1
  · cases hj
    obtain ⟨q, rest, hts⟩ := new_resultVar hn hx
    exact .inr (.inl ⟨_, rfl, tokens_mentions hr ht (by rw [hts]; exact List.mem_cons_self ..)⟩)
  · exact .inr (.inr (.inl ⟨y, rfl⟩))
  · exact .inr (.inr (.inr ⟨n, rfl⟩))
  · cases hj
    exact .inl ⟨y, rfl, listed_mentions hr ht hts ((hash_mem hm).1 hy)⟩

/-- Every variable of the store is mentioned by the input it was last used by. -/
def AllMentioned (st : Store) : Prop :=
  ∀ x q i, st.vars x = some (q, i) → ∃ (k : Nat) (line : Str), i = (k : Int) + 1 ∧ st.recorded[k]? = some line ∧ SpellsOut line x

theorem AllMentioned.sub {st st' : Store} (h : AllMentioned st)
    (hv : ∀ x v, st'.vars x = some v → st.vars x = some v)
    (hrec : ∀ (k : Nat) (line : Str), st.recorded[k]? = some line → st'.recorded[k]? = some line) : AllMentioned st' := by
  intro x q i hx
  obtain ⟨k, line, h1, h2, h3⟩ := h x q i (hv x _ hx)
  exact ⟨k, line, h1, hrec k line h2, h3⟩

theorem trim_vars_some (st : Store) (x : Str) (v : Rat × Int) (h : st.trim.vars x = some v) : st.vars x = some v := by
  unfold Store.trim at h
  simp only at h
  cases hv : st.vars x with
  | none => rw [hv] at h; cases h
  | some w =>
    obtain ⟨q, i⟩ := w
    rw [hv] at h
    simp only at h
    split at h
    · exact h
    · cases h

theorem AllMentioned.add {st : Store} (h : AllMentioned st) (line : Str) : AllMentioned (st.step (.add line)) := by
  refine h.sub (fun x v hx => by have := trim_vars_some _ x v hx; exact this) fun k l hk => ?_
  show (st.recorded ++ [line])[k]? = some l
  rw [List.getElem?_append_left (List.getElem?_eq_some_iff.1 hk).1]
  exact hk

/-- The line was recorded last. -/
def RecordedLast (st : Store) (line : Str) (i : Int) : Prop :=
  ∃ k : Nat, i = (k : Int) + 1 ∧ st.recorded[k]? = some line

theorem AllMentioned.op {st : Store} (h : AllMentioned st) {line : Str} {i : Int} (hl : RecordedLast st line i) {op : DbOp}
    (ho : (∃ y, op = .touch y i ∧ SpellsOut line y) ∨ (∃ var, op = .setVar var i ∧ SpellsOut line var.name) ∨
      (∃ y, op = .clear y) ∨ ∃ n, op = .setCap n) : AllMentioned (st.step op) ∧ RecordedLast (st.step op) line i := by
  obtain ⟨k, hk, hk'⟩ := hl
  rcases ho with ⟨y, rfl, hm⟩ | ⟨var, rfl, hm⟩ | ⟨y, rfl⟩ | ⟨n, rfl⟩
  · simp only [Store.step]
    split
    · refine ⟨fun x q j hx => ?_, k, hk, hk'⟩
      simp only at hx
      split at hx
      · next he =>
        subst he
        cases hv : st.vars x with
        | none => rw [hv] at hx; cases hx
        | some w =>
          rw [hv] at hx
          simp only [Option.map_some, Option.some.injEq, Prod.mk.injEq] at hx
          exact ⟨k, line, by omega, hk', hm⟩
      · exact h x q j hx
    · exact ⟨h, k, hk, hk'⟩
  · simp only [Store.step]
    split
    · refine ⟨fun x q j hx => ?_, k, hk, hk'⟩
      simp only at hx
      split at hx
      · next he =>
        subst he
        simp only [Option.some.injEq, Prod.mk.injEq] at hx
        exact ⟨k, line, by omega, hk', hm⟩
      · exact h x q j hx
    · exact ⟨h, k, hk, hk'⟩
  · refine ⟨h.sub (fun x v hx => ?_) fun _ _ h => h, k, hk, hk'⟩
    simp only [Store.step] at hx
    split at hx
    · cases hx
    · exact hx
  · simp only [Store.step]
    split
    · exact ⟨h, k, hk, hk'⟩
    · exact ⟨h.sub (fun x v hx => by have := trim_vars_some _ x v hx; exact this) fun _ _ h => h, k, hk, hk'⟩

theorem AllMentioned.ops {line : Str} {i : Int} : ∀ (ops : List DbOp) {st : Store} {db : Db}, Rep st db →
    AllMentioned st → RecordedLast st line i →
    (∀ op ∈ ops, (∃ y, op = .touch y i ∧ SpellsOut line y) ∨ (∃ var, op = .setVar var i ∧ SpellsOut line var.name) ∨
      (∃ y, op = .clear y) ∨ ∃ n, op = .setCap n) → ∃ st', Rep st' (after ops db) ∧ AllMentioned st'
  | [], st, db, hr, h, _, _ => ⟨st, hr, h⟩
  | op :: ops, st, db, hr, h, hl, ho => by
    obtain ⟨h1, h2⟩ := h.op hl (ho op (by simp))
    exact AllMentioned.ops ops (hr.step op) h1 h2 fun o h => ho o (by simp [h])

/-- A line, or a part of one. -/
theorem recorded_mentions {m : Machine} (hm : HashOk m) {radix : Nat} (hr : 2 ≤ radix ∧ radix ≤ 16) {line : Str}
    {st : Store} {db db' : Db} (hrep : Rep st db) (ha : AllMentioned st)
    (h : Evolves (ThenOp m table radix line (st.recorded.length + 1)) ((DbOp.add line).apply db) db') :
    ∃ st', Rep st' db' ∧ AllMentioned st' := by
  obtain ⟨ops, hops, rfl⟩ := h
  refine AllMentioned.ops (line := line) (i := (st.recorded.length : Int) + 1) ops (hrep.step (.add line)) (ha.add line)
    ⟨st.recorded.length, rfl, ?_⟩ fun op ho => thenOp_mentions hm hr (hops op ho)
  show (st.recorded ++ [line])[st.recorded.length]? = some line
  simp

theorem together_mentions {m : Machine} (hm : HashOk m) {c c' : Company} {log : List Happening} (hr : Reachable c.db)
    (hst : ∃ st, Rep st c.db ∧ AllMentioned st) (hv : ∀ i a, c.members i = some a → ValidSettings a.args)
    (h : Together m table c log c') :
    Reachable c'.db ∧ (∃ st, Rep st c'.db ∧ AllMentioned st) ∧ ∀ i a, c'.members i = some a → ValidSettings a.args := by
  have reach : ∀ {p : DbOp → Prop} {db db' : Db}, Reachable db → Evolves p db db' → Reachable db' := by
    rintro p db db' hr ⟨ops, hp, rfl⟩
    clear hp
    induction ops generalizing db with
    | nil => exact hr
    | cons op ops ih => exact ih (hr.apply op)
  have upd : ∀ {c : Company} {db : Db} {j : Nat} {o : Option Member}, (∀ i a, c.members i = some a → ValidSettings a.args) →
      (∀ a, o = some a → ValidSettings a.args) → ∀ i a, (c.with db j o).members i = some a → ValidSettings a.args := by
    intro c db j o h1 h2 i a h
    simp only [Company.with] at h
    split at h
    · exact h2 a h
    · exact h1 i a h
  induction h with
  | now => exact ⟨hr, hst, hv⟩
  | opens _ hva _ ho ih =>
    obtain ⟨h1, h2, h3⟩ := ih
    refine ⟨?_, ?_, upd h3 fun a ha => by cases ha; exact hva⟩
    · rw [Company.with, opened_same h1 ho]; exact h1
    · rw [Company.with, opened_same h1 ho]; exact h2
  | leaves _ ih =>
    obtain ⟨h1, h2, h3⟩ := ih
    exact ⟨h1, h2, upd h3 fun a ha => by cases ha⟩
  | @enters log c1 i line s sd r s' sd' vars _ hs hc _ _ hd _ ih =>
    obtain ⟨h1, ⟨st, h2, h2'⟩, h3⟩ := ih
    obtain ⟨mb, hmb, harg, _⟩ := hs.member
    have hval : ValidSettings s.args := by rw [harg]; exact h3 i mb hmb
    have he := (submits_ops hs h1 h2 hc hd).1
    refine ⟨reach (h1.apply (.add line)) he, recorded_mentions hm hval.radix h2 h2' he, upd h3 fun a ha => ?_⟩
    cases ha
    have := C62_session m table new_table _ _ (.input (line := line) .now) hval
    rw [hc] at this
    exact this
  | @dies log c1 i line s sd r s' sd' new db _ hs hc hd hn hdb ih =>
    obtain ⟨h1, ⟨st, h2, h2'⟩, h3⟩ := ih
    obtain ⟨mb, hmb, harg, _⟩ := hs.member
    have hval : ValidSettings s.args := by rw [harg]; exact h3 i mb hmb
    have he := (submits_ops hs h1 h2 hc hd).2 new hn db hdb
    exact ⟨reach (h1.apply (.add line)) he, recorded_mentions hm hval.radix h2 h2' he, upd h3 fun a ha => by cases ha⟩

theorem numbered_at {k : Nat} {l : List Str} {i : Int} {s : Str} (h : (i, s) ∈ numbered k l) :
    ∃ j : Nat, i = (k : Int) + j + 1 ∧ l[j]? = some s := by
  induction l generalizing k with
  | nil => simp [numbered] at h
  | cons a l ih =>
    simp only [numbered, List.mem_cons, Prod.mk.injEq] at h
    rcases h with ⟨rfl, rfl⟩ | h
    · exact ⟨0, by simp, rfl⟩
    · obtain ⟨j, h1, h2⟩ := ih h
      exact ⟨j + 1, by rw [h1]; push_cast; omega, h2⟩

/-- The stored variable is mentioned in the input it was last used by, which is still there. -/
theorem row_mentioned {st : Store} {db : Db} (hrep : Rep st db) (ha : AllMentioned st) {row : VarRow} (hrow : row ∈ db.vars) :
    ∃ r ∈ db.history, r.id = row.lastUsedBy ∧ SpellsOut r.input row.name := by
  obtain ⟨q, hq1, hq2⟩ := hrep.varsOk row hrow
  obtain ⟨k, line, h1, h2, h3⟩ := ha row.name q row.lastUsedBy ((hrep.vars _ _ _).2 ⟨row, hrow, rfl, hq1, hq2, rfl⟩)
  have hmem := hrep.wf.vars row hrow
  rw [← rows_ids none st.entries, ← hrep.wf.hist, List.map_map] at hmem
  obtain ⟨r, hr, he⟩ := List.mem_map.1 hmem
  refine ⟨r, hr, he, ?_⟩
  have hin : (r.id, r.input) ∈ st.entries := by
    rw [← rows_ids none st.entries, ← hrep.wf.hist]
    exact List.mem_map.2 ⟨r, hr, rfl⟩
  unfold Store.entries at hin
  obtain ⟨j, h4, h5⟩ := numbered_at hin
  simp only [Function.comp] at he
  unfold Store.history at h5
  rw [List.getElem?_drop] at h5
  have : st.recorded.length - st.kept + j = k := by omega
  rw [this, h2] at h5
  cases h5
  exact h3

/-! ## C99 Every saved variable is mentioned in a saved input -/

/-- However many sessions use the database, whatever they enter, in whatever order, and whoever crashes: the input that
last set or used a saved variable is in the saved history and mentions the variable. -/
theorem C99_mentioned (m : Machine) (hm : HashOk m) (ce : CommandExecutor) (hce : CommandExecutor.new = .ok ce)
    (c : Company) (log : List Happening) (h : Together m ce Company.beginning log c) (v : VarRow) (hv : v ∈ c.db.vars) :
    ∃ r ∈ c.db.history, r.id = v.lastUsedBy ∧ SpellsOut r.input v.name := by
  rw [new_eq_table hce] at h
  obtain ⟨_, ⟨st, h1, h2⟩, _⟩ := together_mentions hm (c := Company.beginning) ⟨[], rfl⟩
    ⟨_, rep_after [], fun _ _ _ h => by cases h⟩ (fun _ _ h => by cases h) h
  exact row_mentioned h1 h2 hv

/-- So a value is saved only for a variable that a line of the saved history mentions. -/
theorem C99_history (m : Machine) (hm : HashOk m) (ce : CommandExecutor) (hce : CommandExecutor.new = .ok ce)
    (c : Company) (log : List Happening) (h : Together m ce Company.beginning log c) (x : Str) (q : Rat)
    (hs : Stored c.db x q) : ∃ line ∈ historyOf c.db, SpellsOut line x := by
  obtain ⟨row, h1, rfl, _⟩ := hs
  obtain ⟨r, h2, _, h3⟩ := C99_mentioned m hm ce hce c log h row h1
  exact ⟨r.input, List.mem_map.2 ⟨r, h2, rfl⟩, h3⟩

open Classical in
/-- The words of a text that begin at its dollar signs. -/
noncomputable def dollarWords : Str → List Str
  | [] => []
  | c :: cs => if c = '$' then (c :: cs.takeWhile fun d => decide (WordChar d)) :: dollarWords cs else dollarWords cs

theorem dollarWords_length (s : Str) : (dollarWords s).length = s.count '$' := by
  induction s with
  | nil => rfl
  | cons c cs ih =>
    unfold dollarWords
    by_cases h : c = '$'
    · subst h; simp [ih]
    · rw [if_neg h, ih, List.count_cons_of_ne h]

theorem mentions_dollarWords {line x : Str} (h : SpellsOut line x) : x ∈ dollarWords line := by
  obtain ⟨⟨r, rfl⟩, hw, pre, rest, rfl, hpre, hb⟩ := h
  clear hpre
  rw [List.append_assoc]
  induction pre with
  | nil =>
    show _ ∈ dollarWords ('$' :: (r ++ rest))
    unfold dollarWords
    rw [if_pos rfl]
    have : ((r ++ rest).takeWhile fun d => @decide (WordChar d) (Classical.propDecidable _)) = r := by
      rw [List.takeWhile_append_of_pos (by
        intro c hc
        simpa using hw c (List.mem_cons_of_mem _ hc))]
      cases rest with
      | nil => simp
      | cons c cs =>
        rw [List.takeWhile_cons_of_neg (by simpa using hb c cs rfl), List.append_nil]
    rw [this]
    exact List.mem_cons_self ..
  | cons c cs ih =>
    show _ ∈ dollarWords (c :: (cs ++ _))
    unfold dollarWords
    split
    · exact List.mem_cons_of_mem _ ih
    · exact ih

/-- And there are no more saved variables than dollar signs in the saved history. -/
theorem C99_count (m : Machine) (hm : HashOk m) (ce : CommandExecutor) (hce : CommandExecutor.new = .ok ce)
    (c : Company) (log : List Happening) (h : Together m ce Company.beginning log c) :
    c.db.vars.length ≤ ((historyOf c.db).map (List.count '$')).sum := by
  have hall := C99_mentioned m hm ce hce c log h
  rw [new_eq_table hce] at h
  obtain ⟨_, ⟨st, h1, _⟩, _⟩ := together_mentions hm (c := Company.beginning) ⟨[], rfl⟩
    ⟨_, rep_after [], fun _ _ _ h => by cases h⟩ (fun _ _ h => by cases h) h
  have hsub : c.db.vars.map (·.name) ⊆ (historyOf c.db).flatMap dollarWords := by
    intro x hx
    obtain ⟨v, hv, rfl⟩ := List.mem_map.1 hx
    obtain ⟨r, hr, _, hm⟩ := hall v hv
    exact List.mem_flatMap.2 ⟨r.input, List.mem_map.2 ⟨r, hr, rfl⟩, mentions_dollarWords hm⟩
  have := (List.subperm_of_subset h1.unique hsub).length_le
  rw [List.length_map, List.length_flatMap] at this
  simpa [dollarWords_length] using this

/-! ### An example -/

/-- One session is opened at a new database, and sets a variable. -/
def exMember : Company := Company.beginning.with newDb 0 (some ⟨.default, .new⟩)

def exMentions : Company := exMember.with exFirstDb.db 0 (some ⟨exFirst.args, exFirst.vars.getD .new⟩)

theorem exMentions_together : Together ⟨true, 20, List.dedup⟩ table Company.beginning
    [.entered 0 .default "$x=2/3".toList (.ok "0.66667".toList), .opened 0] exMentions := by
  refine .enters (s := exSubmit ⟨.default, .new⟩ newDb "$x=2/3") (sd := ⟨newDb, none, [], []⟩) (s' := exFirst)
    (c' := exMember) ?_
    ⟨⟨⟨.default, .new⟩, rfl, rfl, rfl⟩, ⟨_, rfl, by decide +kernel⟩, rfl, rfl, rfl⟩ ?_ (by simp) (by simp) ?_ ?_
  · exact .opens (c' := Company.beginning) (sd := ⟨newDb, none, [], [newDb]⟩) .now
      ⟨by decide, fun r h => (by cases h), by decide⟩ rfl (by decide +kernel)
  · exact Prod.ext (by decide +kernel) rfl
  · decide +kernel
  · decide +kernel

theorem exMentions_db : exMentions.db = exFirstDb.db := by unfold exMentions Company.with; rfl

example : Stored exMentions.db "$x".toList (2 / 3) ∧ historyOf exMentions.db = ["$x=2/3".toList] := by
  rw [exMentions_db]
  have h : exFirstDb.db.vars = [⟨"$x".toList, "2".toList, "3".toList, 1⟩] := by decide +kernel
  refine ⟨⟨⟨"$x".toList, "2".toList, "3".toList, 1⟩, by rw [h]; exact List.mem_singleton.2 rfl, rfl, ?_, ?_⟩, ?_⟩
  · decide +kernel
  · decide +kernel
  · decide +kernel

end Bcalc
