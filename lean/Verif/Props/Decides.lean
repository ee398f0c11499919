import Verif.Props.Calculator
import Verif.Props.SyntaxErrors

/-! # C107 The calculator on one page leaves nothing open -/

namespace Bcalc
open Spec

theorem objection_inputs {s : Session} {line arguments : Str} {cmd : Cmd} {t : Str} {p : Option Position}
    (h : Objection s line arguments cmd t p) : Objection { s with inputs := none } line arguments cmd t p := by
  cases h with
  | help h1 h2 => exact .help h1 h2
  | switch h1 h2 h3 => exact .switch h1 h2 h3
  | integers h1 h2 h3 => exact .integers h1 h2 h3
  | tooMany h1 h2 h3 => exact .tooMany h1 h2 h3
  | small h1 h2 h3 => exact .small h1 h2 h3
  | large h1 h2 h3 => exact .large h1 h2 h3
  | precision h1 h2 h3 => exact .precision h1 h2 h3
  | extra h1 h2 h3 h4 => exact .extra h1 h2 h3 h4
  | sum h1 h2 h3 h4 => exact .sum h1 h2 h3 h4
  | sums h1 h2 h3 h4 h5 h6 => exact .sums h1 h2 h3 h4 h5 h6
  | capacity h1 h2 => exact .capacity h1 h2
  | noCapacity h1 h2 h3 h4 => exact .noCapacity h1 h2 h3 h4
  | names h1 h2 => exact .names h1 h2
  | noStore h1 h2 => exact .noStore h1 h2
  | noDatabase h1 h2 => exact .noDatabase h1 h2
  | noReload h1 h2 h3 => exact .noReload h1 h2 h3

/-- Some build. -/
def anyMachine : Machine := ⟨true, 0, List.dedup⟩

/-- What is objected to fails. -/
theorem objects_fails {c : Calculator} {line arguments : Str} {cmd : Cmd} {t : Str} {p : Option Position}
    (hl : IsCommand line cmd arguments) (h : c.Objects line arguments cmd t p) :
    ∃ s : Session, s.args = c.settings ∧ s.vars.isSome ∧ s.db.isSome = c.saved.isSome ∧ recordInput s = (.ok none, s) ∧
      (calculate anyMachine table line s).1 = .err (.input t p) ∧ Objection s line arguments cmd t p := by
  obtain ⟨s, h1, h2, h3, h4⟩ := h
  have hrec : recordInput { s with inputs := none } = (.ok none, { s with inputs := none }) := rfl
  have h5 := objection_inputs h4
  exact ⟨{ s with inputs := none }, h1, h2, h3, hrec,
    (C76_complaint_iff anyMachine table new_table line _ _ none hrec cmd arguments hl t p).2 h5, h5⟩

theorem variables_names {arguments : Str} {names : List Str} (h : Variables arguments names) : Names arguments := by
  obtain ⟨h1, ts, h2, h3⟩ := h
  refine ⟨h1, ts, h2, fun t ht => ?_⟩
  have : t.value ∈ ts.map (·.value) := List.mem_map.2 ⟨t, ht, rfl⟩
  rw [h3] at this
  obtain ⟨x, _, hx⟩ := List.mem_map.1 this
  exact ⟨x, hx.symm⟩

theorem lexes_one {radix : Nat} (h2 : 2 ≤ radix) (hr : radix ≤ 16) {line : Str} (ha : Ascii line) (hc : ¬ CommandLine line)
    {ts ts' : List PTok} (h : Lexes radix 0 line ts) (h' : Lexes radix 0 line ts') : ts = ts' := by
  have e := (C01_tokens_iff _ h2 hr line ts).2 ⟨ha, hc, h⟩
  rw [(C01_tokens_iff _ h2 hr line ts').2 ⟨ha, hc, h'⟩] at e
  cases e
  rfl

theorem variables_one {arguments : Str} (ha : Ascii arguments) {names names' : List Str} (h : Variables arguments names)
    (h' : Variables arguments names') : names = names' := by
  obtain ⟨h1, ts, h2, h3⟩ := h
  obtain ⟨_, ts', h2', h3'⟩ := h'
  have := lexes_one (by decide) (by decide) ha h1 h2 h2'
  subst this
  rw [h3] at h3'
  exact List.map_injective_iff.2 (fun a b h => by cases h; rfl) h3'

theorem isCommand_ascii {line arguments : Str} {cmd : Cmd} (h : IsCommand line cmd arguments) : Ascii arguments := by
  obtain ⟨name, _, ha, pre, tail, rfl, _, _, ⟨_, rfl⟩ | ⟨b, _, rfl⟩⟩ := h
  · intro c hc; cases hc
  · intro c hc; exact ha c (by simp [hc])

theorem integers_at {arguments : Str} {n : Int} (h : Integers arguments [n]) : ∃ p, IntegersAt arguments [⟨n, p⟩] := by
  obtain ⟨_, h1, ts, ps, h2, h3, h4⟩ := h
  match ps, h4 with
  | [⟨v, p⟩], h4 =>
    simp only [List.map_cons, List.map_nil, List.cons.injEq, and_true] at h4
    subst h4
    exact ⟨p, h1, ts, h2, h3⟩

/-- A command that is carried out is not objected to. -/
theorem does_not_object {c c' : Calculator} {line arguments : Str} {cmd : Cmd} {text t : Str} {p : Option Position}
    (hl : IsCommand line cmd arguments) (h : (c.record line).Does arguments cmd text c')
    (ho : c.Objects line arguments cmd t p) : False := by
  obtain ⟨s, h1, h2, h3, h4, h5, h6⟩ := objects_fails hl ho
  have hsome : c.saved.isSome = (c.record line).saved.isSome := by
    unfold Calculator.record; cases c.saved <;> rfl
  have ha := isCommand_ascii hl
  have hset : (c.record line).settings = s.args := h1.symm
  cases h with
  | set hr =>
    rw [hset] at hr
    rw [(C64_set anyMachine table new_table line s s none h4 cmd arguments hl _ hr).1] at h5
    cases h5
  | «show» hs hn =>
    rw [C64_show anyMachine table new_table line s s none h4 cmd hs arguments hl hn] at h5
    cases h5
  | @limit n hsv hi hn =>
    obtain ⟨q, hi⟩ := integers_at hi
    cases h6 with
    | switch hs _ _ => rcases hs with h | h | h <;> cases h
    | integers _ _ hno => exact noIntegers_not ha hno _ hi
    | @tooMany _ k _ _ _ hk hi' hlt =>
      have := integersAt_unique ha hi hi'
      cases hk
      have := congrArg List.length this
      simp at this
    | small hc _ _ => rcases hc with h | h <;> cases h
    | large hc _ _ => rcases hc with h | h <;> cases h
    | capacity hi' hlt =>
      have := integersAt_unique ha hi hi'
      simp only [List.cons.injEq, Positioned.mk.injEq, and_true] at this
      omega
    | noCapacity hd _ _ _ => rw [hd, hsome, hsv] at h3; cases h3
    | names hc _ => rcases hc with h | h <;> cases h
  | @capacity st hsv hb =>
    have hi : IntegersAt arguments [] := by
      obtain ⟨_, g1, ts, ps, g2, g3, g4⟩ := integers_blank hb
      have : ps = [] := by simpa using g4
      subst this
      exact ⟨g1, ts, g2, g3⟩
    cases h6 with
    | switch hs _ _ => rcases hs with h | h | h <;> cases h
    | integers _ _ hno => exact noIntegers_not ha hno _ hi
    | @tooMany _ k _ _ _ hk hi' hlt =>
      have := integersAt_unique ha hi hi'
      cases this
    | small hc _ _ => rcases hc with h | h <;> cases h
    | large hc _ _ => rcases hc with h | h <;> cases h
    | capacity hi' hlt =>
      have := integersAt_unique ha hi hi'
      cases this
    | noCapacity hd _ _ _ => rw [hd, hsome, hsv] at h3; cases h3
    | names hc _ => rcases hc with h | h <;> cases h
  | forget hv =>
    cases h6 with
    | switch hs _ _ => rcases hs with h | h | h <;> cases h
    | integers hk _ _ => cases hk
    | tooMany hk _ _ => cases hk
    | small hc _ _ => rcases hc with h | h <;> cases h
    | large hc _ _ => rcases hc with h | h <;> cases h
    | names _ hno => exact noNames_not ha hno (variables_names hv)
    | noStore hd _ => rw [hd] at h2; cases h2
  | reload hsv hv _ _ =>
    cases h6 with
    | switch hs _ _ => rcases hs with h | h | h <;> cases h
    | integers hk _ _ => cases hk
    | tooMany hk _ _ => cases hk
    | small hc _ _ => rcases hc with h | h <;> cases h
    | large hc _ _ => rcases hc with h | h <;> cases h
    | names _ hno => exact noNames_not ha hno (variables_names hv)
    | noDatabase hd _ => rw [hd, hsome, hsv] at h3; cases h3
    | noReload _ hd _ => rw [hd] at h2; cases h2
  | help hh =>
    cases hh with
    | listing hb _ _ _ _ =>
      obtain ⟨_, _, g, _⟩ := C79_listing anyMachine table new_table line s s none h4 arguments hl hb
      rw [g] at h5; cases h5
    | topic hn ht _ _ _ =>
      obtain ⟨_, g, _⟩ := C79_topic anyMachine table new_table line s s none h4 arguments hl _ _ hn _ ht
      rw [g] at h5; cases h5

/-- A command has one effect. -/
theorem does_one {c c1 c2 : Calculator} {line arguments : Str} {cmd : Cmd} {text text' : Str}
    (hl : IsCommand line cmd arguments) (h : c.Does arguments cmd text c1) (h' : c.Does arguments cmd text' c2) : c1 = c2 := by
  have ha := isCommand_ascii hl
  let s : Session := ⟨c.settings, none, none, none⟩
  have hrec : recordInput s = (.ok none, s) := rfl
  have req : ∀ {a a'}, Requests arguments c.settings cmd a → Requests arguments c.settings cmd a' → a = a' := by
    intro a a' h h'
    rw [← (C64_set anyMachine table new_table line s s none hrec cmd arguments hl a h).2,
      (C64_set anyMachine table new_table line s s none hrec cmd arguments hl a' h').2]
  have same : ∀ {a}, Setting cmd → NoArgument arguments cmd → Requests arguments c.settings cmd a → a = c.settings := by
    intro a hs hn h
    rw [← (C64_set anyMachine table new_table line s s none hrec cmd arguments hl a h).2,
      C64_show anyMachine table new_table line s s none hrec cmd hs arguments hl hn]
  cases h with
  | set hr =>
    cases h' with
    | set hr' => rw [req hr hr']
    | «show» hs hn => rw [same hs hn hr]
    | limit => cases hr
    | capacity => cases hr
    | forget => cases hr
    | reload => cases hr
    | help => cases hr
  | «show» hs hn =>
    cases h' with
    | set hr' => rw [same hs hn hr']
    | «show» => rfl
    | limit => cases hs
    | capacity => cases hs
    | forget => cases hs
    | reload => cases hs
    | help => cases hs
  | limit h1 h2 h3 =>
    cases h' with
    | set hr' => cases hr'
    | «show» hs _ => cases hs
    | limit h1' h2' h3' =>
      obtain ⟨p, h2⟩ := integers_at h2
      obtain ⟨p', h2'⟩ := integers_at h2'
      have := integersAt_unique ha h2 h2'
      simp only [List.cons.injEq, Positioned.mk.injEq, and_true, Int.natCast_inj] at this
      rw [this.1]
    | capacity h1' h2' =>
      obtain ⟨p, h2⟩ := integers_at h2
      obtain ⟨_, g1, ts, ps, g2, g3, g4⟩ := integers_blank h2'
      have : ps = [] := by simpa using g4
      subst this
      have := integersAt_unique ha h2 ⟨g1, ts, g2, g3⟩
      cases this
  | capacity h1 h2 =>
    cases h' with
    | set hr' => cases hr'
    | «show» hs _ => cases hs
    | capacity => rfl
    | limit _ h2' _ =>
      obtain ⟨p, h2'⟩ := integers_at h2'
      obtain ⟨_, g1, ts, ps, g2, g3, g4⟩ := integers_blank h2
      have : ps = [] := by simpa using g4
      subst this
      have := integersAt_unique ha h2' ⟨g1, ts, g2, g3⟩
      cases this
  | forget h1 =>
    cases h' with
    | set hr' => cases hr'
    | «show» hs _ => cases hs
    | forget h1' => rw [variables_one ha h1 h1']
  | reload h1 h2 _ _ =>
    cases h' with
    | set hr' => cases hr'
    | «show» hs _ => cases hs
    | reload h1' h2' _ _ =>
      rw [h1] at h1'
      cases h1'
      rw [variables_one ha h2 h2']
  | help =>
    cases h' with
    | set hr' => cases hr'
    | «show» hs _ => cases hs
    | help => rfl

/-- What the words of a line lead to. -/
def Outcomes (E : Evaluator) (c : Calculator) (line : Str) (good : Prop) (c' : Calculator) : Prop :=
  match tokenize line c.settings.radix with
  | .ok (.tokens ts) =>
    if ts = [] then good ∧ c' = c.record line else
    match SyntaxTree.new ts with
    | .ok ⟨target, n⟩ =>
      (good ∧ ∃ v, E.val c.settings (c.record line).finds n v ∧
        c' = match target with
          | none => ((c.record line).use (variablesOf ts)).remember (Looked (E.val c.settings (c.record line).finds) n)
          | some x =>
            (((c.record line).use (variablesOf ts)).remember (Looked (E.val c.settings (c.record line).finds) n)).assign x.value v) ∨
      (¬ good ∧ (∃ t p, Refused true (c.record line).finds (E.val c.settings (c.record line).finds) n t p) ∧
        c' = ((c.record line).use (variablesOf ts)).remember (Looked (E.val c.settings (c.record line).finds) n))
    | _ => ¬ good ∧ c' = (c.record line).use (variablesOf ts)
  | .ok (.command name arguments) =>
    match table.resolve name.value with
    | none => ¬ good ∧ c' = c.record line
    | some cmd => IsCommand line cmd arguments.value ∧
      ((good ∧ ∃ text, (c.record line).Does arguments.value cmd text c') ∨
       (¬ good ∧ c' = c.record line ∧ ∃ t p, c.Objects line arguments.value cmd t p))
  | _ => ¬ good ∧ c' = c.record line

theorem enters_outcomes {E : Evaluator} {c c' : Calculator} {line : Str} {r : Outcome Failure Str} (hv : ValidSettings c.settings)
    (h : Enters E c line r c') : Outcomes E c line (∃ t, r = .ok t) c' := by
  have hbad : ∀ {f : Failure}, ¬ ∃ t : Str, (Outcome.err f : Outcome Failure Str) = .ok t := by rintro f ⟨t, ht⟩; cases ht
  unfold Outcomes
  cases h with
  | character h1 h2 h3 =>
    rw [h1, C03_nonAscii _ _ _ _ h2 h3]
    exact ⟨hbad, rfl⟩
  | word h1 h2 h3 =>
    rw [(C03_badWord_iff _ hv.radix.1 hv.radix.2 line h1 h2 _).2 ⟨_, _, h3, rfl⟩]
    exact ⟨hbad, rfl⟩
  | blank h1 =>
    have hl : Lexes c.settings.radix 0 line [] := lexes_blanks h1
    have hnc : ¬ CommandLine line := (integers_blank h1).2.1
    rw [(C01_tokens_iff _ hv.radix.1 hv.radix.2 line []).2 ⟨(integers_blank h1).1, hnc, hl⟩]
    exact ⟨⟨_, rfl⟩, rfl⟩
  | @«syntax» ts _ _ h1 h2 h3 h4 h5 =>
    rw [(C01_tokens_iff _ hv.radix.1 hv.radix.2 line ts).2 ⟨h1, h2, h3⟩]
    simp only [if_neg h4]
    rcases C12_total ts with ⟨t, ht⟩ | ⟨e, he⟩
    · exact absurd ht (C75_real ts _ _ h5 t)
    · rw [he]; exact ⟨hbad, by trivial⟩
  | @refused ts target n _ _ _ h1 h2 h3 h4 h5 h6 =>
    rw [(C01_tokens_iff _ hv.radix.1 hv.radix.2 line ts).2 ⟨h1, h2, h3⟩]
    simp only
    rw [if_neg (by rintro rfl; exact input_ne_nil h4), (C10_parser_iff_grammar ts ⟨target, n⟩).2 h4]
    subst h5
    exact .inr ⟨hbad, ⟨_, _, h6⟩, rfl⟩
  | @value ts n v _ _ h1 h2 h3 h4 h5 h6 h7 =>
    rw [(C01_tokens_iff _ hv.radix.1 hv.radix.2 line ts).2 ⟨h1, h2, h3⟩]
    simp only
    rw [if_neg (by rintro rfl; exact input_ne_nil h4), (C10_parser_iff_grammar ts ⟨none, n⟩).2 h4]
    subst h5
    exact .inl ⟨⟨_, rfl⟩, v, h6, rfl⟩
  | @assignment ts x n v _ _ h1 h2 h3 h4 h5 h6 h7 =>
    rw [(C01_tokens_iff _ hv.radix.1 hv.radix.2 line ts).2 ⟨h1, h2, h3⟩]
    simp only
    rw [if_neg (by rintro rfl; exact input_ne_nil h4), (C10_parser_iff_grammar ts ⟨some x, n⟩).2 h4]
    subst h5
    exact .inl ⟨⟨_, rfl⟩, v, h6, rfl⟩
  | @unknown name arguments p h1 h2 h3 =>
    obtain ⟨q, q', ht⟩ := tokenize_named h1 c.settings.radix
    rw [ht]
    simp only
    have hno : table.resolve name = none := by
      cases hr : table.resolve name with
      | none => rfl
      | some cmd =>
        obtain ⟨n, hn, hnn⟩ := ((isCommand_iff c.settings.radix).2 ⟨name, q, q', ht, hr⟩ : IsCommand line cmd arguments)
        have := tokenize_named hnn c.settings.radix
        rw [ht] at this
        obtain ⟨_, _, e⟩ := this
        cases e
        exact absurd rfl (h2 n cmd hn)
    rw [hno]
    exact ⟨hbad, by trivial⟩
  | objection h1 h2 =>
    obtain ⟨name, p, q, ht, hr⟩ := (isCommand_iff c.settings.radix).1 h1
    rw [ht]
    simp only [hr]
    exact ⟨h1, .inr ⟨hbad, by trivial, _, _, h2⟩⟩
  | command h1 h2 =>
    obtain ⟨name, p, q, ht, hr⟩ := (isCommand_iff c.settings.radix).1 h1
    rw [ht]
    simp only [hr]
    exact ⟨h1, .inl ⟨⟨_, rfl⟩, _, h2⟩⟩

/-- The rules leave no choice: for a given state and line there is one next state, and either only results or only
complaints for a reply. -/
theorem C107_decided (E : Evaluator) (c c1 c2 : Calculator) (line : Str) (r r' : Outcome Failure Str)
    (hv : ValidSettings c.settings) (hp : c.settings.precision + c.settings.extraPrecision ≤ 254)
    (h : Enters E c line r c1) (h' : Enters E c line r' c2) : c1 = c2 ∧ ((∃ t, r = .ok t) ↔ ∃ t, r' = .ok t) := by
  have k := enters_outcomes hv h
  have k' := enters_outcomes hv h'
  generalize (∃ t, r = .ok t) = g at k ⊢
  generalize (∃ t, r' = .ok t) = g' at k' ⊢
  unfold Outcomes at k k'
  have both : ∀ {d : Calculator}, ¬ g ∧ c1 = d → ¬ g' ∧ c2 = d → c1 = c2 ∧ (g ↔ g') := by
    rintro d ⟨a, b⟩ ⟨a', b'⟩
    exact ⟨b.trans b'.symm, iff_of_false a a'⟩
  cases ht : tokenize line c.settings.radix with
  | err e => rw [ht] at k k'; exact both k k'
  | panic e => rw [ht] at k k'; exact both k k'
  | diverge => rw [ht] at k k'; exact both k k'
  | ok pi =>
    rw [ht] at k k'
    cases pi with
    | tokens ts =>
      simp only at k k'
      by_cases hts : ts = []
      · rw [if_pos hts] at k k'
        exact ⟨k.2.trans k'.2.symm, iff_of_true k.1 k'.1⟩
      · rw [if_neg hts] at k k'
        cases hn : SyntaxTree.new ts with
        | err e => rw [hn] at k k'; exact both k k'
        | panic e => rw [hn] at k k'; exact both k k'
        | diverge => rw [hn] at k k'; exact both k k'
        | ok tree =>
          obtain ⟨target, n⟩ := tree
          rw [hn] at k k'
          rcases k with ⟨a, v, hval, e⟩ | ⟨a, ⟨t, p, href⟩, e⟩ <;> rcases k' with ⟨a', v', hval', e'⟩ | ⟨a', ⟨t', p', href'⟩, e'⟩
          · have := E.one hval hval'
            subst this
            exact ⟨e.trans e'.symm, iff_of_true a a'⟩
          · exact absurd href' (E.accepted hv hp hval)
          · exact absurd href (E.accepted hv hp hval')
          · exact ⟨e.trans e'.symm, iff_of_false a a'⟩
    | command name arguments =>
      simp only at k k'
      cases hr : table.resolve name.value with
      | none => rw [hr] at k k'; exact both k k'
      | some cmd =>
        rw [hr] at k k'
        obtain ⟨hl, k⟩ := k
        obtain ⟨_, k'⟩ := k'
        rcases k with ⟨a, t, hd⟩ | ⟨a, e, t, p, ho⟩ <;> rcases k' with ⟨a', t', hd'⟩ | ⟨a', e', t', p', ho'⟩
        · exact ⟨does_one hl hd hd', iff_of_true a a'⟩
        · exact (does_not_object hl hd ho').elim
        · exact (does_not_object hl hd' ho).elim
        · exact ⟨e.trans e'.symm, iff_of_false a a'⟩

/-- Only the settings, and whether there is saved data, matter for an objection. -/
theorem objection_like {s s' : Session} {line arguments : Str} {cmd : Cmd} {t : Str} {p : Option Position}
    (ha : s'.args = s.args) (hd : s'.db.isSome = s.db.isSome) (hs : s'.vars.isSome = s.vars.isSome)
    (h : Objection s line arguments cmd t p) : Objection s' line arguments cmd t p := by
  have hdn : s.db = none → s'.db = none := by
    intro h; rw [h] at hd; exact Option.not_isSome_iff_eq_none.1 (by rw [hd]; simp)
  have hsn : s.vars = none → s'.vars = none := by
    intro h; rw [h] at hs; exact Option.not_isSome_iff_eq_none.1 (by rw [hs]; simp)
  cases h with
  | help h1 h2 => exact .help h1 h2
  | switch h1 h2 h3 => exact .switch h1 h2 h3
  | integers h1 h2 h3 => exact .integers h1 h2 h3
  | tooMany h1 h2 h3 => exact .tooMany h1 h2 h3
  | small h1 h2 h3 => exact .small h1 h2 h3
  | large h1 h2 h3 => exact .large h1 h2 h3
  | precision h1 h2 h3 => exact .precision h1 h2 h3
  | extra h1 h2 h3 h4 => exact .extra h1 h2 h3 h4
  | sum h1 h2 h3 h4 => exact .sum h1 h2 h3 (by rw [ha]; exact h4)
  | sums h1 h2 h3 h4 h5 h6 => exact .sums h1 h2 h3 h4 h5 h6
  | capacity h1 h2 => exact .capacity h1 h2
  | noCapacity h1 h2 h3 h4 => exact .noCapacity (hdn h1) h2 h3 h4
  | names h1 h2 => exact .names h1 h2
  | noStore h1 h2 => exact .noStore (hsn h1) h2
  | noDatabase h1 h2 => exact .noDatabase (hdn h1) h2
  | noReload h1 h2 h3 => exact .noReload (by rw [hd]; exact h1) (hsn h2) h3

/-- There is one objection. -/
theorem objects_one {c : Calculator} {line arguments : Str} {cmd : Cmd} {t t' : Str} {p p' : Option Position}
    (hl : IsCommand line cmd arguments) (h : c.Objects line arguments cmd t p) (h' : c.Objects line arguments cmd t' p') :
    t = t' ∧ p = p' := by
  obtain ⟨s, h1, h2, h3, h4, h5, h6⟩ := objects_fails hl h
  obtain ⟨s', k1, k2, k3, k4⟩ := h'
  have h7 := (C76_complaint_iff anyMachine table new_table line s s none h4 cmd arguments hl t' p').2
    (objection_like (h1.trans k1.symm) (h3.trans k3.symm) (h2.trans k2.symm) k4)
  rw [h5] at h7
  cases h7
  exact ⟨rfl, rfl⟩

theorem forall₂_mem {V : Node → Rat → Prop} {ns : List Node} {vs : List Rat} (h : List.Forall₂ V ns vs) {n : Node} (hn : n ∈ ns) :
    ∃ v, v ∈ vs ∧ V n v := by
  induction h with
  | nil => cases hn
  | cons h1 _ ih =>
    rcases List.mem_cons.1 hn with rfl | hn
    · exact ⟨_, by simp, h1⟩
    · obtain ⟨v, h2, h3⟩ := ih hn
      exact ⟨v, by simp [h2], h3⟩

/-- There is one reason why an expression has no value. -/
theorem refused_one {ρ : Valuation} {V : Node → Rat → Prop} (ha : ∀ n a t p, V n a → ¬ Refused true ρ V n t p) {n : Node} {t t' : Str}
    {p p' : Position} (h : Refused true ρ V n t p) (h' : Refused true ρ V n t' p') : t = t' ∧ p = p' := by
  induction h with
  | «variable» _ => cases h'; exact ⟨rfl, rfl⟩
  | paren h ih => cases h' with | paren h' => exact ih h'
  | operand h ih =>
    cases h' with
    | operand h' => exact ih h'
    | sqrt h1 _ => exact absurd h (ha _ _ _ _ h1)
  | left h ih =>
    cases h' with
    | left h' => exact ih h'
    | right h1 _ => exact absurd h (ha _ _ _ _ h1)
    | divide h1 _ => exact absurd h (ha _ _ _ _ h1)
    | power h1 _ _ _ => exact absurd h (ha _ _ _ _ h1)
  | right h1 h ih =>
    cases h' with
    | left h' => exact absurd h' (ha _ _ _ _ h1)
    | right _ h' => exact ih h'
    | divide _ h2 => exact absurd h (ha _ _ _ _ h2)
    | power _ h2 _ _ => exact absurd h (ha _ _ _ _ h2)
  | divide h1 h2 =>
    cases h' with
    | left h' => exact absurd h' (ha _ _ _ _ h1)
    | right _ h' => exact absurd h' (ha _ _ _ _ h2)
    | divide => exact ⟨rfl, rfl⟩
  | power h1 h2 _ _ =>
    cases h' with
    | left h' => exact absurd h' (ha _ _ _ _ h1)
    | right _ h' => exact absurd h' (ha _ _ _ _ h2)
    | power => exact ⟨rfl, rfl⟩
  | sqrt h1 _ =>
    cases h' with
    | operand h' => exact absurd h' (ha _ _ _ _ h1)
    | sqrt => exact ⟨rfl, rfl⟩
  | @argument f q ns n ns' q' vs t r h1 h ih =>
    generalize hns : ns ++ n :: ns' = all at h'
    cases h' with
    | @argument _ _ ms k ms' _ ws _ _ h2 h' =>
      rcases List.append_eq_append_iff.1 hns with ⟨a, e1, e2⟩ | ⟨a, e1, e2⟩
      · cases a with
        | nil =>
          simp only [List.nil_append, List.cons.injEq] at e2
          rw [← e2.1] at h'
          exact ih h'
        | cons x xs =>
          simp only [List.cons_append, List.cons.injEq] at e2
          have hm : n ∈ ms := by rw [e1, e2.1]; simp
          obtain ⟨v, _, hv⟩ := forall₂_mem h2 hm
          exact absurd h (ha _ _ _ _ hv)
      · cases a with
        | nil =>
          simp only [List.nil_append, List.cons.injEq] at e2
          rw [e2.1] at h'
          exact ih h'
        | cons x xs =>
          simp only [List.cons_append, List.cons.injEq] at e2
          have hm : k ∈ ns := by rw [e1, e2.1]; simp
          obtain ⟨v, _, hv⟩ := forall₂_mem h1 hm
          exact absurd h' (ha _ _ _ _ hv)
    | noArguments => simp at hns
  | noArguments =>
    generalize hns : ([] : List Node) = all at h'
    cases h' with
    | argument => simp at hns
    | noArguments => exact ⟨rfl, rfl⟩

/-- What the words of a line are answered with. -/
def Replies (E : Evaluator) (c : Calculator) (line : Str) (r : Outcome Failure Str) : Prop :=
  match tokenize line c.settings.radix with
  | .ok (.tokens ts) =>
    if ts = [] then r = .ok [] else
    match SyntaxTree.new ts with
    | .ok ⟨_, n⟩ =>
      (∃ v text, E.val c.settings (c.record line).finds n v ∧ WrittenAs c.settings v text ∧ r = .ok text) ∨
      (∃ t p, Refused true (c.record line).finds (E.val c.settings (c.record line).finds) n t p ∧ r = .err (.input t (some p)))
    | _ => Lexes c.settings.radix 0 line ts ∧ ¬ CommandLine line ∧ ∃ text p, Defect ts text p
  | .ok (.command name arguments) =>
    match table.resolve name.value with
    | none => r = .err (.input ("No such command: '".toList ++ name.value ++ "'".toList) (some name.position))
    | some cmd => IsCommand line cmd arguments.value ∧
      ((∃ text c', (c.record line).Does arguments.value cmd text c' ∧ r = .ok text) ∨
       (∃ t p, c.Objects line arguments.value cmd t p ∧ r = .err (.input t p)))
  | .err e => r = .err (Failure.ofParse e)
  | _ => False

theorem enters_replies {E : Evaluator} {c c' : Calculator} {line : Str} {r : Outcome Failure Str} (hv : ValidSettings c.settings)
    (h : Enters E c line r c') : Replies E c line r := by
  unfold Replies
  cases h with
  | character h1 h2 h3 =>
    rw [h1, C03_nonAscii _ _ _ _ h2 h3]
    rfl
  | word h1 h2 h3 =>
    rw [(C03_badWord_iff _ hv.radix.1 hv.radix.2 line h1 h2 _).2 ⟨_, _, h3, rfl⟩]
    rfl
  | blank h1 =>
    have hl : Lexes c.settings.radix 0 line [] := lexes_blanks h1
    have hnc : ¬ CommandLine line := (integers_blank h1).2.1
    rw [(C01_tokens_iff _ hv.radix.1 hv.radix.2 line []).2 ⟨(integers_blank h1).1, hnc, hl⟩]
    rfl
  | @«syntax» ts _ _ h1 h2 h3 h4 h5 =>
    rw [(C01_tokens_iff _ hv.radix.1 hv.radix.2 line ts).2 ⟨h1, h2, h3⟩]
    simp only [if_neg h4]
    rcases C12_total ts with ⟨t, ht⟩ | ⟨e, he⟩
    · exact absurd ht (C75_real ts _ _ h5 t)
    · rw [he]; exact ⟨h3, h2, _, _, h5⟩
  | @refused ts target n _ _ _ h1 h2 h3 h4 h5 h6 =>
    rw [(C01_tokens_iff _ hv.radix.1 hv.radix.2 line ts).2 ⟨h1, h2, h3⟩]
    simp only
    rw [if_neg (by rintro rfl; exact input_ne_nil h4), (C10_parser_iff_grammar ts ⟨target, n⟩).2 h4]
    subst h5
    exact .inr ⟨_, _, h6, rfl⟩
  | @value ts n v _ _ h1 h2 h3 h4 h5 h6 h7 =>
    rw [(C01_tokens_iff _ hv.radix.1 hv.radix.2 line ts).2 ⟨h1, h2, h3⟩]
    simp only
    rw [if_neg (by rintro rfl; exact input_ne_nil h4), (C10_parser_iff_grammar ts ⟨none, n⟩).2 h4]
    subst h5
    exact .inl ⟨v, _, h6, h7, rfl⟩
  | @assignment ts x n v _ _ h1 h2 h3 h4 h5 h6 h7 =>
    rw [(C01_tokens_iff _ hv.radix.1 hv.radix.2 line ts).2 ⟨h1, h2, h3⟩]
    simp only
    rw [if_neg (by rintro rfl; exact input_ne_nil h4), (C10_parser_iff_grammar ts ⟨some x, n⟩).2 h4]
    subst h5
    exact .inl ⟨v, _, h6, h7, rfl⟩
  | @unknown name arguments p h1 h2 h3 =>
    obtain ⟨arguments', q', ht⟩ := (slashed_tokenize h1.1 _ _ c.settings.radix).1 h3
    rw [ht]
    simp only
    have hno : table.resolve name = none := by
      cases hr : table.resolve name with
      | none => rfl
      | some cmd =>
        obtain ⟨n, hn, e⟩ := (C66_names table new_table name cmd).1 hr
        exact absurd e.symm (h2 n cmd hn)
    rw [hno]
    trivial
  | objection h1 h2 =>
    obtain ⟨name, p, q, ht, hr⟩ := (isCommand_iff c.settings.radix).1 h1
    rw [ht]
    simp only [hr]
    exact ⟨h1, .inr ⟨_, _, h2, rfl⟩⟩
  | command h1 h2 =>
    obtain ⟨name, p, q, ht, hr⟩ := (isCommand_iff c.settings.radix).1 h1
    rw [ht]
    simp only [hr]
    exact ⟨h1, .inl ⟨_, _, h2, rfl⟩⟩

/-- Apart from `/help` and `/reloadvar`, a command says one thing. -/
theorem does_says {c c1 c2 : Calculator} {line arguments : Str} {cmd : Cmd} {text text' : Str} (hl : IsCommand line cmd arguments)
    (hh : cmd ≠ .help) (hr : cmd ≠ .reloadVar)
    (h : c.Does arguments cmd text c1) (h' : c.Does arguments cmd text' c2) : text = text' := by
  have ha := isCommand_ascii hl
  let s : Session := ⟨c.settings, none, none, none⟩
  have hrec : recordInput s = (.ok none, s) := rfl
  have said : ∀ {a}, Setting cmd → NoArgument arguments cmd → Requests arguments c.settings cmd a →
      "Done".toList = settingText c.settings cmd := by
    intro a hs hn h
    have h1 := (C64_set anyMachine table new_table line s s none hrec cmd arguments hl a h).1
    rw [C64_show anyMachine table new_table line s s none hrec cmd hs arguments hl hn] at h1
    exact (Outcome.ok.inj h1).symm
  cases h with
  | set hq =>
    cases h' with
    | set hr' => rfl
    | «show» hs hn => exact said hs hn hq
    | limit => rfl
    | capacity => cases hq
    | forget => rfl
    | reload => exact absurd rfl hr
    | help => exact absurd rfl hh
  | «show» hs hn =>
    cases h' with
    | set hr' => exact (said hs hn hr').symm
    | «show» => rfl
    | limit => cases hs
    | capacity => cases hs
    | forget => cases hs
    | reload => exact absurd rfl hr
    | help => exact absurd rfl hh
  | limit h1 h2 h3 =>
    cases h' with
    | set hr' => rfl
    | «show» hs _ => cases hs
    | limit => rfl
    | capacity h1' h2' =>
      obtain ⟨p, h2⟩ := integers_at h2
      obtain ⟨_, g1, ts, ps, g2, g3, g4⟩ := integers_blank h2'
      have : ps = [] := by simpa using g4
      subst this
      have := integersAt_unique ha h2 ⟨g1, ts, g2, g3⟩
      cases this
  | capacity h1 h2 =>
    cases h' with
    | set hr' => cases hr'
    | «show» hs _ => cases hs
    | capacity h1' _ => rw [h1] at h1'; cases h1'; rfl
    | limit _ h2' _ =>
      obtain ⟨p, h2'⟩ := integers_at h2'
      obtain ⟨_, g1, ts, ps, g2, g3, g4⟩ := integers_blank h2
      have : ps = [] := by simpa using g4
      subst this
      have := integersAt_unique ha h2' ⟨g1, ts, g2, g3⟩
      cases this
  | forget h1 =>
    cases h' with
    | set hr' => rfl
    | «show» hs _ => cases hs
    | forget h1' => rfl
  | reload h1 h2 _ _ => exact absurd rfl hr
  | help => exact absurd rfl hh

/-- The reply is determined as well, to the last character, with three exceptions: of several defects of a line any may
be named; `/help` may choose its words; and `/reloadvar` may mention the variables in any order. -/
theorem C107_reply (E : Evaluator) (c c1 c2 : Calculator) (line : Str) (r r' : Outcome Failure Str)
    (hv : ValidSettings c.settings) (hp : c.settings.precision + c.settings.extraPrecision ≤ 254)
    (hd : CommandLine line ∨ ∀ ts text p, Lexes c.settings.radix 0 line ts → ts ≠ [] → ¬ Defect ts text p)
    (hh : ∀ arguments, ¬ IsCommand line .help arguments) (hr : ∀ arguments, ¬ IsCommand line .reloadVar arguments)
    (h : Enters E c line r c1) (h' : Enters E c line r' c2) : r = r' := by
  have k := enters_replies hv h
  have k' := enters_replies hv h'
  unfold Replies at k k'
  cases ht : tokenize line c.settings.radix with
  | err e => rw [ht] at k k'; exact k.trans k'.symm
  | panic e => rw [ht] at k; exact k.elim
  | diverge => rw [ht] at k; exact k.elim
  | ok pi =>
    rw [ht] at k k'
    cases pi with
    | tokens ts =>
      simp only at k k'
      by_cases hts : ts = []
      · rw [if_pos hts] at k k'
        exact k.trans k'.symm
      · rw [if_neg hts] at k k'
        have bad : (Lexes c.settings.radix 0 line ts ∧ ¬ CommandLine line ∧ ∃ text p, Defect ts text p) → r = r' := by
          rintro ⟨h1, h2, t, p, h3⟩
          rcases hd with hd | hd
          · exact absurd hd h2
          · exact absurd h3 (hd ts t p h1 hts)
        cases hn : SyntaxTree.new ts with
        | err e => rw [hn] at k; exact bad k
        | panic e => rw [hn] at k; exact bad k
        | diverge => rw [hn] at k; exact bad k
        | ok tree =>
          obtain ⟨target, n⟩ := tree
          rw [hn] at k k'
          rcases k with ⟨v, t, hval, hw, e⟩ | ⟨t, p, href, e⟩ <;> rcases k' with ⟨v', t', hval', hw', e'⟩ | ⟨t', p', href', e'⟩
          · have := E.one hval hval'
            subst this
            rw [e, e', C108_one _ (outputRadix_valid hv).1 _ _ _ hw hw']
          · exact absurd href' (E.accepted hv hp hval)
          · exact absurd href (E.accepted hv hp hval')
          · obtain ⟨rfl, rfl⟩ := refused_one (fun n a t p hv' => E.accepted hv hp hv') href href'
            rw [e, e']
    | command name arguments =>
      simp only at k k'
      cases hres : table.resolve name.value with
      | none => rw [hres] at k k'; exact k.trans k'.symm
      | some cmd =>
        rw [hres] at k k'
        obtain ⟨hl, k⟩ := k
        obtain ⟨_, k'⟩ := k'
        rcases k with ⟨t, d, hdo, e⟩ | ⟨t, p, ho, e⟩ <;> rcases k' with ⟨t', d', hdo', e'⟩ | ⟨t', p', ho', e'⟩
        · rw [e, e', does_says hl (by rintro rfl; exact hh _ hl) (by rintro rfl; exact hr _ hl) hdo hdo']
        · exact (does_not_object hl hdo ho').elim
        · exact (does_not_object hl hdo' ho).elim
        · obtain ⟨rfl, rfl⟩ := objects_one hl ho ho'
          rw [e, e']

/-- The settings stay valid. -/
theorem enters_valid {E : Evaluator} {c c' : Calculator} {line : Str} {r : Outcome Failure Str} (hv : ValidSettings c.settings)
    (h : Enters E c line r c') : ValidSettings c'.settings := by
  cases h with
  | command hl h =>
    cases h with
    | set hr =>
      let s : Session := ⟨c.settings, none, none, none⟩
      have hrec : recordInput s = (.ok none, s) := rfl
      have h1 := (C64_set anyMachine table new_table line s s none hrec _ _ hl _ hr).2
      have h2 := C62_session anyMachine table new_table _ _ (.input (line := line) .now) (show ValidSettings s.args from hv)
      rw [h1] at h2
      exact h2
    | «show» => exact hv
    | limit => exact hv
    | capacity => exact hv
    | forget => exact hv
    | reload => exact hv
    | help => exact hv
  | character => exact hv
  | word => exact hv
  | blank => exact hv
  | «syntax» => exact hv
  | refused => exact hv
  | value => exact hv
  | assignment => exact hv
  | unknown => exact hv
  | objection => exact hv

/-- And so for conversations: the same lines lead to the same state, and the replies are of the same kind, as long as the
two precisions do not add up to 255. -/
theorem C107_talk (E : Evaluator) (c c1 c2 : Calculator) (talk talk' : List (Str × Outcome Failure Str))
    (hv : ValidSettings c.settings)
    (hp : ∀ before after c', talk = before ++ after → Converses E c before c' →
      c'.settings.precision + c'.settings.extraPrecision ≤ 254)
    (h : Converses E c talk c1) (h' : Converses E c talk' c2) (hs : talk.map (·.1) = talk'.map (·.1)) :
    c1 = c2 ∧ talk.map (fun p => ∃ t, p.2 = .ok t) = talk'.map (fun p => ∃ t, p.2 = .ok t) := by
  induction h generalizing talk' with
  | done =>
    cases h' with
    | done => exact ⟨rfl, rfl⟩
    | line _ _ => simp at hs
  | @line c line r d talk c1 hl hd ih =>
    cases h' with
    | done => simp at hs
    | @line _ line' r' d' talk' _ hl' hd' =>
      simp only [List.map_cons, List.cons.injEq] at hs
      obtain ⟨rfl, hs⟩ := hs
      obtain ⟨rfl, hk⟩ := C107_decided E c d d' line r r' hv (hp [] _ c rfl .done) hl hl'
      obtain ⟨e1, e2⟩ := ih talk' (enters_valid hv hl) (fun b a c' e hb => hp ((line, r) :: b) a c' (by rw [e]; rfl) (.line hl hb)) hd' hs
      refine ⟨e1, ?_⟩
      simp only [List.map_cons, e2, List.cons.injEq, and_true]
      exact propext hk

/-- Only `/precision` changes the precisions. -/
theorem enters_precision {E : Evaluator} {c c' : Calculator} {line : Str} {r : Outcome Failure Str}
    (hl : ∀ arguments, ¬ IsCommand line .precision arguments) (h : Enters E c line r c') :
    c'.settings.precision = c.settings.precision ∧ c'.settings.extraPrecision = c.settings.extraPrecision := by
  cases h with
  | command hc h =>
    cases h with
    | set hr =>
      cases hr with
      | precision => exact absurd hc (hl _)
      | precisions => exact absurd hc (hl _)
      | radix => exact ⟨rfl, rfl⟩
      | output => exact ⟨rfl, rfl⟩
      | noOutput => exact ⟨rfl, rfl⟩
      | fractional => exact ⟨rfl, rfl⟩
      | upper => exact ⟨rfl, rfl⟩
      | commas => exact ⟨rfl, rfl⟩
    | «show» => exact ⟨rfl, rfl⟩
    | limit => exact ⟨rfl, rfl⟩
    | capacity => exact ⟨rfl, rfl⟩
    | forget => exact ⟨rfl, rfl⟩
    | reload => exact ⟨rfl, rfl⟩
    | help => exact ⟨rfl, rfl⟩
  | character => exact ⟨rfl, rfl⟩
  | word => exact ⟨rfl, rfl⟩
  | blank => exact ⟨rfl, rfl⟩
  | «syntax» => exact ⟨rfl, rfl⟩
  | refused => exact ⟨rfl, rfl⟩
  | value => exact ⟨rfl, rfl⟩
  | assignment => exact ⟨rfl, rfl⟩
  | unknown => exact ⟨rfl, rfl⟩
  | objection => exact ⟨rfl, rfl⟩

theorem converses_precision {E : Evaluator} {c c' : Calculator} {talk : List (Str × Outcome Failure Str)}
    (h : Converses E c talk c') (hl : ∀ p ∈ talk, ∀ arguments, ¬ IsCommand p.1 .precision arguments) :
    c'.settings.precision = c.settings.precision ∧ c'.settings.extraPrecision = c.settings.extraPrecision := by
  induction h with
  | done => exact ⟨rfl, rfl⟩
  | @line c line r d talk c1 h1 h2 ih =>
    obtain ⟨e1, e2⟩ := ih fun p hp => hl p (by simp [hp])
    obtain ⟨e3, e4⟩ := enters_precision (hl (line, r) (by simp)) h1
    exact ⟨e1.trans e3, e2.trans e4⟩

/-- In particular if the precisions are not changed. -/
theorem C107_lines (E : Evaluator) (c c1 c2 : Calculator) (talk talk' : List (Str × Outcome Failure Str))
    (hv : ValidSettings c.settings) (hp : c.settings.precision + c.settings.extraPrecision ≤ 254)
    (hl : ∀ p ∈ talk, ∀ arguments, ¬ IsCommand p.1 .precision arguments)
    (h : Converses E c talk c1) (h' : Converses E c talk' c2) (hs : talk.map (·.1) = talk'.map (·.1)) :
    c1 = c2 ∧ talk.map (fun p => ∃ t, p.2 = .ok t) = talk'.map (fun p => ∃ t, p.2 = .ok t) := by
  refine C107_talk E c c1 c2 talk talk' hv (fun b a c' e hb => ?_) h h' hs
  obtain ⟨e1, e2⟩ := converses_precision hb fun p hp => hl p (by rw [e]; simp [hp])
  rw [e1, e2]
  exact hp

/-- The conversation of C106 is such a conversation. -/
example : ∃ E c c', ValidSettings c.settings ∧ c.settings.precision + c.settings.extraPrecision ≤ 254 ∧
    (∀ p ∈ (exTalk exForward exFresh exPage).1, ∀ arguments, ¬ IsCommand p.1 .precision arguments) ∧
    Converses E c (exTalk exForward exFresh exPage).1 c' := by
  have hst : StartsAs exFresh ⟨.default, fun _ => none, some (storeAfter
      [.add "$x = 2/3".toList, .setVar ⟨"$x".toList, 2 / 3⟩ 1, .setCap 2])⟩ :=
    ⟨rfl, rfl, fun _ => rfl, .inr ⟨_, _, rfl, rfl, rfl, rfl⟩⟩
  obtain ⟨E, hE⟩ := C106_dialogue exForward (fun l => List.Perm.refl _)
  obtain ⟨c', h1, _⟩ := hE table new_table exFresh _ _ hst exDefault_valid _ (exTalk_dialogue exForward exPage exFresh) (by
    have : ∀ r ∈ (exTalk exForward exFresh exPage).1.map (·.2), (match r with | .panic _ => false | .diverge => false | _ => true) = true := by
      decide +kernel
    intro p hp
    have := this p.2 (List.mem_map.2 ⟨p, hp, rfl⟩)
    constructor
    · intro k hk; rw [hk] at this; cases this
    · intro hk; rw [hk] at this; cases this)
  refine ⟨E, _, c', exDefault_valid, by decide, ?_, h1⟩
  have hno : ∀ l ∈ exPage, (match tokenize l 10 with | .ok (.command n _) => decide (table.resolve n.value ≠ some .precision) | _ => true) = true := by
    decide +kernel
  have hlines : (exTalk exForward exFresh exPage).1.map (·.1) = exPage := by decide +kernel
  intro p hp arguments hc
  have h2 := hno p.1 (by rw [← hlines]; exact List.mem_map.2 ⟨p, hp, rfl⟩)
  obtain ⟨n, q, q', h3, h4⟩ := (isCommand_iff 10).1 hc
  rw [h3] at h2
  simp [h4] at h2

/-- To `$x * 6` there is only one reply. -/
example : (CommandLine "$x * 6".toList ∨ ∀ ts text p, Lexes Args.default.radix 0 "$x * 6".toList ts → ts ≠ [] → ¬ Defect ts text p) ∧
    (∀ arguments, ¬ IsCommand "$x * 6".toList .help arguments) ∧ ∀ arguments, ¬ IsCommand "$x * 6".toList .reloadVar arguments := by
  have h1 : tokenize "$x * 6".toList 10 = .ok (.tokens [⟨.variable "$x".toList, ⟨0, 2⟩⟩, ⟨.binary .multiply, ⟨3, 1⟩⟩, ⟨.number 6, ⟨5, 1⟩⟩]) := by
    decide +kernel
  have h2 := (C01_tokens_iff 10 (by decide) (by decide) _ _).1 h1
  refine ⟨.inr fun ts text p hl _ hd => ?_, fun a h => ?_, fun a h => ?_⟩
  · have := lexes_one (by decide) (by decide) h2.1 h2.2.1 hl h2.2.2
    subst this
    have h3 : (match SyntaxTree.new [⟨.variable "$x".toList, ⟨0, 2⟩⟩, ⟨.binary .multiply, ⟨3, 1⟩⟩, ⟨.number 6, ⟨5, 1⟩⟩] with | .ok _ => true | _ => false) = true := by
      decide +kernel
    split at h3
    · rename_i t ht; exact C75_real _ _ _ hd t ht
    · cases h3
  all_goals
    obtain ⟨n, p, q, h3, _⟩ := (isCommand_iff 10).1 h
    rw [h1] at h3
    cases h3

end Bcalc
