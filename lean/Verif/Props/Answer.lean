import Verif.Spec.Answer
import Verif.Proof.Sight
import Verif.Props.Session
import Verif.Props.Display
import Verif.Props.Lexical
import Verif.Props.Parser
import Verif.Props.Editing
import Verif.Props.Capacity

/-! # C72 and following: from the typed text to the printed text -/

namespace Bcalc
open Spec

/-! ## C72 Every answer is right -/

theorem lexes_blank {radix pos : Nat} {line : Str} {ts : List PTok} (h : Lexes radix pos line ts) (he : ts = []) :
    ∀ c ∈ line, Blank c := by
  induction h with
  | done => simp
  | blank hb _ ih =>
    intro c hc
    rcases List.mem_cons.1 hc with rfl | hc
    · exact hb
    · exact ih he c hc
  | symbol => cases he
  | word => cases he

theorem executeTree_root {m : Machine} {tree : SyntaxTree} {id : Option Int} {s s' : Session} {v : Rat}
    (h : executeTree m tree id s = (.ok v, s')) :
    ∃ env, tree.root.execute m s.args s.env = (.ok v, env) := by
  unfold executeTree SyntaxTree.execute St.andThen at h
  unfold Session.env
  rcases hr : tree.root.execute m s.args ⟨s.vars, s.db⟩ with ⟨r, env⟩
  rw [hr] at h
  cases r with
  | ok q =>
    refine ⟨env, ?_⟩
    simp only at h
    have : q = v := by
      cases hres : tree.resultVar with
      | none => rw [hres] at h; simp at h; exact h.1
      | some y =>
        rw [hres] at h
        simp only at h
        cases hvars : env.vars with
        | none => rw [hvars] at h; simp at h
        | some vs =>
          rw [hvars] at h
          simp only at h
          rcases hq : vs.update ⟨y.value, q⟩ id env.db with ⟨r, vs', db'⟩
          rw [hq] at h
          cases r <;> simp at h
          exact h.1
    rw [this]
  | err e => simp at h
  | panic k => simp at h
  | diverge => simp at h

/-- Every result of a line that is not a command is a right answer, for values of the variables that the
session may find. -/
theorem C72_sound (m : Machine) (ce : CommandExecutor) (line : Str) (s s' : Session) (text : Str)
    (hv : ValidSettings s.args) (hp : s.args.precision + s.args.extraPrecision ≤ 254)
    (hr : ∀ sd, s.db = some sd → Reachable sd.db) (hc : ¬ CommandLine line)
    (h : calculate m ce line s = (.ok text, s')) :
    ∃ ρ : Valuation, (∀ x q, ρ x = some q → Finds s x q) ∧ Answer s.args ρ line text := by
  have hlex : ∃ ts, tokenize line s.args.radix = .ok (.tokens ts) := by
    rw [calculate_eq] at h
    obtain ⟨id, s1, h1, h⟩ := andThen_ok h
    obtain ⟨ha, _⟩ := recordInput_args s
    rw [h1] at ha
    simp only at ha
    unfold afterRecording at h
    rw [ha] at h
    rcases tokenize_spec hv.radix.1 hv.radix.2 line with ⟨i, _, _, e⟩ | ⟨_, p, hp, hc', _⟩ |
      ⟨_, _, ⟨ts', e, _⟩ | ⟨w, st, e, _, _⟩⟩
    · rw [e] at h; cases h
    · exact absurd hc' hc
    · exact ⟨ts', e⟩
    · rw [e] at h; cases h
  obtain ⟨ts, ht⟩ := hlex
  obtain ⟨ha, _, hl⟩ := (C01_tokens_iff _ hv.radix.1 hv.radix.2 line ts).1 ht
  by_cases hne : ts = []
  · refine ⟨fun _ => none, (by intro x q h; cases h), ?_⟩
    have : text = [] := by
      rw [calculate_eq] at h
      obtain ⟨id, s1, h1, h⟩ := andThen_ok h
      obtain ⟨ha, _⟩ := recordInput_args s
      rw [h1] at ha
      simp only at ha
      unfold afterRecording at h
      rw [ha, ht, hne] at h
      simp only at h
      unfold calculateTokens at h
      obtain ⟨_, s2, _, h⟩ := andThen_ok h
      simp only [if_true, Prod.mk.injEq, Outcome.ok.injEq] at h
      exact h.1.symm
    subst this
    exact .blank (lexes_blank hl hne)
  · obtain ⟨id, s1, s2, tree, v, h1, h2, h3, h4, h5, h6, h7, h8⟩ := calculate_tokens_ok h ht hne
    obtain ⟨env, hx⟩ := executeTree_root h7
    rw [h5] at hx
    have hval := C19_value m s.args hv.radix.1 hp tree.root _ _ v hx
    obtain ⟨text', ht', hd⟩ := displays_of_display s.args hv v
    rw [h8] at ht'
    cases ht'
    refine ⟨sessionValues env, ?_, .value hl ((C10_parser_iff_grammar ts tree).1 h6) hval hd⟩
    intro x q hq
    have hrel : SessRel RecordsOrTouches s s2 := by
      have e1 := recordInput_rel s
      rw [h1] at e1
      exact OptRel.trans e1 (h2.mono fun _ h => .inr h)
    have hrec : SLoaded RecordsOrTouches x s s2 := SLoaded.of_vars hrel h4
    have hload := execute_loaded RecordsOrTouches x m s.args tree.root s2.env
    rw [hx] at hload
    have hall : Loaded RecordsOrTouches x s.env env := Loaded.trans _ _ _ hrec hload
    have hext := execute_extends m s.args tree.root s2.env
    rw [hx] at hext
    cases hs : sessionValue s x with
    | some w =>
      have hw : sessionValues s2.env x = some w := by
        rw [← sessionValue_eq]
        unfold sessionValue at hs ⊢
        rw [h4]; exact hs
      have := hext.2 x w hw
      rw [hq] at this
      cases this
      exact .inl hs
    | none =>
      rcases hall.2.1 (fun sd hd => (hr sd hd).varsOk) q hq with h | ⟨sd, d, hd, he, hst⟩
      · rw [← sessionValue_eq, hs] at h; cases h
      · exact .inr ⟨hs, sd, d, hd, hst, he⟩

/-- When nobody else uses the database, the values are those that are visible before the line. -/
theorem C72_sound_quiet (m : Machine) (ce : CommandExecutor) (line : Str) (s s' : Session) (text : Str)
    (hv : ValidSettings s.args) (hp : s.args.precision + s.args.extraPrecision ≤ 254)
    (hr : ∀ sd, s.db = some sd → Reachable sd.db) (hq : Quiet s) (hc : ¬ CommandLine line)
    (h : calculate m ce line s = (.ok text, s')) :
    ∃ ρ : Valuation, (∀ x q, ρ x = some q → sessionValue s x = some q ∨
      (sessionValue s x = none ∧ ∃ sd, s.db = some sd ∧ Stored sd.db x q)) ∧ Answer s.args ρ line text := by
  obtain ⟨ρ, h1, h2⟩ := C72_sound m ce line s s' text hv hp hr hc h
  refine ⟨ρ, fun x q hx => ?_, h2⟩
  rcases h1 x q hx with h | ⟨hn, sd, d, hd, hst, he⟩
  · exact .inl h
  · refine .inr ⟨hn, sd, hd, stored_evolves ?_ he hst⟩
    rintro op (ho | ⟨l, rfl⟩ | ⟨y, i, rfl⟩)
    · exact absurd ho (not_scheduled (hq sd hd) op)
    · rintro ⟨v, i, h⟩; cases h
    · rintro ⟨v, i', h⟩; cases h

/-- In the editor: whenever Enter prints a result, the line shown is a command or the result is a right answer
to it. -/
theorem C72_editor (m : Machine) (ce : CommandExecutor) (e e' : Editor) (h : Awaits m ce e)
    (hv : ValidSettings e.args) (hp : e.args.precision + e.args.extraPrecision ≤ 254)
    (hr : ∀ sd, e.db = some sd → Reachable sd.db) (mods : Mods) (t : TermInfo) (out : StepOut)
    (hstep : step m ce e (.key .enter mods) t = .ok (out, e')) (text : Str)
    (hout : out.output = some (.result text)) (line : Str) (hs : Shows e line) (hc : ¬ CommandLine line) :
    ∃ ρ : Valuation, (∀ x q, ρ x = some q → Finds e.session x q) ∧ Answer e.args ρ line text := by
  obtain ⟨d, d', sh, r, rfl, _, hcl, hsh⟩ := (step_enter_ok (h.line hs) hstep).out
  cases hout
  have : r = .ok text := by
    rcases r with t | ⟨_ | _⟩ | _ | _ <;> simp only [shown, Outcome.ok.injEq, reduceCtorEq, Shown.result.injEq] at hsh
    rw [hsh]
  subst this
  exact C72_sound m ce line e.session _ text hv hp hr hc hcl

/-- One-shot mode: the same, without variables. -/
theorem C72_one_shot (m : Machine) (args : Args) (hv : ValidSettings args)
    (hp : args.precision + args.extraPrecision ≤ 254) (line : Str) (hc : ¬ CommandLine line) (text : Str)
    (h : oneShot m args line = .ok (.result text)) : Answer args (fun _ => none) line text := by
  obtain ⟨r, args', hcl, ho⟩ := C68_nothing_kept m args line
  rw [ho] at h
  have : r = .ok text := by
    rcases r with t | ⟨_ | _⟩ | _ | _ <;> simp only [shown, Outcome.ok.injEq, reduceCtorEq, Shown.result.injEq] at h
    rw [h]
  subst this
  obtain ⟨ρ, h1, h2⟩ := C72_sound m table line _ _ text hv hp (by intro sd h; cases h) hc hcl
  have : ρ = fun _ => none := by
    funext x
    cases hx : ρ x with
    | none => rfl
    | some q =>
      rcases h1 x q hx with h | ⟨_, sd, _, h, _⟩
      · cases h
      · cases h
  rw [← this]
  exact h2

/-- For an expression of `+ - * /`, negation, `abs`, `max`, `min` there is only one right value, and it is
exact. -/
theorem C72_exact (args : Args) (ρ : Valuation) (n : Node) (v : Rat) (ha : Arithmetic n)
    (h : Value (askedTolerance args) ρ n v) : denote ρ n = some v := denote_of_value h ha

/-- The line can be read in one way only. -/
theorem C72_one_reading (radix : Nat) (h2 : 2 ≤ radix) (hr : radix ≤ 16) (line : Str) (ha : Ascii line)
    (hc : ¬ CommandLine line) (ts ts' : List PTok) (target target' : Option (Positioned Str)) (n n' : Node)
    (h : Lexes radix 0 line ts) (h' : Lexes radix 0 line ts') (hi : Input ts target n) (hi' : Input ts' target' n') :
    ts = ts' ∧ target = target' ∧ n = n' := by
  have e1 := (C01_tokens_iff radix h2 hr line ts).2 ⟨ha, hc, h⟩
  have e2 := (C01_tokens_iff radix h2 hr line ts').2 ⟨ha, hc, h'⟩
  rw [e1] at e2
  cases e2
  have p1 := (C10_parser_iff_grammar ts ⟨target, n⟩).2 hi
  have p2 := (C10_parser_iff_grammar ts ⟨target', n'⟩).2 hi'
  rw [p1] at p2
  cases p2
  exact ⟨rfl, rfl, rfl⟩

/-- `1/3 + $x` is not a command. -/
theorem exLine_plain : ¬ CommandLine "1/3 + $x".toList := by
  rintro ⟨pre, rest, h, hp⟩
  cases pre with
  | nil => simp at h
  | cons c pre =>
    have h1 : c = '1' := by simp at h; exact h.1.symm
    rcases hp c List.mem_cons_self with h | h
    · rw [h1] at h; unfold Blank at h; revert h; decide
    · rw [h1] at h; revert h; decide

/-- A session and a line that meet the hypotheses. -/
example : calculate (exMachine true) table "1/3 + $x".toList (exSession [("$x".toList, 1 / 6)]) =
      (.ok "0.5".toList, exSession [("$x".toList, 1 / 6)]) ∧
    ValidSettings (exSession [("$x".toList, 1 / 6)]).args ∧ ¬ CommandLine "1/3 + $x".toList :=
  ⟨by decide +kernel, ⟨by decide, by decide, by decide⟩, exLine_plain⟩

/-- The value comes from the database. -/
example : (calculate (exMachine true) table "1/3 + $x".toList (exDbSession [] exDb)).1 = .ok "1".toList ∧
    Reachable exDb ∧ Quiet (exDbSession [] exDb) :=
  ⟨by decide +kernel, ⟨_, rfl⟩, by intro sd h; cases h; rfl⟩

/-! ## C73 Every complaint is justified -/

/-- Recording the line. -/
theorem ready_records {s : Session} {line : Str} (h : Ready s line) :
    ∃ id s1, recordInput s = (.ok id, s1) ∧ IdOk id s1.db ∧ s1.args = s.args ∧ s1.vars = s.vars ∧
      ∀ x q, EnvSees s1.env x q ↔ Sees s line x q := by
  obtain ⟨hist, hi, hcur⟩ := h.inputs
  have hsees : ∀ s1 : Session, s1.vars = s.vars → s.db = none → s1.db = none →
      ∀ x q, EnvSees s1.env x q ↔ Sees s line x q := by
    intro s1 hv hd hd1 x q
    unfold EnvSees Sees Session.env sessionValues sessionValue
    simp only [hv, hd, hd1]
    cases s.vars <;> simp
  cases hd : s.db with
  | none =>
    have hrec : recordInput s = (.ok none, { s with
        inputs := some { hist with internal := hist.internal ++ [line], current := [some []], index := 0 }, db := none }) := by
      unfold recordInput
      rw [hi]
      simp only
      unfold InputHistory.inputFinished
      rw [hcur, hd]
      rfl
    refine ⟨none, _, hrec, ?_, rfl, rfl, hsees _ rfl hd rfl⟩
    exact recorded_idOk (.inr hd) h.quiet h.reachable hrec
  | some sd =>
    obtain ⟨i, hrec⟩ := recordInput_quiet hi hcur hd (h.reachable sd hd) h.quiet
    refine ⟨some i, _, hrec, recorded_idOk (.inl (by rw [hi]; rfl)) h.quiet h.reachable hrec, rfl, rfl, ?_⟩
    intro x q
    unfold EnvSees Sees Session.env sessionValues sessionValue
    simp only [hd, Option.some.injEq, exists_eq_left']
    cases s.vars <;> simp

/-- There are such values. -/
theorem C73_values (s : Session) (line : Str) (h : Ready s line) : ∃ ρ, SeenBy s line ρ := by
  obtain ⟨id, s1, _, hid, _, _, hs⟩ := ready_records h
  have hq : EnvQuiet s1.env := hid.quiet
  classical
  refine ⟨fun x => if h : ∃ q, EnvSees s1.env x q then some h.choose else none, fun x q => ?_⟩
  rw [← hs]
  simp only
  by_cases hx : ∃ q, EnvSees s1.env x q
  · rw [dif_pos hx]
    simp only [Option.some.injEq]
    constructor
    · rintro rfl; exact hx.choose_spec
    · intro h; exact EnvSees.unique hq hx.choose_spec h
  · rw [dif_neg hx]
    simp only [reduceCtorEq, false_iff]
    exact fun h => hx ⟨q, h⟩

/-- After recording: the tokens, or the complaint about them. -/
theorem afterRecording_judged {m : Machine} {ce : CommandExecutor} {line : Str} {id : Option Int} {s : Session}
    {ρ : Valuation} (hv : ValidSettings s.args) (hp : s.args.precision + s.args.extraPrecision ≤ 254)
    (hid : IdOk id s.db) (hρ : SeenIn s.env ρ) (hc : ¬ CommandLine line) :
    (∀ text, (afterRecording m ce line id s).1 = .ok text → Answer s.args ρ line text) ∧
    (∀ f, (afterRecording m ce line id s).1 = .err f →
      ∃ t p, f = .input t (some p) ∧ Complaint s.vars.isSome s.args ρ line t p) := by
  unfold afterRecording
  rcases tokenize_spec hv.radix.1 hv.radix.2 line with ⟨i, hi, _, e⟩ | ⟨_, p, hp, hc', _⟩ |
    ⟨ha, _, ⟨ts, e, hl⟩ | ⟨w, st, e, hb, _⟩⟩
  · rw [e]
    refine ⟨fun text h => (by cases h), fun f h => ?_⟩
    simp only [Outcome.err.injEq] at h
    obtain ⟨hlt, h1, h2⟩ := List.findIdx?_eq_some_iff_getElem.1 hi
    refine ⟨_, _, h.symm, ?_⟩
    have hsplit : line = line.take i ++ line[i] :: line.drop (i + 1) := by simp
    have hlen : (line.take i).length = i := by simp; omega
    have hcomp := Complaint.character (store := s.vars.isSome) (args := s.args) (ρ := ρ) hsplit (by
      intro c hc
      obtain ⟨j, hj, rfl⟩ := List.mem_iff_getElem.1 hc
      rw [List.getElem_take]
      have hj' : j < i := by simp at hj; omega
      have := h2 j hj'
      simpa [isAscii] using this) (by simpa [isAscii] using h1)
    rw [hlen] at hcomp
    exact hcomp
  · exact absurd hc' hc
  · rw [e]
    simp only
    obtain ⟨h1, h2⟩ := calculateTokens_judged (m := m) (ts := ts) hv hp hid hρ
      (lexes_pairwise ((hl ts).2 rfl))
    have hl' := (hl ts).2 rfl
    refine ⟨fun text h => ?_, fun f h => ?_⟩
    · rcases h1 text h with ⟨rfl, rfl⟩ | ⟨target, n, v, h3, h4, h5⟩
      · exact .blank (lexes_blank hl' rfl)
      · exact .value hl' h3 h4 h5
    · obtain ⟨t, p, hf, h3 | ⟨target, n, h3, h4⟩ | ⟨h3, rfl, x, n, v, h4, h5, rfl⟩⟩ := h2 f h
      · exact ⟨t, p, hf, .syntax hl' h3⟩
      · exact ⟨t, p, hf, .value hl' h3 h4⟩
      · exact ⟨_, _, hf, .assignment h3 hl' h4 h5⟩
  · rw [e]
    refine ⟨fun text h => (by cases h), fun f h => ?_⟩
    simp only [Outcome.err.injEq] at h
    exact ⟨_, _, h.symm, .word ha hb⟩

/-- In a session of which nobody else uses the database: a result is a right answer; every error is one of the
input, at a place of the line, and justified. -/
theorem C73_justified (m : Machine) (ce : CommandExecutor) (line : Str) (s : Session) (ρ : Valuation)
    (h : Ready s line) (hv : ValidSettings s.args) (hp : s.args.precision + s.args.extraPrecision ≤ 254)
    (hc : ¬ CommandLine line) (hρ : SeenBy s line ρ) :
    (∀ text, (calculate m ce line s).1 = .ok text → Answer s.args ρ line text) ∧
    (∀ f, (calculate m ce line s).1 = .err f →
      ∃ t p, f = .input t (some p) ∧ Complaint true s.args ρ line t p) := by
  obtain ⟨id, s1, h1, hid, ha, hvars, hs⟩ := ready_records h
  rw [calculate_eq, andThen_of_ok h1]
  have hj := afterRecording_judged (m := m) (ce := ce) (line := line) (s := s1) (ρ := ρ) (by rw [ha]; exact hv)
    (by rw [ha]; exact hp) hid (fun x q => (hρ x q).trans (hs x q).symm) hc
  rw [ha, hvars, h.vars] at hj
  exact hj

/-- The same in one-shot mode, where no variable has a value. -/
theorem C73_one_shot (m : Machine) (args : Args) (hv : ValidSettings args)
    (hp : args.precision + args.extraPrecision ≤ 254) (line : Str) (hc : ¬ CommandLine line) (t : Str)
    (h : oneShot m args line = .ok (.inputError t)) : ∃ p, Complaint false args (fun _ => none) line t p := by
  obtain ⟨r, args', hcl, ho⟩ := C68_nothing_kept m args line
  rw [ho] at h
  have hr : ∃ p, r = .err (.input t p) := by
    rcases r with t | ⟨t', p | _⟩ | _ | _ <;>
      simp only [shown, Outcome.ok.injEq, reduceCtorEq, Shown.inputError.injEq] at h
    all_goals subst h; exact ⟨_, rfl⟩
  obtain ⟨p, rfl⟩ := hr
  rw [calculate_eq] at hcl
  have h1 : recordInput ⟨args, none, none, none⟩ = (.ok none, ⟨args, none, none, none⟩) := rfl
  rw [andThen_of_ok h1] at hcl
  have hj := afterRecording_judged (m := m) (ce := table) (line := line) (id := none)
    (s := ⟨args, none, none, none⟩) (ρ := fun _ => none) hv hp rfl (by
      intro x q
      constructor
      · intro h; cases h
      · rintro (h | ⟨_, h, _⟩)
        · cases h
        · cases h) hc
  obtain ⟨t', p', h3, h4⟩ := hj.2 _ (by rw [hcl])
  cases h3
  exact ⟨p', h4⟩

/-! ## C74 Nothing is refused without a reason -/

/-- What follows the refreshing of the variables. -/
theorem calculateTokens_after {m : Machine} {id : Option Int} {ts : List PTok} {s1 s2 : Session}
    (h2 : (match s1.vars with
      | some _ => touchAll id (m.hashOrder (variableNames ts))
      | none => fun s => (.ok (), s)) s1 = (.ok (), s2)) :
    calculateTokens m id ts s1 = (if ts = [] then (fun s => (.ok [], s)) else
      (St.lift (Outcome.mapErr Failure.ofSyntax (SyntaxTree.new ts))).andThen fun tree =>
        (executeTree m tree id).andThen fun result s => (displayResult s.args result, s)) s2 := by
  unfold calculateTokens
  exact andThen_of_ok h2

theorem input_ne_nil {target : Option (Positioned Str)} {n : Node} (h : Input [] target n) : False := by
  have h1 := (C10_parser_iff_grammar [] ⟨target, n⟩).2 h
  have : (match SyntaxTree.new [] with | .ok _ => true | _ => false) = false := by decide +kernel
  rw [h1] at this
  cases this

/-- The line of which the tokens derive from the tree. -/
theorem ready_executes {m : Machine} {ce : CommandExecutor} {line : Str} {s : Session} {ρ : Valuation}
    (h : Ready s line) (hρ : SeenBy s line ρ) {ts : List PTok} {target : Option (Positioned Str)} {n : Node}
    (ht : tokenize line s.args.radix = .ok (.tokens ts)) (hin : Input ts target n) :
    ∃ id s2, IdOk id s2.db ∧ s2.args = s.args ∧ s2.vars = s.vars ∧ SeenIn s2.env ρ ∧
      calculate m ce line s = ((executeTree m ⟨target, n⟩ id).andThen fun result s =>
        (displayResult s.args result, s)) s2 := by
  obtain ⟨id, s1, h1, hid, ha, hvars, hs⟩ := ready_records h
  obtain ⟨s2, h2, hid2, ha2, hv2, hs2⟩ := touchVars_seen hid (m.hashOrder (variableNames ts))
  refine ⟨id, s2, hid2, ha2.trans ha, hv2.trans hvars,
    fun x q => (hρ x q).trans ((hs x q).symm.trans (hs2 x q).symm), ?_⟩
  rw [calculate_eq, andThen_of_ok h1]
  unfold afterRecording
  rw [ha, ht]
  simp only
  rw [calculateTokens_after h2, if_neg (by rintro rfl; exact input_ne_nil hin), (C10_parser_iff_grammar ts ⟨target, n⟩).2 hin]
  rfl

theorem executeTree_of {m : Machine} {target : Option (Positioned Str)} {n : Node} {id : Option Int} {s : Session}
    (hid : IdOk id s.db) (hvs : s.vars.isSome) {v : Rat} {env : Env} (h : n.execute m s.args s.env = (.ok v, env)) :
    ∃ s', executeTree m ⟨target, n⟩ id s = (.ok v, s') ∧ s'.args = s.args := by
  have hkept := execute_kept m s.args n s.env
  have hsight := execute_sight m s.args n s.env
  rw [h] at hkept hsight
  unfold executeTree SyntaxTree.execute
  unfold Session.env at h
  rw [andThen_of_ok h]
  simp only
  cases target with
  | none => exact ⟨_, rfl, rfl⟩
  | some x =>
    simp only
    cases hev : env.vars with
    | none =>
      have := (hsight hid.quiet).2.1
      rw [hev] at this
      unfold Session.env at this
      simp only at this
      rw [hvs] at this
      cases this
    | some vs =>
      simp only
      have := update_idOk (IdOk.kept (vars := s.vars) hid hkept) vs ⟨x.value, v⟩
      rcases hu : vs.update ⟨x.value, v⟩ id env.db with ⟨r, vs', db'⟩
      rw [hu] at this
      simp only at this
      rw [this]
      exact ⟨_, rfl, rfl⟩

/-- A line that reads as an expression (or an assignment of one) with an exact value is answered, and the answer
displays this value. -/
theorem C74_answered (m : Machine) (ce : CommandExecutor) (line : Str) (s : Session) (ρ : Valuation)
    (h : Ready s line) (hv : ValidSettings s.args) (hp : s.args.precision + s.args.extraPrecision ≤ 254)
    (hc : ¬ CommandLine line) (hρ : SeenBy s line ρ) (ha : Ascii line) (ts : List PTok)
    (hl : Lexes s.args.radix 0 line ts) (target : Option (Positioned Str)) (n : Node) (hin : Input ts target n)
    (v : Rat) (hx : Exact ρ n v) :
    ∃ text, (calculate m ce line s).1 = .ok text ∧ Displays s.args v text := by
  have ht := (C01_tokens_iff _ hv.radix.1 hv.radix.2 line ts).2 ⟨ha, hc, hl⟩
  obtain ⟨id, s2, hid, ha2, hv2, hρ2, hcalc⟩ := ready_executes (m := m) (ce := ce) h hρ ht hin
  obtain ⟨env, he⟩ := execute_exact m s2.args (by rw [ha2]; exact hv.radix.1) (by rw [ha2]; exact hp) ρ n s2.env
    hid.quiet hρ2 hx
  obtain ⟨s3, h3, ha3⟩ := executeTree_of (target := target) hid (by rw [hv2]; exact h.vars) he
  obtain ⟨text, hd, hdisp⟩ := displays_of_display s.args hv v
  refine ⟨text, ?_, hdisp⟩
  rw [hcalc, andThen_of_ok h3]
  simp only
  rw [ha3, ha2, hd]

/-- A line without a value, of which the first part without a value is at `p`, is refused, there and with the
message that says why. -/
theorem C74_refused (m : Machine) (ce : CommandExecutor) (line : Str) (s : Session) (ρ : Valuation)
    (h : Ready s line) (hv : ValidSettings s.args) (hp : s.args.precision + s.args.extraPrecision ≤ 254)
    (hc : ¬ CommandLine line) (hρ : SeenBy s line ρ) (ha : Ascii line) (ts : List PTok)
    (hl : Lexes s.args.radix 0 line ts) (target : Option (Positioned Str)) (n : Node) (hin : Input ts target n)
    (t : Str) (p : Position) (hx : Refused true ρ (Exact ρ) n t p) :
    (calculate m ce line s).1 = .err (.input t (some p)) := by
  have ht := (C01_tokens_iff _ hv.radix.1 hv.radix.2 line ts).2 ⟨ha, hc, hl⟩
  obtain ⟨id, s2, hid, ha2, hv2, hρ2, hcalc⟩ := ready_executes (m := m) (ce := ce) h hρ ht hin
  obtain ⟨env, he⟩ := execute_refuses m s2.args (by rw [ha2]; exact hv.radix.1) (by rw [ha2]; exact hp) hx s2.env
    hid.quiet hρ2 (by unfold Session.env; simp only; rw [hv2, h.vars])
  have h3 : executeTree m ⟨target, n⟩ id s2 = (.err (.input t (some p)), { s2 with vars := env.vars, db := env.db }) := by
    unfold executeTree SyntaxTree.execute
    unfold Session.env at he
    rw [andThen_of_err he]
  rw [hcalc, andThen_of_err h3]

/-- Characters, words and word order that are not acceptable are always refused. -/
theorem C74_malformed (m : Machine) (ce : CommandExecutor) (line : Str) (s : Session)
    (h : Ready s line) (hv : ValidSettings s.args) :
    (∀ pre c rest, line = pre ++ c :: rest → Ascii pre → 128 ≤ c.toNat →
      (calculate m ce line s).1 = .err (.input "Non-ASCII data in input".toList (some ⟨pre.length, 1⟩))) ∧
    (∀ w start, Ascii line → ¬ CommandLine line → FirstBadWord s.args.radix line w start →
      (calculate m ce line s).1 =
        .err (.input ("Unable to parse number: '".toList ++ w ++ "'".toList) (some ⟨start, w.length⟩))) ∧
    (∀ ts, Ascii line → ¬ CommandLine line → Lexes s.args.radix 0 line ts → ts ≠ [] →
      (∀ target n, ¬ Input ts target n) →
      ∃ t p, (calculate m ce line s).1 = .err (.input t (some p)) ∧ Defect ts t p) ∧
    ((∀ c ∈ line, Blank c) → (calculate m ce line s).1 = .ok []) := by
  obtain ⟨id, s1, h1, hid, ha, hvars, hs⟩ := ready_records h
  rw [calculate_eq, andThen_of_ok h1]
  unfold afterRecording
  rw [ha]
  refine ⟨?_, ?_, ?_, ?_⟩
  · rintro pre c rest rfl hpre hcn
    rw [C03_nonAscii s.args.radix pre c rest hpre hcn]
    rfl
  · intro w start hasc hc hb
    rw [(C03_badWord_iff s.args.radix hv.radix.1 hv.radix.2 line hasc hc _).2 ⟨w, start, hb, rfl⟩]
    rfl
  · intro ts hasc hc hl hne hno
    rw [(C01_tokens_iff _ hv.radix.1 hv.radix.2 line ts).2 ⟨hasc, hc, hl⟩]
    simp only
    obtain ⟨s2, h2, _⟩ := touchVars_seen hid (m.hashOrder (variableNames ts))
    rw [calculateTokens_after h2, if_neg hne]
    rcases C12_total ts with ⟨t, ht⟩ | ⟨e, he⟩
    · exact absurd ((C10_parser_iff_grammar ts t).1 ht) (hno _ _)
    · rw [he]
      exact ⟨_, _, rfl, new_defect (lexes_pairwise hl) he⟩
  · intro hb
    have hlex : ∀ (l : Str) (pos : Nat), (∀ c ∈ l, Blank c) → Lexes s.args.radix pos l [] := by
      intro l
      induction l with
      | nil => intro pos _; exact .done
      | cons c l ih => intro pos h; exact .blank (h c (by simp)) (ih _ fun c hc => h c (by simp [hc]))
    have hasc : Ascii line := by
      intro c hc
      rcases hb c hc with rfl | rfl | rfl | rfl | rfl <;> decide
    have hcmd : ¬ CommandLine line := by
      rintro ⟨pre, rest, rfl, _⟩
      have := hb '/' (by simp)
      unfold Blank at this
      revert this
      decide
    rw [(C01_tokens_iff _ hv.radix.1 hv.radix.2 line []).2 ⟨hasc, hcmd, hlex line 0 hb⟩]
    simp only
    obtain ⟨s2, h2, _⟩ := touchVars_seen hid (m.hashOrder (variableNames []))
    rw [calculateTokens_after h2, if_pos rfl]

/-- Everything made of `+ - * /`, negation, `abs`, `max` and `min` that has a value has it exactly. -/
theorem C74_exact_operations (ρ : Valuation) (ε : Rat) (n : Node) (v : Rat) (ha : Arithmetic n)
    (h : Value ε ρ n v) : Exact ρ n v := exact_of_value ha h

/-! ### Cases -/

/-- A session with a database, in which the line has just been typed. -/
theorem exTyped_ready (line : String) : Ready (exTyped line) line.toList :=
  ⟨rfl, ⟨_, rfl, rfl⟩, fun sd h => by
      simp only [exTyped, Option.some.injEq] at h; subst h; exact ⟨_, rfl⟩,
    fun sd h => by simp only [exTyped, Option.some.injEq] at h; rw [← h]⟩

example : ValidSettings (exTyped "1/3 + $y").args ∧
    (exTyped "1/3 + $y").args.precision + (exTyped "1/3 + $y").args.extraPrecision ≤ 254 ∧
    ∃ ρ, SeenBy (exTyped "1/3 + $y") "1/3 + $y".toList ρ :=
  ⟨⟨by decide, by decide, by decide⟩, by decide, C73_values _ _ (exTyped_ready _)⟩

/-- A session without a database, in which `$x` is 1/6. -/
def exPlain (line : String) : Session :=
  ⟨.default, none, some { InputHistory.new false with current := [some line.toList] }, some ⟨[("$x".toList, 1 / 6)]⟩⟩

theorem exPlain_ready (line : String) : Ready (exPlain line) line.toList :=
  ⟨rfl, ⟨_, rfl, rfl⟩, fun sd h => (by cases h), fun sd h => (by cases h)⟩

theorem exPlain_seen (line : String) :
    SeenBy (exPlain line) line.toList (fun x => if x = "$x".toList then some (1 / 6) else none) := by
  intro x q
  unfold Sees sessionValue exPlain
  simp only [reduceCtorEq, false_and, exists_false, and_false, or_false]
  unfold VariableStore.lookup
  simp only [assocGet]
  by_cases h : x = "$x".toList
  · subst h; simp
  · have h2 : ¬ "$x".toList = x := fun e => h e.symm
    rw [if_neg h, if_neg h2]

/-- `1/3 + $z` is read as a sum. -/
theorem exSum_reads (z : Str) (ts : List PTok)
    (h : ts = [⟨.number 1, ⟨0, 1⟩⟩, ⟨.binary .divide, ⟨1, 1⟩⟩, ⟨.number 3, ⟨2, 1⟩⟩, ⟨.binary .add, ⟨4, 1⟩⟩,
      ⟨.variable z, ⟨6, 2⟩⟩]) :
    Input ts none (.binary .add ⟨4, 1⟩ (.binary .divide ⟨1, 1⟩ (.number 1 ⟨0, 1⟩) (.number 3 ⟨2, 1⟩))
      (.variable z ⟨6, 2⟩)) := by
  subst h
  exact (C10_parser_iff_grammar _ ⟨none, _⟩).1
    (C13_two_operators [_] [_] [_] _ _ _ .divide .add ⟨1, 1⟩ ⟨4, 1⟩ (.atom .number) (.atom .number) (.atom .variable))

/-- `1/3 + $x` is answered by a text for 1/2. -/
example : ∃ text, (calculate (exMachine true) table "1/3 + $x".toList (exPlain "1/3 + $x")).1 = .ok text ∧
    Displays (exPlain "1/3 + $x").args (1 / 3 + 1 / 6) text := by
  have ht : tokenize "1/3 + $x".toList 10 = .ok (.tokens [⟨.number 1, ⟨0, 1⟩⟩, ⟨.binary .divide, ⟨1, 1⟩⟩,
    ⟨.number 3, ⟨2, 1⟩⟩, ⟨.binary .add, ⟨4, 1⟩⟩, ⟨.variable "$x".toList, ⟨6, 2⟩⟩]) := by decide +kernel
  obtain ⟨ha, hc, hl⟩ := (C01_tokens_iff 10 (by decide) (by decide) _ _).1 ht
  exact C74_answered _ _ _ _ _ (exPlain_ready _) ⟨by decide, by decide, by decide⟩ (by decide) hc (exPlain_seen _)
    ha _ hl _ _ (exSum_reads _ _ rfl) _
    (.add (.divide .number .number (by decide)) (.variable (by simp)))

/-- `1/3 + $y` is refused, because of `$y`. -/
example : (calculate (exMachine true) table "1/3 + $y".toList (exPlain "1/3 + $y")).1 =
    .err (.input "Unknown variable: $y".toList (some ⟨6, 2⟩)) := by
  have ht : tokenize "1/3 + $y".toList 10 = .ok (.tokens [⟨.number 1, ⟨0, 1⟩⟩, ⟨.binary .divide, ⟨1, 1⟩⟩,
    ⟨.number 3, ⟨2, 1⟩⟩, ⟨.binary .add, ⟨4, 1⟩⟩, ⟨.variable "$y".toList, ⟨6, 2⟩⟩]) := by decide +kernel
  obtain ⟨ha, hc, hl⟩ := (C01_tokens_iff 10 (by decide) (by decide) _ _).1 ht
  exact C74_refused _ _ _ _ _ (exPlain_ready _) ⟨by decide, by decide, by decide⟩ (by decide) hc (exPlain_seen _)
    ha _ hl _ _ (exSum_reads _ _ rfl) _ _
    (.right (.divide .number .number (by decide)) (.variable (by decide)))

end Bcalc
