import Verif.Proof.OneShot
import Verif.Props.Editor
import Verif.Props.Capacity
import Verif.Spec.Settings

/-! # C68, C69: one-shot mode; recording -/

namespace Bcalc
open Spec

/-! ## C68 One-shot mode -/

/-- The run finishes, and what it shows depends on nothing but the input, the settings and whether the
program was built with overflow checks: there is a result that every machine (whatever the order in which
it iterates sets) arrives at, given time. -/
theorem C68_determined (checks : Bool) (args : Args) (hv : ValidSettings args) (input : Str) :
    ∃ (F : Nat) (r : Outcome RuntimeErr Shown), r ≠ .diverge ∧
      ∀ m : Machine, m.overflowChecks = checks → F ≤ m.fuel → oneShot m args input = r := by
  obtain ⟨F, r, hr, hF⟩ := bare_finishes checks args hv.radix.1 hv.radix.2 input
  refine ⟨F, (match r.1 with
      | .err (.runtime e) => .err e
      | r => shown r), ?_, fun m hm hf => ?_⟩
  · rcases r with ⟨_ | ⟨_ | _⟩ | _ | _, _⟩
    · simp [shown]
    · simp [shown]
    · simp
    · simp [shown]
    · exact absurd rfl hr
  · rw [oneShot_eq, hF m hm hf]
    rcases r with ⟨_ | ⟨_ | _⟩ | _ | _, _⟩ <;> rfl

/-- It is the evaluation of the input in a session that has no database, no history and no variables, and
afterwards there is still nothing of the kind. -/
theorem C68_nothing_kept (m : Machine) (args : Args) (input : Str) :
    ∃ r args', calculate m table input { args := args, db := none, inputs := none, vars := none } =
      (r, { args := args', db := none, inputs := none, vars := none }) ∧ oneShot m args input = shown r := by
  obtain ⟨args', ha⟩ := bare_after m table input args
  have hc := calculate_clean (b := false) m table input (s := bare args) (fun e he => by cases he) (.inr rfl) rfl
  have ho := oneShot_eq m args input
  unfold bare at ha hc ho
  generalize calculate m table input { args := args, db := none, inputs := none, vars := none } = c at ha hc ho
  obtain ⟨r, s⟩ := c
  simp only at ha hc ho
  subst ha
  refine ⟨r, args', rfl, ?_⟩
  rw [ho]
  rcases r with _ | ⟨_ | e⟩ | _ | _
  · rfl
  · rfl
  · exact absurd (hc e rfl).1 (by simp)
  · rfl
  · rfl

/-- No run ends with a runtime error (the kind the database or an internal inconsistency causes). -/
theorem C68_no_runtime_error (m : Machine) (args : Args) (input : Str) (e : RuntimeErr) :
    oneShot m args input ≠ .err e ∧ oneShot m args input ≠ .ok (.runtimeError e) := by
  have hc := calculate_clean (b := false) m table input (s := bare args) (fun e he => by cases he) (.inr rfl) rfl
  rw [oneShot_eq]
  generalize (calculate m table input (bare args)).1 = r at hc
  rcases r with _ | ⟨_ | e⟩ | _ | _
  · simp [shown]
  · simp [shown]
  · exact absurd (hc e rfl).1 (by simp)
  · simp [shown]
  · simp [shown]

theorem bare_tokens (m : Machine) (args : Args) {input : Str} {ts : List PTok}
    (ht : tokenize input args.radix = .ok (.tokens ts)) :
    calculate m table input (bare args) = calculateTokens m none ts (bare args) := by
  have : calculate m table input (bare args) =
    match tokenize input args.radix with
    | .err e => (.err (Failure.ofParse e), bare args)
    | .panic k => (.panic k, bare args)
    | .diverge => (.diverge, bare args)
    | .ok (.tokens tokens) => calculateTokens m none tokens (bare args)
    | .ok (.command name arguments) => calculateCommand m table none name arguments (bare args) := rfl
  rw [this, ht]

theorem bare_tree (m : Machine) (args : Args) {ts : List PTok} {t : SyntaxTree} (hn : SyntaxTree.new ts = .ok t) :
    calculateTokens m none ts (bare args) =
      (executeTree m t none).andThen (fun result s => (displayResult s.args result, s)) (bare args) := by
  have hne : ts ≠ [] := by
    rintro rfl
    have : (match SyntaxTree.new [] with | .ok _ => true | _ => false) = false := by decide +kernel
    rw [hn] at this
    cases this
  unfold calculateTokens St.andThen bare
  simp only
  rw [if_neg hne]
  unfold St.lift
  rw [hn]
  rfl

/-- An input in which a variable occurs has no result, wherever the variable occurs. -/
theorem C68_variable (m : Machine) (args : Args) (input : Str) (ts : List PTok)
    (ht : tokenize input args.radix = .ok (.tokens ts)) (x : Str) (p : Position) (hx : ⟨.variable x, p⟩ ∈ ts)
    (text : Str) : oneShot m args input ≠ .ok (.result text) := by
  have key : ∀ t s, calculateTokens m none ts (bare args) ≠ (.ok t, s) := by
    intro t s h
    have hne : ts ≠ [] := by rintro rfl; cases hx
    rcases hn : SyntaxTree.new ts with tree | e | k | _
    · rw [bare_tree m args hn] at h
      obtain ⟨v, s1, h1, _⟩ := andThen_ok h
      unfold executeTree at h1
      rcases hy : tree.execute m (bare args).args none ⟨(bare args).vars, (bare args).db⟩ with ⟨r, env⟩
      rw [hy] at h1
      simp only [Prod.mk.injEq] at h1
      rw [h1.1] at hy
      exact tree_noValue m _ none hn ⟨x, p, hx⟩ _ rfl _ _ hy
    all_goals
      unfold calculateTokens St.andThen bare at h
      simp only at h
      rw [if_neg hne] at h
      unfold St.lift at h
      rw [hn] at h
      cases h
  rw [oneShot_eq, bare_tokens m args ht]
  rcases hy : calculateTokens m none ts (bare args) with ⟨r, s⟩
  rcases r with t | ⟨_ | e⟩ | _ | _
  · exact absurd hy (key t s)
  all_goals simp [shown]

/-- If evaluation gets to a variable, this is what is reported. -/
theorem C68_variable_error (m : Machine) (args : Args) (input : Str) (ts : List PTok)
    (ht : tokenize input args.radix = .ok (.tokens ts)) (t : SyntaxTree) (hn : SyntaxTree.new ts = .ok t)
    (x : Str) (p : Position) (hr : Reaches m args t.root ⟨none, none⟩ (.variable x p) ⟨none, none⟩) :
    oneShot m args input = .ok (.inputError "Variable store unavailable".toList) := by
  rw [oneShot_eq, bare_tokens m args ht, bare_tree m args hn]
  have hx : executeTree m t none (bare args) = (.err (.input "Variable store unavailable".toList (some p)), bare args) := by
    unfold executeTree
    rw [show (bare args).args = args from rfl, show (bare args).vars = none from rfl, show (bare args).db = none from rfl,
      C43_no_store m args t none x p ⟨none, none⟩ ⟨none, none⟩ hr rfl]
    rfl
  rw [andThen_of_err hx]
  rfl

/-- So it is for an assignment, if its right-hand side has a value. -/
theorem C68_assignment_error (m : Machine) (args : Args) (input : Str) (ts : List PTok)
    (ht : tokenize input args.radix = .ok (.tokens ts)) (t : SyntaxTree) (hn : SyntaxTree.new ts = .ok t)
    (x : Positioned Str) (hx : t.resultVar = some x) (v : Rat)
    (hv : t.root.execute m args ⟨none, none⟩ = (.ok v, ⟨none, none⟩)) :
    oneShot m args input = .ok (.inputError "Variable store unavailable".toList) := by
  rw [oneShot_eq, bare_tokens m args ht, bare_tree m args hn]
  have hx : executeTree m t none (bare args) =
      (.err (.input "Variable store unavailable".toList (some x.position)), bare args) := by
    unfold executeTree
    rw [show (bare args).args = args from rfl, show (bare args).vars = none from rfl, show (bare args).db = none from rfl,
      C43_no_store_assignment m args t none x hx ⟨none, none⟩ ⟨none, none⟩ v hv rfl]
    rfl
  rw [andThen_of_err hx]
  rfl

/-- An expression without variables shows in one-shot mode what it shows in any session with the same
settings that is able to record it. -/
theorem C68_as_in_session (m : Machine) (hh : HashOk m) (input : Str) (s : Session) (ts : List PTok)
    (ht : tokenize input s.args.radix = .ok (.tokens ts)) (hx : ∀ x p, (⟨.variable x, p⟩ : PTok) ∉ ts)
    (id : Option Int) (hrec : (recordInput s).1 = .ok id) :
    oneShot m s.args input = shown (calculate m table input s).1 := by
  have hv : ¬ HasVar ts := fun ⟨x, p, h⟩ => hx x p h
  obtain ⟨ha, _⟩ := recordInput_args s
  have hc : calculate m table input s = calculateTokens m id ts (recordInput s).2 := by
    rw [calculate_eq]
    rcases hr : recordInput s with ⟨r, s1⟩
    rw [hr] at hrec ha
    simp only at hrec ha
    rw [andThen_of_ok (by rw [hr, hrec])]
    unfold afterRecording
    rw [ha, ht]
  obtain ⟨r, args', hb, ho⟩ := C68_nothing_kept m s.args input
  rw [ho]
  congr 1
  change calculate m table input (bare s.args) = _ at hb
  rw [bare_tokens m s.args ht] at hb
  rw [hc]
  have hr1 : r = (calculateTokens m none ts (bare s.args)).1 := by rw [hb]
  rw [hr1]
  generalize (recordInput s).2 = s1 at ha ⊢
  have hnil : m.hashOrder (variableNames ts) = [] := by
    have := hh (variableNames ts)
    rw [variableNames_nil hv] at this ⊢
    simpa using this
  have hx1 : ∀ (s2 : Session) (i : Option Int), s2.args = s.args → (calculateTokens m i ts s2).1 =
      if ts = [] then .ok [] else
      match (SyntaxTree.new ts).mapErr Failure.ofSyntax with
      | .ok tree => match (tree.execute m s.args i ⟨s2.vars, s2.db⟩).1 with
        | .ok q => displayResult s.args q
        | .err e => .err e
        | .panic k => .panic k
        | .diverge => .diverge
      | .err e => .err e
      | .panic k => .panic k
      | .diverge => .diverge := by
    intro s2 i ha2
    have hex : ∀ tree : SyntaxTree,
        ((executeTree m tree i).andThen (fun result s => (displayResult s.args result, s)) s2).1 =
        match (tree.execute m s.args i ⟨s2.vars, s2.db⟩).1 with
        | .ok q => displayResult s.args q
        | .err e => .err e
        | .panic k => .panic k
        | .diverge => .diverge := by
      intro tree
      unfold St.andThen executeTree
      rw [ha2]
      rcases tree.execute m s.args i ⟨s2.vars, s2.db⟩ with ⟨r, env⟩
      cases r
      all_goals simp only
    unfold calculateTokens
    rw [hnil]
    cases hv2 : s2.vars with
    | none =>
      unfold St.andThen
      simp only
      split
      · rfl
      · unfold St.lift
        cases (SyntaxTree.new ts).mapErr Failure.ofSyntax
        · simp only; have := hex ‹_›; rw [hv2] at this; exact this
        all_goals rfl
    | some vs =>
      unfold St.andThen touchAll
      simp only
      split
      · rfl
      · unfold St.lift
        cases (SyntaxTree.new ts).mapErr Failure.ofSyntax
        · simp only; have := hex ‹_›; rw [hv2] at this; exact this
        all_goals rfl
  rw [hx1 s1 id ha, hx1 (bare s.args) none rfl]
  split
  · rfl
  · rcases hn : SyntaxTree.new ts with tree | e | k | _
    · simp only [Outcome.mapErr]
      obtain ⟨q, hq⟩ := tree_pure m s.args id hn hv
      obtain ⟨q', hq'⟩ := tree_pure m s.args none hn hv
      have : q = q' := by
        have hid : tree.resultVar = none := by
          have hp := (parse_iff ts tree).1 hn
          generalize tree.resultVar = rv at hp ⊢
          cases hp with
          | expression h => rfl
          | assignment h => exact absurd List.mem_cons_self (hx _ _)
        have h1 := hq ⟨none, none⟩
        have h2 := hq' ⟨none, none⟩
        unfold SyntaxTree.execute at h1 h2
        simp only [hid] at h1 h2
        rw [h1] at h2
        injection h2
      rw [hq, hq', this]
    all_goals rfl

/-- Results, errors and commands in one-shot mode. -/
example : ValidSettings Args.default := ⟨by decide, by decide, by decide⟩
example : oneShot (exMachine true) Args.default "1/4 + 2^10".toList = .ok (.result "1024.25".toList) := by decide +kernel
example : oneShot (exMachine true) Args.default "/radix 2".toList = .ok (.result "Done".toList) := by decide +kernel
example : oneShot (exMachine true) Args.default "1 + $x * 2".toList =
    .ok (.inputError "Variable store unavailable".toList) := by decide +kernel
example : oneShot (exMachine true) Args.default "$x = 5".toList =
    .ok (.inputError "Variable store unavailable".toList) := by decide +kernel
example : oneShot (exMachine true) Args.default "5 % 0 + $x".toList = .panic .divisionByZero := by decide +kernel
example : oneShot (exMachine true) Args.default "/reloadvar $x".toList =
    .ok (.inputError "Database unavailable".toList) := by decide +kernel

/-- The tokens and the tree of an input. -/
def exTokens (input : String) : List PTok :=
  match tokenize input.toList 10 with
  | .ok (.tokens ts) => ts
  | _ => []

/-- The variable is reached, and it occurs among the tokens. -/
example : tokenize "1 + $x * 2".toList 10 = .ok (.tokens (exTokens "1 + $x * 2")) ∧
    (⟨.variable "$x".toList, ⟨4, 2⟩⟩ : PTok) ∈ exTokens "1 + $x * 2" ∧
    ∃ t, SyntaxTree.new (exTokens "1 + $x * 2") = .ok t ∧
      Reaches (exMachine true) Args.default t.root ⟨none, none⟩ (.variable "$x".toList ⟨4, 2⟩) ⟨none, none⟩ := by
  refine ⟨by decide +kernel, by decide +kernel, ⟨none, .binary .add ⟨2, 1⟩ (.number 1 ⟨0, 1⟩)
      (.binary .multiply ⟨7, 1⟩ (.variable "$x".toList ⟨4, 2⟩) (.number 2 ⟨9, 1⟩))⟩, ?_, ?_⟩
  · rw [show exTokens "1 + $x * 2" = [⟨.number 1, ⟨0, 1⟩⟩, ⟨.binary .add, ⟨2, 1⟩⟩, ⟨.variable "$x".toList, ⟨4, 2⟩⟩,
      ⟨.binary .multiply, ⟨7, 1⟩⟩, ⟨.number 2, ⟨9, 1⟩⟩] by decide +kernel]
    exact C13_two_operators [_] [_] [_] _ _ _ .add .multiply _ _ (.atom .number) (.atom .variable) (.atom .number)
  · exact .right (a := .number 1 ⟨0, 1⟩) (v := 1) (env1 := ⟨none, none⟩) (by decide +kernel) (.left .here)

/-- The assignment has a value to assign. -/
example : tokenize "$x = 5".toList 10 = .ok (.tokens (exTokens "$x = 5")) ∧
    ∃ t, SyntaxTree.new (exTokens "$x = 5") = .ok t ∧ t.resultVar = some ⟨"$x".toList, ⟨0, 2⟩⟩ ∧
      t.root.execute (exMachine true) Args.default ⟨none, none⟩ = (.ok 5, ⟨none, none⟩) := by
  refine ⟨by decide +kernel, ⟨some ⟨"$x".toList, ⟨0, 2⟩⟩, .number 5 ⟨5, 1⟩⟩, ?_, rfl, by decide +kernel⟩
  rw [show exTokens "$x = 5" = [⟨.variable "$x".toList, ⟨0, 2⟩⟩, ⟨.assign, ⟨3, 1⟩⟩, ⟨.number 5, ⟨5, 1⟩⟩] by decide +kernel]
  exact (parse_iff _ ⟨some ⟨"$x".toList, ⟨0, 2⟩⟩, .number 5 ⟨5, 1⟩⟩).2 (.assignment (.lift (.lift (.lift (.lift (.signed (.atom .number)))))))

/-- In one-shot mode as in a session with a database. -/
example : tokenize "1/4 + 2^10".toList exWithDb.session.args.radix = .ok (.tokens (exTokens "1/4 + 2^10")) ∧
    ((exTokens "1/4 + 2^10").all fun t => match t.value with | .variable _ => false | _ => true) = true ∧
    (recordInput exWithDb.session).1 = .ok (some 4) :=
  ⟨by decide +kernel, by decide +kernel, by decide +kernel⟩

/-! ## C69 Every entered line is recorded before it is evaluated -/

/-- Whatever becomes of the line (a result, an error, even a crash), it is in the history of the session
afterwards, once, behind the earlier inputs, and the editing starts with an empty line. -/
theorem C69_history (m : Machine) (ce : CommandExecutor) (line : Str) (s : Session) (h : InputHistory)
    (text : Str) (hi : s.inputs = some h) (hc : (h.currentLine : Outcome RuntimeErr Str) = .ok text) :
    ∃ h', (calculate m ce line s).2.inputs = some h' ∧ h'.internal = h.internal ++ [text] ∧
      h'.dbHistory = h.dbHistory ∧ (h'.currentLine : Outcome RuntimeErr Str) = .ok [] ∧
      ∀ i, lineAt h' (i + 1) = (pastInputs h')[i]? :=
  ⟨h.finished text, calculate_inputs m ce line hi hc, rfl, rfl, rfl, fun i => by
    unfold lineAt InputHistory.finished
    simp⟩

theorem afterRecording_no_add (m : Machine) (ce : CommandExecutor) (line : Str) (id : Option Int) (s : Session) :
    SessRel (fun op => ∀ t, op ≠ .add t) s (afterRecording m ce line id s).2 := by
  unfold afterRecording
  cases ht : tokenize line s.args.radix with
  | ok t =>
    cases t with
    | tokens ts => exact (calculateTokens_db m _ ts s).mono fun op h => lineOp_add (ce := ce) h
    | command name arguments =>
      exact (calculateCommand_db m ce _ name arguments s).mono fun op h => commandOp_add h
  | err e => exact SessRel.refl _ _
  | panic k => exact SessRel.refl _ _
  | diverge => exact SessRel.refl _ _

/-- If there is a database (and nobody else uses it), the line is the first thing that is stored, and it
is stored, whatever becomes of it. -/
theorem C69_database (m : Machine) (ce : CommandExecutor) (line : Str) (s : Session) (text : Str)
    (sd : SavedData) (ha : Alone s text sd) :
    ∃ sd' ops, (calculate m ce line s).2.db = some sd' ∧ sd'.db = after (DbOp.add text :: ops) sd.db ∧
      ∀ op ∈ ops, ∀ t, op ≠ .add t := by
  obtain ⟨h, hi, hc⟩ := ha.inputs
  obtain ⟨i, hrec⟩ := recordInput_quiet hi hc ha.db ha.reachable ha.quiet
  rw [calculate_eq, andThen_of_ok hrec]
  have hrest := afterRecording_no_add m ce line (some i) { s with
      inputs := some { h with internal := h.internal ++ [text], current := [some []], index := 0 }
      db := some { sd with
        db := (DbOp.add text).apply sd.db
        commits := sd.commits ++ [(DbOp.add text).apply sd.db] } }
  generalize (afterRecording m ce line (some i) _).2 = s2 at hrest ⊢
  unfold SessRel at hrest
  cases hd2 : s2.db with
  | none => rw [hd2] at hrest; exact hrest.elim
  | some sd2 =>
    rw [hd2] at hrest
    obtain ⟨ops2, ho, hdb2⟩ := SdRel.db hrest
    refine ⟨sd2, ops2, rfl, hdb2, fun op hop => (ho op hop).resolve_left ?_⟩
    rintro ⟨e, he, _⟩
    simp only at he
    rw [ha.quiet sd ha.db] at he
    cases he

/-- The errors about internal inconsistencies (a missing number of the input, a missing database) do not
occur. -/
theorem C69_consistent (m : Machine) (ce : CommandExecutor) (line : Str) (s : Session) (h : InputHistory)
    (text : Str) (hi : s.inputs = some h) (hc : (h.currentLine : Outcome RuntimeErr Str) = .ok text)
    (message : Str) : (calculate m ce line s).1 ≠ .err (.runtime (.internal message)) := by
  intro he
  obtain ⟨_, d, hd⟩ := calculate_clean m ce line (recordInput_clean hi hc rfl) (.inl (by rw [hi]; rfl)) rfl _ he
  cases hd

/-- Without a database there are no runtime errors at all. -/
theorem C69_no_database (m : Machine) (ce : CommandExecutor) (line : Str) (s : Session) (h : InputHistory)
    (text : Str) (hi : s.inputs = some h) (hc : (h.currentLine : Outcome RuntimeErr Str) = .ok text)
    (hd : s.db = none) (e : RuntimeErr) : (calculate m ce line s).1 ≠ .err (.runtime e) := by
  intro he
  have := (calculate_clean m ce line (recordInput_clean hi hc rfl) (.inl (by rw [hi]; rfl)) rfl _ he).1
  rw [hd] at this
  cases this

/-- In the editor: nothing that is printed is such an error. -/
theorem C69_editor (m : Machine) (ce : CommandExecutor) (e e' : Editor) (h : Awaits m ce e) (ev : Event)
    (t : TermInfo) (out : StepOut) (hstep : step m ce e ev t = .ok (out, e')) (message : Str) :
    out.output ≠ some (.runtimeError (.internal message)) := by
  obtain ⟨⟨line, ho⟩, hcomp⟩ := h.ok
  intro hout
  cases hE : isEnter ev with
  | false =>
    have := (step_other (h.line ho.shows) hcomp hE hstep).1
    rw [hout] at this
    cases this
  | true =>
    obtain ⟨mods, rfl⟩ := isEnter_iff hE
    obtain ⟨d, d', sh, r, rfl, _, hc, hsh, _⟩ := C56_enter m ce e e' h mods t out hstep line ho.shows
    have hcl := C69_consistent m ce line e.session e.inputs line rfl ho.shows message
    rw [hc] at hcl
    simp only [Option.some.injEq] at hout
    subst hout
    rcases r with _ | ⟨_ | _⟩ | _ | _ <;> simp [shown] at hsh
    exact hcl (by rw [hsh])

theorem draw_err {m : Machine} {e : Editor} {line : Str} (ho : EditorOk e line) {err : RuntimeErr}
    (h : draw m e = .err err) : err = .internal "Window too narrow".toList ∨
      err = .internal "out of range integral type conversion attempted".toList := by
  have hu : ∀ n, toU16 n = .err err → err = .internal "out of range integral type conversion attempted".toList := by
    intro n hn
    unfold toU16 at hn
    split at hn <;> cases hn
    rfl
  have hb : ∀ {α β : Type} {o : Outcome RuntimeErr α} {f : α → Outcome RuntimeErr β},
      (o >>= f) = .err err → o = .err err ∨ ∃ a, o = .ok a ∧ f a = .err err := by
    intro α β o f h
    cases o with
    | ok a => exact .inr ⟨a, rfl, h⟩
    | err e => exact .inl (by cases h; rfl)
    | panic k => cases h
    | diverge => cases h
  have hsl : ∀ (l : Str) a b, strSlice l a b ≠ .err err := by
    intro l a b
    unfold strSlice
    split <;> simp
  have hwr : ∀ (w : Str) (av : Nat) (l : Str) (n i : Nat), wrapRows w av l n i ≠ .err err := by
    intro w av l n
    induction n with
    | zero => intro i; simp [wrapRows]
    | succ n ih =>
      intro i h
      unfold wrapRows at h
      split at h
      · rcases hb h with h | ⟨_, _, h⟩
        · exact hsl _ _ _ h
        · rcases hb h with h | ⟨_, _, h⟩
          · exact ih _ h
          · cases h
      · cases h
  unfold draw at h
  rw [show (e.inputs.currentLine : Outcome RuntimeErr Str) = .ok line from ho.shows] at h
  change (if _ then _ else _) = _ at h
  split at h
  · rcases hb h with h | ⟨_, _, h⟩
    · unfold drawWrapped at h
      simp only at h
      split at h
      · cases h; exact .inl rfl
      · split at h
        · cases h
        · rcases hb h with h | ⟨_, _, h⟩
          · exact .inr (hu _ h)
          · rcases hb h with h | ⟨_, _, h⟩
            · unfold u16Add at h
              split at h
              · cases h
              · split at h <;> cases h
            · rcases hb h with h | ⟨_, _, h⟩
              · exact .inr (hu _ h)
              · rcases hb h with h | ⟨_, _, h⟩
                · exact absurd h (hsl _ _ _)
                · rcases hb h with h | ⟨_, _, h⟩
                  · exact absurd h (hwr _ _ _ _ _)
                  · cases h
    · cases h
  · rcases hb h with h | ⟨_, _, h⟩
    · unfold drawScrolled at h
      simp only at h
      split at h
      · cases h; exact .inl rfl
      · rcases hb h with h | ⟨_, _, h⟩
        · unfold usizeSub at h
          split at h <;> cases h
        · rcases hb h with h | ⟨_, _, h⟩
          · exact .inr (hu _ h)
          · rcases hb h with h | ⟨_, _, h⟩
            · exact absurd h (hsl _ _ _)
            · cases h
    · cases h

/-- If an event ends the program with an error, the database has failed (on the way back through the
history), or the window is too narrow, or a number of rows or columns is beyond the terminal's range, or
something was pasted.  The inconsistencies do not occur. -/
theorem C69_fatal (m : Machine) (ce : CommandExecutor) (e : Editor) (h : Awaits m ce e) (ev : Event)
    (t : TermInfo) (err : RuntimeErr) (hstep : step m ce e ev t = .err err) :
    (∃ d, err = .db d ∧ ∃ mods, ev = .key .up mods) ∨ err = .internal "Window too narrow".toList ∨
      err = .internal "out of range integral type conversion attempted".toList ∨
      (err = .internal "Paste unimplemented!".toList ∧ ev = .paste) := by
  obtain ⟨⟨line, ho⟩, hcomp⟩ := h.ok
  have hb : ∀ {α β : Type} {o : Outcome RuntimeErr α} {f : α → Outcome RuntimeErr β},
      (o >>= f) = .err err → o = .err err ∨ ∃ a, o = .ok a ∧ f a = .err err := by
    intro α β o f h
    cases o with
    | ok a => exact .inr ⟨a, rfl, h⟩
    | err e => exact .inl (by cases h; rfl)
    | panic k => cases h
    | diverge => cases h
  unfold step at hstep
  rcases hb hstep with h1 | ⟨⟨a, e1⟩, h1, h2⟩
  · by_cases hp : ev = .paste
    · subst hp
      cases h1
      exact .inr (.inr (.inr ⟨rfl, rfl⟩))
    · obtain ⟨mods, d, h3, h4⟩ := handleEvent_err ho h1 hp
      exact .inl ⟨d, h4, mods, h3⟩
  · have hn : Next e ev e1 := by
      rcases handleEvent_inv ho ev with ⟨err, he⟩ | ⟨a', e1', he, hn⟩
      · rw [h1] at he; cases he
      · rw [h1] at he; cases he; exact hn
    obtain ⟨l1, ho1⟩ := hn.ok
    cases a with
    | ignore => cases h2
    | quit => cases h2
    | redraw =>
      simp only at h2
      rcases hb h2 with h3 | ⟨⟨d, e2⟩, h3, h4⟩
      · exact .inr ((draw_err ho1 h3).imp id .inl)
      · simp only at h4
        have ho2 := ho1.drawn h3
        split at h4
        · rcases hb h4 with h5 | ⟨⟨sh, e3⟩, h5, h6⟩
          · unfold finishLine at h5
            rcases hb h5 with h6 | ⟨l, h6, h7⟩
            · rw [show (e2.inputs.currentLine : Outcome RuntimeErr Str) = .ok l1 from ho2.shows] at h6
              cases h6
            · rcases hx : calculate m ce l e2.session with ⟨r, s⟩
              rw [hx] at h7
              simp only at h7
              rcases hb h7 with h8 | ⟨_, _, h8⟩
              · rcases r with _ | ⟨_ | _⟩ | _ | _ <;> cases h8
              · cases h8
          · simp only at h6
            rcases hb h6 with h7 | ⟨_, _, h7⟩
            · have hf := finishLine_ok ho2.shows h5
              obtain ⟨r, s, vs, _, _, _, _, hdb, he3⟩ := hf
              have : EditorOk (e3.newLine t) [] := by
                rw [he3]
                refine ⟨histOk_finished _ _, rfl, Nat.zero_le _, ?_⟩
                intro hz
                exact hdb.trans (ho2.db hz)
              exact .inr ((draw_err this h7).imp id .inl)
            · cases h7
        · cases h4

/-- An editor with a database that has been given an empty line, a line that does not parse, one that
cannot be evaluated, a command and a command that does not exist. -/
def exRecorded : Editor := exAfter 80 false
  ([.key .enter .none] ++ typed "1 +" ++ [.key .enter .none] ++ typed "1/0" ++ [.key .enter .none] ++
    typed "/radix" ++ [.key .enter .none] ++ typed "/nothing" ++ [.key .enter .none])
  (some ⟨exDb3, some 3, [], []⟩)

example : Awaits (exMachine true) table exRecorded ∧
    exRecorded.inputs.internal = ["", "1 +", "1/0", "/radix", "/nothing"].map String.toList ∧
    (exRecorded.db.map fun sd => historyOf sd.db) =
      some (["/radix", "/nothing"].map String.toList) :=
  ⟨exAfter_awaits (by decide +kernel), by decide +kernel, by decide +kernel⟩

/-- Every kind of fatal error occurs. -/
example : step (exMachine true) table exRecorded .paste ⟨0, 0, 80⟩ = .err (.internal "Paste unimplemented!".toList) := rfl
example : step (exMachine true) table exRecorded (.resize 3) ⟨0, 0, 80⟩ = .err (.internal "Window too narrow".toList) := by
  decide +kernel

end Bcalc
