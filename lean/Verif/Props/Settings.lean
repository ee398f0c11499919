import Verif.Proof.Settings2
import Verif.Props.Capacity

/-!
# Settings and commands: C62 to C66
-/

namespace Bcalc
open Spec

/-! ## C62 Settings stay valid -/

theorem requests_valid {arguments : Str} {a a' : Args} {cmd : Cmd} (h : Requests arguments a cmd a')
    (hv : ValidSettings a) : ValidSettings a' := by
  obtain ⟨h1, h2, h3⟩ := hv
  cases h with
  | radix _ l u => exact ⟨⟨l, u⟩, h2, h3⟩
  | output _ l u => exact ⟨h1, fun r hr => by simp only [Option.some.injEq] at hr; omega, h3⟩
  | noOutput _ => exact ⟨h1, fun r hr => by simp at hr, h3⟩
  | precision _ l => exact ⟨h1, h2, l⟩
  | precisions _ l => exact ⟨h1, h2, l⟩
  | fractional _ => exact ⟨h1, h2, h3⟩
  | upper _ => exact ⟨h1, h2, h3⟩
  | commas _ => exact ⟨h1, h2, h3⟩

/-- In any session the settings stay valid. -/
theorem C62_session (m : Machine) (ce : CommandExecutor) (hce : CommandExecutor.new = .ok ce)
    (s s' : Session) (h : Entered m ce s s') (hv : ValidSettings s.args) : ValidSettings s'.args := by
  rw [new_eq_table hce] at h
  induction h with
  | now => exact hv
  | @input s' line _ ih =>
    rcases calculate_args m line s' with h | ⟨cmd, arguments, a', _, _, h3, _, h5⟩
    · rw [h]; exact ih
    · rw [h5]; exact requests_valid h3 ih
  | meanwhile _ h ih => rw [h]; exact ih

/-- The same for the interactive program, from its start on, whatever keys are pressed. -/
theorem C62_interactive (m : Machine) (ce : CommandExecutor) (hce : CommandExecutor.new = .ok ce)
    (e e' : Editor) (ha : Awaits m ce e) (h : Leads m ce e e') (hv : ValidSettings e.args) :
    ValidSettings e'.args := by
  have : ∀ e', Leads m ce e e' → ValidSettings e'.args ∧ (∃ line, EditorOk e' line) ∧
      e'.inputComplete = false := by
    intro e' h
    induction h with
    | now => exact ⟨hv, ha.ok⟩
    | @event e1 e2 ev t out _ hst ih =>
      obtain ⟨hv1, ⟨line, ho⟩, hc⟩ := ih
      refine ⟨?_, step_inv ho hc hst⟩
      cases hen : isEnter ev with
      | true =>
        obtain ⟨mods, rfl⟩ := isEnter_iff hen
        obtain ⟨d, d', sh, r, _, _, hcalc, _⟩ := (step_enter_ok ho hst).out
        have := C62_session m ce hce e1.session _ (.input (line := line) .now) hv1
        rw [hcalc] at this
        exact this
      | false =>
        obtain ⟨_, a, e3, h1, hn, ⟨off, rfl⟩, _⟩ := step_other ho hc hen hst
        simp only
        rw [hn.args]
        exact hv1
  exact (this e' h).1

theorem exDefault_valid : ValidSettings Args.default :=
  ⟨by decide, fun r h => by simp [Args.default] at h, by decide⟩

/-- A session in which settings are changed, and an attempt to leave the ranges fails. -/
example : ValidSettings (exTyped "/radix 17").args ∧
    (calculate (exMachine true) table "/radix 17".toList (exTyped "/radix 17")).1 =
      .err (.input "Radix cannot be greater than 16".toList (some ⟨0, 2⟩)) ∧
    (calculate (exMachine true) table "/p 200 55".toList (exTyped "/p 200 55")).2.args.precision = 200 ∧
    (calculate (exMachine true) table "/p 200 56".toList (exTyped "/p 200 56")).2.args.precision = 5 := by
  refine ⟨exDefault_valid, ?_⟩
  decide +kernel

/-! ## C63 Failing inputs change no setting -/

/-- An input that does not end in a result (but in an error, or a crash) leaves every setting as it
was. -/
theorem C63_failing (m : Machine) (ce : CommandExecutor) (hce : CommandExecutor.new = .ok ce)
    (line : Str) (s : Session) (h : ∀ out, (calculate m ce line s).1 ≠ .ok out) :
    (calculate m ce line s).2.args = s.args := by
  rw [new_eq_table hce] at h ⊢
  rcases calculate_args m line s with h' | ⟨_, _, _, _, _, _, h4, _⟩
  · exact h'
  · exact absurd h4 (h _)

/-- So does every input that is not a setting command. -/
theorem C63_other (m : Machine) (ce : CommandExecutor) (hce : CommandExecutor.new = .ok ce)
    (line : Str) (s : Session) (h : ∀ cmd arguments, Setting cmd → ¬ IsCommand line cmd arguments) :
    (calculate m ce line s).2.args = s.args := by
  rw [new_eq_table hce]
  rcases calculate_args m line s with h' | ⟨cmd, arguments, _, h1, h2, _⟩
  · exact h'
  · exact absurd h2 (h cmd arguments h1)

/-- In the interactive program: no key but Enter changes a setting, and Enter only if the line shown is a
setting command that succeeds. -/
theorem C63_interactive (m : Machine) (ce : CommandExecutor) (hce : CommandExecutor.new = .ok ce)
    (e e' : Editor) (ev : Event) (t : TermInfo) (out : StepOut) (line : Str) (ha : Awaits m ce e)
    (hs : Shows e line) (h : step m ce e ev t = .ok (out, e')) (hne : e'.args ≠ e.args) :
    (∃ mods, ev = .key .enter mods) ∧ out.output = some (.result "Done".toList) ∧
      ∃ cmd arguments, Setting cmd ∧ IsCommand line cmd arguments ∧ Requests arguments e.args cmd e'.args := by
  have ho := ha.line hs
  cases hen : isEnter ev with
  | true =>
    obtain ⟨mods, rfl⟩ := isEnter_iff hen
    obtain ⟨d, d', sh, r, rfl, _, hcalc, hsh⟩ := (step_enter_ok ho h).out
    rw [new_eq_table hce] at hcalc
    have := calculate_args m line e.session
    rw [hcalc] at this
    rcases this with h' | ⟨cmd, arguments, a', h1, h2, h3, h4, h5⟩
    · exact absurd h' hne
    · simp only at h4 h5
      subst h4
      simp only [shown, Outcome.ok.injEq] at hsh
      subst hsh
      refine ⟨⟨mods, rfl⟩, rfl, cmd, arguments, h1, h2, ?_⟩
      have e1 : e'.args = a' := h5
      rw [e1]
      exact h3
  | false =>
    obtain ⟨_, a, e3, h1, hn, ⟨off, rfl⟩, _⟩ := step_other ho ha.ok.2 hen h
    exact absurd hn.args hne

example : (calculate (exMachine true) table "1 / 0".toList (exTyped "1 / 0")).1 ≠ .ok [] := by
  decide +kernel

example : (calculate (exMachine true) table "/radix 1".toList (exTyped "/radix 1")).1 =
      .err (.input "Radix cannot be less than 2".toList (some ⟨0, 1⟩)) ∧
    (calculate (exMachine true) table "/radix 1".toList (exTyped "/radix 1")).2.args = Args.default := by
  decide +kernel

example : ∀ cmd arguments, Setting cmd → ¬ IsCommand "/purgevar $x".toList cmd arguments := by
  intro cmd arguments hs h
  obtain ⟨name, p, q, h1, h2⟩ := (isCommand_iff 10).1 h
  have e : tokenize "/purgevar $x".toList 10 =
    .ok (.command ⟨"purgevar".toList, ⟨0, 9⟩⟩ ⟨"$x".toList, ⟨10, 2⟩⟩) := by decide +kernel
  rw [e] at h1
  simp only [Outcome.ok.injEq, ParsedInput.command.injEq, Positioned.mk.injEq] at h1
  obtain ⟨⟨rfl, _⟩, _⟩ := h1
  have e2 : table.resolve "purgevar".toList = some .purgeVar := by decide +kernel
  rw [e2] at h2
  cases h2
  exact hs

/-! ## C64 Settings read back what was set -/

/-- A setting command with a proper argument sets what it asks for (if the input can be recorded). -/
theorem C64_set (m : Machine) (ce : CommandExecutor) (hce : CommandExecutor.new = .ok ce) (line : Str)
    (s s1 : Session) (id : Option Int) (hrec : recordInput s = (.ok id, s1)) (cmd : Cmd)
    (arguments : Str) (hl : IsCommand line cmd arguments) (a' : Args)
    (h : Requests arguments s.args cmd a') :
    (calculate m ce line s).1 = .ok "Done".toList ∧ (calculate m ce line s).2.args = a' := by
  rw [new_eq_table hce]
  obtain ⟨name, p, q, ht, hres⟩ := (isCommand_iff s.args.radix).1 hl
  have hargs := (recordInput_args s).1
  rw [hrec] at hargs
  have hne : cmd ≠ .reloadVar := by rintro rfl; cases h
  rw [calculate_command hrec ht hres hne]
  have : cmd.execute m table ⟨arguments, q⟩ s1 = _ := setting_set (by rw [hargs]; exact h)
  rw [this]
  exact ⟨rfl, rfl⟩

/-- Without argument it prints the setting, and changes nothing. -/
theorem C64_show (m : Machine) (ce : CommandExecutor) (hce : CommandExecutor.new = .ok ce) (line : Str)
    (s s1 : Session) (id : Option Int) (hrec : recordInput s = (.ok id, s1)) (cmd : Cmd)
    (hs : Setting cmd) (arguments : Str) (hl : IsCommand line cmd arguments)
    (h : NoArgument arguments cmd) :
    calculate m ce line s = (.ok (settingText s.args cmd), s1) := by
  rw [new_eq_table hce]
  obtain ⟨name, p, q, ht, hres⟩ := (isCommand_iff s.args.radix).1 hl
  have hargs := (recordInput_args s).1
  rw [hrec] at hargs
  have hne : cmd ≠ .reloadVar := by rintro rfl; cases hs
  rw [calculate_command hrec ht hres hne]
  have : cmd.execute m table ⟨arguments, q⟩ s1 = _ := setting_show hs s1 h
  rw [this, ← hargs]
  rfl

/-- With any other argument it is an error, and changes nothing. -/
theorem C64_otherwise (m : Machine) (ce : CommandExecutor) (hce : CommandExecutor.new = .ok ce) (line : Str)
    (s s1 : Session) (id : Option Int) (hrec : recordInput s = (.ok id, s1)) (cmd : Cmd)
    (hs : Setting cmd) (arguments : Str) (hl : IsCommand line cmd arguments)
    (h : ¬ NoArgument arguments cmd) (h' : ∀ a', ¬ Requests arguments s.args cmd a') :
    ∃ t p, calculate m ce line s = (.err (.input t p), s1) := by
  rw [new_eq_table hce]
  obtain ⟨name, p, q, ht, hres⟩ := (isCommand_iff s.args.radix).1 hl
  have hargs := (recordInput_args s).1
  rw [hrec] at hargs
  have hne : cmd ≠ .reloadVar := by rintro rfl; cases hs
  rw [calculate_command hrec ht hres hne]
  obtain ⟨t, p, this⟩ := setting_else (m := m) (ce := table) (arguments := ⟨arguments, q⟩) (s := s1) hs h
    (by rw [hargs]; exact h')
  rw [this]
  exact ⟨t, p, rfl⟩

theorem requests_others {arguments : Str} {a a' : Args} {cmd cmd' : Cmd} (h : Requests arguments a cmd' a')
    (hne : cmd' ≠ cmd) : settingText a' cmd = settingText a cmd := by
  cases h <;> cases cmd <;> first | rfl | exact absurd rfl hne

/-- The setting stays what it is. -/
theorem C64_stays (m : Machine) (ce : CommandExecutor) (hce : CommandExecutor.new = .ok ce) (cmd : Cmd)
    (s s' : Session) (h : Untouched m ce cmd s s') :
    settingText s'.args cmd = settingText s.args cmd := by
  rw [new_eq_table hce] at h
  induction h with
  | now => rfl
  | @input s' line _ hl ih =>
    rcases calculate_args m line s' with h | ⟨cmd', arguments, a', _, h2, h3, _, h5⟩
    · rw [h]; exact ih
    · rw [h5, requests_others h3 (by rintro rfl; exact hl _ h2)]
      exact ih
  | meanwhile _ h ih => rw [h]; exact ih

/-- After a setting has been set, and until its command is used again, the command without argument
prints the value set. -/
theorem C64_read_back (m : Machine) (ce : CommandExecutor) (hce : CommandExecutor.new = .ok ce)
    (line line' : Str) (s s1 s' s1' : Session) (id id' : Option Int) (hrec : recordInput s = (.ok id, s1))
    (cmd : Cmd) (arguments arguments' : Str) (hl : IsCommand line cmd arguments) (a' : Args)
    (h : Requests arguments s.args cmd a') (hk : Untouched m ce cmd (calculate m ce line s).2 s')
    (hrec' : recordInput s' = (.ok id', s1')) (hl' : IsCommand line' cmd arguments')
    (h' : NoArgument arguments' cmd) :
    (calculate m ce line' s').1 = .ok (settingText a' cmd) := by
  have hs : Setting cmd := by cases h <;> trivial
  rw [C64_show m ce hce line' s' s1' id' hrec' cmd hs arguments' hl' h']
  rw [C64_stays m ce hce cmd _ _ hk, (C64_set m ce hce line s s1 id hrec cmd arguments hl a' h).2]

theorem decimal_inj {n k : Nat} (h : decimal n = decimal k) : n = k := by
  have h1 := Nat.ofDigitChars_toDigits (b := 10) (n := n) (by decide) (by decide)
  have h2 := Nat.ofDigitChars_toDigits (b := 10) (n := k) (by decide) (by decide)
  unfold decimal at h
  rw [h] at h1
  exact h1.symm.trans h2

theorem decimal_digit {n : Nat} {c : Char} (h : c ∈ decimal n) : c.isDigit = true :=
  Nat.isDigit_of_mem_toDigits (by decide) (by decide) h

theorem append_cons_inj {a a' b b' : Str} {x : Char} (h : a ++ x :: b = a' ++ x :: b') (ha : x ∉ a)
    (ha' : x ∉ a') : a = a' ∧ b = b' := by
  induction a generalizing a' with
  | nil =>
    cases a' with
    | nil => simpa using h
    | cons c a' => simp at h ha'; exact absurd h.1 ha'.1
  | cons c a ih =>
    cases a' with
    | nil => simp at h ha; exact absurd h.1.symm ha.1
    | cons c' a' =>
      simp only [List.cons_append, List.cons.injEq] at h
      obtain ⟨h1, h2⟩ := ih h.2 (fun hx => ha (by simp [hx])) (fun hx => ha' (by simp [hx]))
      exact ⟨by rw [h.1, h1], h2⟩

theorem switchText_inj {b b' : Bool} (h : switchText b = switchText b') : b = b' := by
  revert h
  cases b <;> cases b' <;> decide

/-- The texts tell the values: different values are shown differently. -/
theorem C64_faithful (a a' : Args) :
    (settingText a .radix = settingText a' .radix → a.radix = a'.radix) ∧
    (settingText a .convertToRadix = settingText a' .convertToRadix →
      a.convertToRadix = a'.convertToRadix) ∧
    (settingText a .precision = settingText a' .precision →
      a.precision = a'.precision ∧ a.extraPrecision = a'.extraPrecision) ∧
    (settingText a .fractional = settingText a' .fractional → a.fractional = a'.fractional) ∧
    (settingText a .upper = settingText a' .upper → a.upper = a'.upper) ∧
    (settingText a .commas = settingText a' .commas → a.commas = a'.commas) := by
  refine ⟨fun h => decimal_inj h, fun h => ?_, fun h => ?_, fun h => switchText_inj h,
    fun h => switchText_inj h, fun h => switchText_inj h⟩
  · have e : ∀ a : Args, settingText a .convertToRadix = match a.convertToRadix with
      | none => "None".toList
      | some r => decimal r := fun _ => rfl
    have hN : ∀ n, "None".toList ≠ decimal n := by
      intro n hn
      have : 'N' ∈ decimal n := by rw [← hn]; decide
      exact absurd (decimal_digit this) (by decide)
    rw [e, e] at h
    cases h1 : a.convertToRadix with
    | none =>
      cases h2 : a'.convertToRadix with
      | none => rfl
      | some r => rw [h1, h2] at h; exact absurd h (hN r)
    | some r =>
      cases h2 : a'.convertToRadix with
      | none => rw [h1, h2] at h; exact absurd h.symm (hN r)
      | some r' => rw [h1, h2] at h; exact congrArg some (decimal_inj h)
  · have e : ∀ a : Args, settingText a .precision =
        ("Precision = ".toList ++ decimal a.precision) ++ '\n' :: ("Extra Precision = ".toList ++
          decimal a.extraPrecision) := by
      intro a
      have : settingText a .precision = "Precision = ".toList ++ decimal a.precision ++
        "\nExtra Precision = ".toList ++ decimal a.extraPrecision := rfl
      rw [this, List.append_assoc, List.append_assoc, List.append_assoc]
      rfl
    have hN : ∀ n, '\n' ∉ "Precision = ".toList ++ decimal n := by
      intro n hn
      rcases List.mem_append.1 hn with hn | hn
      · revert hn; decide
      · exact absurd (decimal_digit hn) (by decide)
    rw [e, e] at h
    obtain ⟨h1, h2⟩ := append_cons_inj h (hN _) (hN _)
    exact ⟨decimal_inj (List.append_cancel_left h1), decimal_inj (List.append_cancel_left h2)⟩

/-- The capacity of the history, too: after `/histcap n`, the command without argument prints `n` (in a
session that is alone at its database). -/
theorem C64_history_capacity (m : Machine) (ce : CommandExecutor) (hce : CommandExecutor.new = .ok ce)
    (line line' : Str) (s s' : Session) (text text' : Str) (sd sd' : SavedData) (ha : Alone s text sd)
    (arguments arguments' : Str) (hl : IsCommand line .histcap arguments) (n : Nat) (hn : 1 ≤ n)
    (hargs : Integers arguments [(n : Int)]) (hd : s'.db = (calculate m ce line s).2.db)
    (ha' : Alone s' text' sd') (hl' : IsCommand line' .histcap arguments')
    (hargs' : ∀ c ∈ arguments', Blank c) :
    (calculate m ce line s).1 = .ok "Done".toList ∧ (calculate m ce line' s').1 = .ok (decimal n) := by
  have hname : ∀ {line arguments}, IsCommand line .histcap arguments → ∀ radix, ∃ p q,
      tokenize line radix = .ok (.command ⟨"histcap".toList, p⟩ ⟨arguments, q⟩) := by
    rintro line arguments ⟨name, h1, h2⟩ radix
    have : ∀ p ∈ commandNames, p.2 = .histcap → p.1 = "histcap" := by decide
    have e := this _ h1 rfl
    simp only at e
    subst e
    exact tokenize_named h2 radix
  obtain ⟨p, q, ht⟩ := hname hl s.args.radix
  obtain ⟨p', q', ht'⟩ := hname hl' s'.args.radix
  obtain ⟨ps, hp, hv⟩ := (integers_iff _ _).1 hargs
  obtain ⟨x, rfl, hx⟩ := List.map_eq_singleton_iff.1 hv
  obtain ⟨ps, hp', hv'⟩ := (integers_iff _ _).1 (integers_blank hargs')
  have e0 : ps = [] := by simpa using hv'
  subst e0
  obtain ⟨v, pv⟩ := x
  simp only at hx
  subst hx
  obtain ⟨h1, sd1, h2, h3, h4, _⟩ := C50_command_set m ce hce line s text sd ha p ⟨arguments, q⟩ ht n pv hp hn
  refine ⟨h1, ?_⟩
  have e1 : sd' = sd1 := by
    have := ha'.db
    rw [hd, h2] at this
    exact (Option.some.inj this).symm
  subst e1
  obtain ⟨h5, _⟩ := C50_command_show m ce hce line' s' text' sd' ha' p' ⟨arguments', q'⟩ ht' hp' n h4
  rw [h5, intDisplay_nat]

/-- Integers as one writes them. -/
theorem exIntegers {arguments : String} {n : Nat} {p : Position}
    (h : tokenizeIntList arguments.toList 10 = .ok [⟨(n : Int), p⟩]) : Integers arguments.toList [(n : Int)] :=
  (integers_iff _ _).2 ⟨_, h, rfl⟩

theorem exIsCommand {line name arguments : String} {cmd : Cmd} (pre : Str) (b : Char)
    (h1 : line.toList = pre ++ '/' :: name.toList ++ b :: arguments.toList)
    (h2 : line.toList.all isAscii = true) (h3 : pre.all isTrimWs = true) (h4 : (name, cmd) ∈ commandNames)
    (h5 : name.toList.all (fun c => !isAsciiWs c) = true) (h6 : isAsciiWs b = true) :
    IsCommand line.toList cmd arguments.toList := by
  refine ⟨name, h4, ?_, pre, _, h1, ?_, ?_, .inr ⟨b, (isAsciiWs_iff b).1 h6, rfl⟩⟩
  · intro c hc
    have := List.all_eq_true.1 h2 c hc
    unfold isAscii at this
    simpa using this
  · intro c hc
    exact (space_iff c).1 (List.all_eq_true.1 h3 c hc)
  · intro c hc
    have := List.all_eq_true.1 h5 c hc
    rw [← isAsciiWs_iff]
    simpa using this

example : IsCommand "  /radix 16 ".toList .radix "16 ".toList ∧ IsCommand "/r 16".toList .radix "16".toList ∧
    IsCommand "/histcap 7".toList .histcap "7".toList ∧ IsCommand "/f TRUE".toList .fractional "TRUE".toList :=
  ⟨exIsCommand (name := "radix") "  ".toList ' ' (by decide) (by decide) (by decide) (by decide) (by decide)
      (by decide),
   exIsCommand (name := "r") [] ' ' (by decide) (by decide) (by decide) (by decide) (by decide) (by decide),
   exIsCommand (name := "histcap") [] ' ' (by decide) (by decide) (by decide) (by decide) (by decide)
      (by decide),
   exIsCommand (name := "f") [] ' ' (by decide) (by decide) (by decide) (by decide) (by decide) (by decide)⟩

example : Requests "16 ".toList Args.default .radix { Args.default with radix := 16 } :=
  .radix (exIntegers (p := ⟨0, 2⟩) (by decide +kernel)) (by decide) (by decide)

example : Requests " tRUE".toList Args.default .fractional { Args.default with fractional := true } :=
  .fractional (.inl ⟨[' '], "tRUE".toList, [], by decide, by decide, by
    simp only [← space_iff]; decide, by simp⟩)

example : NoArgument " ".toList .precision ∧ settingText Args.default .precision =
    "Precision = 5\nExtra Precision = 10".toList := by
  refine ⟨?_, by decide +kernel⟩
  show ∀ c ∈ " ".toList, Blank c
  simp only [← isAsciiWs_iff]; decide

/-- Recording an input succeeds, for instance, here. -/
example : (recordInput (exTyped "/radix 16")).1 = .ok (some 4) ∧
    (calculate (exMachine true) table "/radix 16".toList (exTyped "/radix 16")).2.args.radix = 16 := by
  decide +kernel

/-! ## C65 Commands change only what they name -/

theorem requests_only {arguments : Str} {a a' : Args} {cmd : Cmd} (h : Requests arguments a cmd a') :
    OnlySetting cmd a a' := by
  cases h <;> rfl

theorem onlySetting_refl (cmd : Cmd) (a : Args) : OnlySetting cmd a a := by
  cases cmd <;> rfl

/-- A setting command changes nothing but its own setting, apart from recording the input. -/
theorem C65_setting_command (m : Machine) (ce : CommandExecutor) (hce : CommandExecutor.new = .ok ce)
    (line : Str) (s : Session) (cmd : Cmd) (hs : Setting cmd) (arguments : Str)
    (hl : IsCommand line cmd arguments) :
    ∃ a', OnlySetting cmd s.args a' ∧
      (calculate m ce line s).2 = { (recordInput s).2 with args := a' } := by
  have hargs := (recordInput_args s).1
  rcases hrec : recordInput s with ⟨r, s1⟩
  rw [hrec] at hargs
  simp only at hargs
  by_cases hok : ∃ id, r = .ok id
  · obtain ⟨id, rfl⟩ := hok
    obtain ⟨name, p, q, ht, hres⟩ := (isCommand_iff s.args.radix).1 hl
    have hne : cmd ≠ .reloadVar := by rintro rfl; cases hs
    rw [new_eq_table hce, calculate_command hrec ht hres hne]
    by_cases hreq : ∃ a', Requests arguments s1.args cmd a'
    · obtain ⟨a', hreq⟩ := hreq
      have hx : cmd.execute m table ⟨arguments, q⟩ s1 = _ := setting_set hreq
      rw [hx]
      rw [hargs] at hreq
      exact ⟨a', requests_only hreq, rfl⟩
    · refine ⟨s.args, onlySetting_refl _ _, ?_⟩
      rw [← hargs]
      by_cases hsp : NoArgument arguments cmd
      · have hx : cmd.execute m table ⟨arguments, q⟩ s1 = _ := setting_show hs s1 hsp
        rw [hx]
      · obtain ⟨t, p, he⟩ := setting_else (m := m) (ce := table) (arguments := ⟨arguments, q⟩) (s := s1) hs
          hsp (fun a' h => hreq ⟨a', h⟩)
        rw [he]
  · refine ⟨s.args, onlySetting_refl _ _, ?_⟩
    rw [(calculate_rec_fail (m := m) (ce := ce) (line := line) (s := s) (by
      intro id h; rw [hrec] at h; exact hok ⟨id, h⟩)).2, hrec, ← hargs]

/-- In particular, it touches no variable; and the saved data of a session that is alone at its database
change only by the recorded input. -/
theorem C65_variables_and_data (m : Machine) (ce : CommandExecutor) (hce : CommandExecutor.new = .ok ce)
    (line : Str) (s : Session) (cmd : Cmd) (hs : Setting cmd) (arguments : Str)
    (hl : IsCommand line cmd arguments) :
    (calculate m ce line s).2.vars = s.vars ∧
    ∀ text sd, Alone s text sd → ∃ sd', (calculate m ce line s).2.db = some sd' ∧
      sd'.db = (DbOp.add text).apply sd.db := by
  obtain ⟨a', _, h⟩ := C65_setting_command m ce hce line s cmd hs arguments hl
  rw [h]
  refine ⟨(recordInput_args s).2, ?_⟩
  intro text sd ha
  obtain ⟨hist, hi, hcur⟩ := ha.inputs
  obtain ⟨i, hrec⟩ := recordInput_quiet hi hcur ha.db ha.reachable ha.quiet
  rw [hrec]
  exact ⟨_, rfl, rfl⟩

/-- The command for the history capacity changes nothing but the database, apart from recording. -/
theorem C65_history_capacity (m : Machine) (ce : CommandExecutor) (hce : CommandExecutor.new = .ok ce)
    (line : Str) (s : Session) (arguments : Str) (hl : IsCommand line .histcap arguments) :
    ∃ db', (calculate m ce line s).2 = { (recordInput s).2 with db := db' } := by
  rcases hrec : recordInput s with ⟨r, s1⟩
  by_cases hok : ∃ id, r = .ok id
  · obtain ⟨id, rfl⟩ := hok
    obtain ⟨name, p, q, ht, hres⟩ := (isCommand_iff s.args.radix).1 hl
    rw [new_eq_table hce, calculate_command hrec ht hres (by decide)]
    simp only
    unfold Cmd.execute executeHistcap
    simp only
    cases (intListArgs arguments >>= histcapArgument) with
    | ok input =>
      simp only
      cases hd : s1.db with
      | none => exact ⟨none, by simp only; rw [← hd]⟩
      | some db =>
        simp only
        cases input with
        | none =>
          simp only
          rcases db.getMaxHistorySize with ⟨_ | _ | _ | _, _⟩ <;> exact ⟨_, rfl⟩
        | some n =>
          simp only
          rcases db.setMaxHistorySize n with ⟨_ | _ | _ | _, _⟩ <;> exact ⟨_, rfl⟩
    | err e => exact ⟨s1.db, rfl⟩
    | panic k => exact ⟨s1.db, rfl⟩
    | diverge => exact ⟨s1.db, rfl⟩
  · rw [(calculate_rec_fail (m := m) (ce := ce) (line := line) (s := s) (by
      intro id h; rw [hrec] at h; exact hok ⟨id, h⟩)).2, hrec]
    exact ⟨s1.db, rfl⟩

/-- The command for help changes nothing, apart from recording. -/
theorem C65_help (m : Machine) (ce : CommandExecutor) (hce : CommandExecutor.new = .ok ce)
    (line : Str) (s : Session) (arguments : Str) (hl : IsCommand line .help arguments) :
    (calculate m ce line s).2 = (recordInput s).2 := by
  rcases hrec : recordInput s with ⟨r, s1⟩
  by_cases hok : ∃ id, r = .ok id
  · obtain ⟨id, rfl⟩ := hok
    obtain ⟨name, p, q, ht, hres⟩ := (isCommand_iff s.args.radix).1 hl
    rw [new_eq_table hce, calculate_command hrec ht hres (by decide)]
    rfl
  · rw [(calculate_rec_fail (m := m) (ce := ce) (line := line) (s := s) (by
      intro id h; rw [hrec] at h; exact hok ⟨id, h⟩)).2, hrec]

/-! ## C66 Command dispatch is unambiguous -/

/-- The table of commands is built without a panic. -/
theorem C66_start : ∃ ce, CommandExecutor.new = .ok ce := ⟨table, new_table⟩

/-- A name stands for a command exactly when the documentation says so. -/
theorem C66_names (ce : CommandExecutor) (hce : CommandExecutor.new = .ok ce) (name : Str) (cmd : Cmd) :
    ce.resolve name = some cmd ↔ ∃ n, (n, cmd) ∈ commandNames ∧ name = n.toList := by
  rw [new_eq_table hce, resolve_iff]
  unfold commandNames'
  rw [List.mem_map]
  constructor
  · rintro ⟨⟨n, c⟩, h1, h2⟩
    simp only [Prod.mk.injEq] at h2
    obtain ⟨rfl, rfl⟩ := h2
    exact ⟨n, h1, rfl⟩
  · rintro ⟨n, h, rfl⟩
    exact ⟨_, h, rfl⟩

/-- No name stands for two commands, and each command has a name. -/
theorem C66_unambiguous :
    (∀ n c c', (n, c) ∈ commandNames → (n, c') ∈ commandNames → c = c') ∧
    ∀ c : Cmd, ∃ n, (n, c) ∈ commandNames := by
  constructor
  · have : ∀ p ∈ commandNames, ∀ p' ∈ commandNames, p.1 = p'.1 → p.2 = p'.2 := by decide
    exact fun n c c' h h' => this _ h _ h' rfl
  · intro c
    cases c
    · exact ⟨"help", by decide⟩
    · exact ⟨"reloadvar", by decide⟩
    · exact ⟨"purgevar", by decide⟩
    · exact ⟨"histcap", by decide⟩
    · exact ⟨"fractional", by decide⟩
    · exact ⟨"radix", by decide⟩
    · exact ⟨"converttoradix", by decide⟩
    · exact ⟨"upper", by decide⟩
    · exact ⟨"commas", by decide⟩
    · exact ⟨"precision", by decide⟩

/-- A line is at most one command. -/
theorem C66_one_command (line : Str) (cmd cmd' : Cmd) (arguments arguments' : Str)
    (h : IsCommand line cmd arguments) (h' : IsCommand line cmd' arguments') :
    cmd = cmd' ∧ arguments = arguments' := by
  obtain ⟨name, p, q, h1, h2⟩ := (isCommand_iff 10).1 h
  obtain ⟨name', p', q', h1', h2'⟩ := (isCommand_iff 10).1 h'
  rw [h1] at h1'
  simp only [Outcome.ok.injEq, ParsedInput.command.injEq, Positioned.mk.injEq] at h1'
  obtain ⟨⟨rfl, _⟩, rfl, _⟩ := h1'
  rw [h2] at h2'
  exact ⟨Option.some.inj h2', rfl⟩

theorem execute_places (m : Machine) (ce : CommandExecutor) (cmd : Cmd) (text : Str) (q q' : Position)
    (s : Session) :
    (cmd.execute m ce ⟨text, q⟩ s).2 = (cmd.execute m ce ⟨text, q'⟩ s).2 ∧
    ((cmd.execute m ce ⟨text, q⟩ s).1 = (cmd.execute m ce ⟨text, q'⟩ s).1 ∨
      ∃ t p p', (cmd.execute m ce ⟨text, q⟩ s).1 = .err (.input t p) ∧
        (cmd.execute m ce ⟨text, q'⟩ s).1 = .err (.input t p')) := by
  have hb : ∀ (get : Args → Bool) (set : Args → Bool → Args),
      (executeBool get set ⟨text, q⟩ s).2 = (executeBool get set ⟨text, q'⟩ s).2 ∧
      ((executeBool get set ⟨text, q⟩ s).1 = (executeBool get set ⟨text, q'⟩ s).1 ∨
        ∃ t p p', (executeBool get set ⟨text, q⟩ s).1 = .err (.input t p) ∧
        (executeBool get set ⟨text, q'⟩ s).1 = .err (.input t p')) := by
    intro get set
    by_cases h1 : ∀ c ∈ text, Space c
    · unfold executeBool
      rw [boolArgument_space (arguments := ⟨text, q⟩) h1, boolArgument_space (arguments := ⟨text, q'⟩) h1]
      exact ⟨rfl, .inl rfl⟩
    · by_cases h2 : ∃ b, Says text b
      · obtain ⟨b, h2⟩ := h2
        unfold executeBool
        rw [boolArgument_says (arguments := ⟨text, q⟩) h2, boolArgument_says (arguments := ⟨text, q'⟩) h2]
        exact ⟨rfl, .inl rfl⟩
      · have h2' : ∀ b, ¬ Says text b := fun b h => h2 ⟨b, h⟩
        unfold executeBool
        rw [boolArgument_else (arguments := ⟨text, q⟩) h1 h2', boolArgument_else (arguments := ⟨text, q'⟩) h1 h2']
        exact ⟨rfl, .inr ⟨_, _, _, rfl, rfl⟩⟩
  cases cmd with
  | help =>
    refine ⟨rfl, ?_⟩
    unfold Cmd.execute executeHelp
    simp only
    have ht : (⟨text, q⟩ : Positioned Str).trim.value = (⟨text, q'⟩ : Positioned Str).trim.value := by
      unfold Positioned.trim
      simp only
      cases text.findIdx? (fun c => !isAsciiWs c) <;> rfl
    rw [ht]
    split
    · exact .inl rfl
    · split
      · exact .inl rfl
      · right
        unfold noSuchCommand
        rw [ht]
        exact ⟨_, _, _, rfl, rfl⟩
  | reloadVar => exact ⟨rfl, .inl rfl⟩
  | purgeVar => exact ⟨rfl, .inl rfl⟩
  | histcap => exact ⟨rfl, .inl rfl⟩
  | radix => exact ⟨rfl, .inl rfl⟩
  | convertToRadix => exact ⟨rfl, .inl rfl⟩
  | precision => exact ⟨rfl, .inl rfl⟩
  | fractional => exact hb _ _
  | upper => exact hb _ _
  | commas => exact hb _ _

/-- An alias behaves exactly as the command it abbreviates: two lines that are the same command with the
same argument text have the same effects and the same results. -/
theorem C66_alias (m : Machine) (ce : CommandExecutor) (hce : CommandExecutor.new = .ok ce)
    (line line' : Str) (cmd : Cmd) (arguments : Str) (h : IsCommand line cmd arguments)
    (h' : IsCommand line' cmd arguments) (s : Session) :
    placeless (calculate m ce line s).1 = placeless (calculate m ce line' s).1 ∧
      (calculate m ce line s).2 = (calculate m ce line' s).2 := by
  rw [new_eq_table hce]
  have hargs := (recordInput_args s).1
  rcases hrec : recordInput s with ⟨r, s1⟩
  rw [hrec] at hargs
  simp only at hargs
  obtain ⟨name, p, q, h1, h2⟩ := (isCommand_iff s.args.radix).1 h
  obtain ⟨name', p', q', h1', h2'⟩ := (isCommand_iff s.args.radix).1 h'
  rw [calculate_eq, calculate_eq]
  unfold St.andThen
  rw [hrec]
  cases r with
  | ok id =>
    simp only
    unfold afterRecording
    rw [hargs, h1, h1']
    simp only
    unfold calculateCommand CommandExecutor.executeCommand St.andThen
    simp only
    rw [h2, h2']
    simp only
    obtain ⟨k1, k2⟩ := execute_places m table cmd arguments q q' s1
    rcases hx : cmd.execute m table ⟨arguments, q⟩ s1 with ⟨r, s2⟩
    rcases hx' : cmd.execute m table ⟨arguments, q'⟩ s1 with ⟨r', s2'⟩
    rw [hx, hx'] at k1 k2
    simp only at k1 k2
    subst k1
    rcases k2 with rfl | ⟨t, p, p', rfl, rfl⟩
    · exact ⟨rfl, rfl⟩
    · exact ⟨rfl, rfl⟩
  | err e => exact ⟨rfl, rfl⟩
  | panic k => exact ⟨rfl, rfl⟩
  | diverge => exact ⟨rfl, rfl⟩

/-- Any other name is reported, at its place, and nothing happens apart from recording. -/
theorem C66_unknown (m : Machine) (ce : CommandExecutor) (hce : CommandExecutor.new = .ok ce)
    (line name arguments : Str) (hl : NamedCommand line name arguments)
    (hn : ∀ n cmd, (n, cmd) ∈ commandNames → n.toList ≠ name) (s s1 : Session) (id : Option Int)
    (hrec : recordInput s = (.ok id, s1)) :
    ∃ p, calculate m ce line s =
      (.err (.input ("No such command: '".toList ++ name ++ "'".toList) (some p)), s1) ∧
      textAt line p = '/' :: name := by
  have hargs := (recordInput_args s).1
  rw [hrec] at hargs
  simp only at hargs
  obtain ⟨p, q, ht⟩ := tokenize_named hl s.args.radix
  refine ⟨p, ?_, ?_⟩
  · have hres : ce.resolve name = none := by
      cases h : ce.resolve name with
      | none => rfl
      | some cmd =>
        obtain ⟨n, h1, h2⟩ := (C66_names ce hce name cmd).1 h
        exact absurd h2.symm (hn n cmd h1)
    rw [calculate_eq, andThen_of_ok hrec]
    unfold afterRecording
    rw [hargs, ht]
    simp only
    unfold calculateCommand CommandExecutor.executeCommand St.andThen
    simp only
    rw [hres]
    rfl
  · obtain ⟨p', q', ht'⟩ := tokenize_named hl 10
    have e : p' = p := by
      obtain ⟨ha, pre, tail, h1, h2, h3, h4⟩ := hl
      have hp : ∀ radix p q, tokenize line radix = .ok (.command ⟨name, p⟩ ⟨arguments, q⟩) →
          maybeExtractCommand line = some (.command ⟨name, p⟩ ⟨arguments, q⟩) := by
        intro radix p q ht
        unfold tokenize at ht
        rw [findIdx?_ascii_none.2 ha] at ht
        simp only at ht
        cases hm : maybeExtractCommand line with
        | some c => rw [hm] at ht; simp only [Outcome.ok.injEq] at ht; rw [ht]
        | none =>
          rw [hm] at ht
          simp only at ht
          cases hl : tokenizeLoop radix 0 line [] [] <;> rw [hl] at ht <;> simp at ht
      have k := hp _ _ _ ht
      rw [hp _ _ _ ht'] at k
      simp only [Option.some.injEq, ParsedInput.command.injEq, Positioned.mk.injEq] at k
      exact k.1.2
    obtain ⟨_, _, _, _, _, _, h5, _⟩ := C04_command_split 10 (by decide) (by decide) line _ _ ht'
    rw [← e]
    exact h5

example : NamedCommand "/foo 1".toList "foo".toList "1".toList ∧
    ∀ n cmd, (n, cmd) ∈ commandNames → n.toList ≠ "foo".toList := by
  refine ⟨⟨?_, [], _, rfl, by simp, ?_, .inr ⟨' ', .inl rfl, rfl⟩⟩, ?_⟩
  · intro c hc
    revert c
    decide
  · simp only [← isAsciiWs_iff]; decide
  · have : ∀ p ∈ commandNames, p.1.toList ≠ "foo".toList := by decide
    exact fun n cmd h => this _ h

example : (calculate (exMachine true) table "/foo 1".toList (exTyped "/foo 1")).1 =
      .err (.input "No such command: 'foo'".toList (some ⟨0, 4⟩)) ∧
    (calculate (exMachine true) table "/h p".toList (exTyped "/h p")).1 =
      (calculate (exMachine true) table "/help precision".toList (exTyped "/h p")).1 := by
  decide +kernel

end Bcalc
