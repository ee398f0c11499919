import Verif.Proof.Cli2
import Verif.Proof.Digits
import Verif.Props.Streams

/-! # C95: the command line -/

namespace Bcalc

open Spec

/-- The program starts exactly on the command lines that are a sequence of options, and then with the settings they
mean: it evaluates one line if there is an input, and is interactive otherwise. -/
theorem C95_command_line (argv : List Str) (args : Args) :
    (∀ line, startProgram argv = .oneShot args line ↔ ∃ ss, Written argv ss ∧ Means ss args (some line)) ∧
    (startProgram argv = .interactive args ↔ ∃ ss, Written argv ss ∧ Means ss args none) := by
  constructor
  · intro line
    rw [← cliLoop_iff]
    unfold startProgram
    show (match cliLoop none argv cliInit with
      | .ok st => (match st.input with
        | some line => Start.oneShot st.args line
        | none => .interactive st.args)
      | .error .info => .info
      | .error .usage => .usage) = _ ↔ _
    rcases hl : cliLoop none argv cliInit with e | ⟨a, i, seen⟩
    · cases e <;> simp
    · cases i <;> simp
  · rw [← cliLoop_iff]
    unfold startProgram
    show (match cliLoop none argv cliInit with
      | .ok st => (match st.input with
        | some line => Start.oneShot st.args line
        | none => .interactive st.args)
      | .error .info => .info
      | .error .usage => .usage) = _ ↔ _
    rcases hl : cliLoop none argv cliInit with e | ⟨a, i, seen⟩
    · cases e <;> simp
    · cases i <;> simp

/-- On every other command line nothing is evaluated: the exit status is 2 or, if help or the version was asked for,
0. -/
theorem C95_otherwise (argv : List Str) (h : ¬ ∃ ss args line, Written argv ss ∧ Means ss args line) :
    (startProgram argv).exitStatus = some 0 ∨ (startProgram argv).exitStatus = some 2 := by
  cases hs : startProgram argv with
  | oneShot args line =>
    obtain ⟨ss, h1, h2⟩ := ((C95_command_line argv args).1 line).1 hs
    exact absurd ⟨ss, args, _, h1, h2⟩ h
  | interactive args =>
    obtain ⟨ss, h1, h2⟩ := (C95_command_line argv args).2.1 hs
    exact absurd ⟨ss, args, _, h1, h2⟩ h
  | info => exact .inl rfl
  | usage => exact .inr rfl

theorem react_info {o : CliOpt} {v : Option Str} {st : CliState} (h : cliReact o v st = .error .info) :
    o = .help ∨ o = .version := by
  unfold cliReact at h
  split at h
  · cases h
  · have num : ∀ lo hi t, cliNumber lo hi t ≠ .error .info := by
      intro lo hi t h
      unfold cliNumber at h
      split at h
      · split at h <;> cases h
      · cases h
    cases v with
    | none =>
      cases o <;> simp [cliFlag, Except.map] at h ⊢
    | some t =>
      have numMap : ∀ lo hi t (f : Nat → CliState) (g : CliState → CliState),
          Except.map g (Except.map f (cliNumber lo hi t)) ≠ .error .info := by
        intro lo hi t f g h
        cases hn : cliNumber lo hi t with
        | ok => rw [hn] at h; simp [Except.map] at h
        | error e =>
          rw [hn] at h
          simp only [Except.map, Except.error.injEq] at h
          subst h
          exact num _ _ _ hn
      cases o <;> simp only [cliStore] at h
      all_goals first
        | exact absurd h (numMap _ _ _ _ _)
        | simp [Except.map] at h

theorem map_info {α β : Type} {f : α → β} {e : Except CliStop α} (h : e.map f = .error .info) : e = .error .info := by
  cases e with
  | ok a => simp [Except.map] at h
  | error e => simpa [Except.map] using h

theorem shorts_info {cs : Str} {st : CliState} (h : cliShorts cs st = .error .info) : 'h' ∈ cs ∨ 'V' ∈ cs := by
  induction cs generalizing st with
  | nil => simp [cliShorts] at h
  | cons c cs ih =>
    unfold cliShorts at h
    split at h
    · cases h
    · next o ho =>
      have hl := find_short_some ho
      have key : ∀ v st, cliReact o v st = .error .info → 'h' ∈ c :: cs ∨ 'V' ∈ c :: cs := by
        intro v st h1
        rcases react_info h1 with rfl | rfl
        · cases hl; simp
        · cases hl; simp
      split at h
      · split at h
        · cases h
        · exact key _ _ (map_info h)
        · exact key _ _ (map_info h)
      · split at h
        · rcases ih h with h1 | h1
          · exact .inl (List.mem_cons_of_mem _ h1)
          · exact .inr (List.mem_cons_of_mem _ h1)
        · next e he =>
          injection h with h
          subst h
          exact key _ _ he

theorem loop_info (ws : List Str) : ∀ p st, cliLoop p ws st = .error .info →
    (∀ o, p = some o → o ≠ .help ∧ o ≠ .version) →
    ∃ w ∈ ws, w = "--help".toList ∨ w = "--version".toList ∨ ∃ cs, w = '-' :: cs ∧ ('h' ∈ cs ∨ 'V' ∈ cs) := by
  induction ws with
  | nil =>
    intro p st h
    cases p <;> simp [cliLoop] at h
  | cons w rest ih =>
    intro p st h hp
    have lift : (∃ w ∈ rest, w = "--help".toList ∨ w = "--version".toList ∨
        ∃ cs, w = '-' :: cs ∧ ('h' ∈ cs ∨ 'V' ∈ cs)) →
        ∃ w' ∈ w :: rest, w' = "--help".toList ∨ w' = "--version".toList ∨
          ∃ cs, w' = '-' :: cs ∧ ('h' ∈ cs ∨ 'V' ∈ cs) := by
      rintro ⟨x, h1, h2⟩
      exact ⟨x, List.mem_cons_of_mem _ h1, h2⟩
    have valuedNot : ∀ o, Valued o → o ≠ .help ∧ o ≠ .version := by
      intro o ho
      rcases ho with rfl | rfl | rfl | rfl | rfl <;> decide
    unfold cliLoop at h
    simp only at h
    split at h
    · split at h <;> cases h
    · next long _ =>
      split at h
      · cases h
      · split at h
        · next st1 p1 hl =>
          refine lift (ih _ _ h ?_)
          rintro o rfl
          rcases long_ok hl with ⟨_, h1, _⟩ | ⟨_, _, h1, _⟩ | ⟨o', h1, h2, _⟩
          · cases h1
          · cases h1
          · injection h1 with h1; subst h1; exact valuedNot _ h2
        · next e he =>
          injection h with h
          subst h
          refine ⟨_, List.mem_cons_self, ?_⟩
          unfold cliLong at he
          split at he
          next name v hw =>
          split at he
          · cases he
          · next o ho =>
            have hn := find_long_some ho
            split at he
            · next ht =>
              split at he
              · rcases react_info (map_info he) with rfl | rfl <;> simp [CliOpt.takesValue] at ht
              · cases he
            · split at he
              · cases he
              · have := splitEq_none hw
                subst this
                rcases react_info (map_info he) with rfl | rfl
                · exact .inl (by rw [hn]; rfl)
                · exact .inr (.inl (by rw [hn]; rfl))
    · next c letters _ =>
      split at h
      · cases h
      · split at h
        · next st1 p1 hl =>
          refine lift (ih _ _ h ?_)
          rintro o rfl
          exact valuedNot _ (shorts_pending_valued hl)
        · next e he =>
          injection h with h
          subst h
          exact ⟨_, List.mem_cons_self, .inr (.inr ⟨_, rfl, shorts_info he⟩)⟩
    · split at h
      · cases h
      · next o =>
        split at h
        · exact lift (ih _ _ h (by simp))
        · next e he =>
          injection h with h
          subst h
          have := hp o rfl
          rcases react_info he with rfl | rfl
          · exact absurd rfl this.1
          · exact absurd rfl this.2

theorem written_before {ws : List Str} {ss : List GivenOption} (h : Written ws ss) (hstop : "--".toList ∉ ws)
    (more : List Str) (st : CliState) {st' : CliState} (ha : applyAll ss st = .ok st') :
    cliLoop none (ws ++ more) st = cliLoop none more st' := by
  induction h generalizing st with
  | nil => simp only [applyAll] at ha; injection ha with ha; subst ha; rfl
  | stop => simp at hstop
  | @flag o rest ss hv hr ih =>
    rw [String.toList_append]
    show cliLoop none (('-' :: '-' :: (longName o).toList) :: (rest ++ more)) st = _
    rw [cliLoop_long (longName_nonempty o), long_flag hv]
    simp only [applyAll] at ha
    cases hc : cliReact o none st with
    | error e => rw [hc] at ha; cases ha
    | ok st1 => rw [hc] at ha; exact ih (fun h => hstop (List.mem_cons_of_mem _ h)) st1 ha
  | @equals o v rest ss hv hr ih =>
    rw [String.toList_append, String.toList_append]
    have e : ("--".toList ++ (longName o).toList ++ "=".toList ++ v) =
      '-' :: '-' :: ((longName o).toList ++ '=' :: v) := by simp
    rw [e, List.cons_append, cliLoop_long (by simp), long_equals hv]
    simp only [applyAll] at ha
    cases hc : cliReact o (some v) st with
    | error e => rw [hc] at ha; cases ha
    | ok st1 => rw [hc] at ha; exact ih (fun h => hstop (List.mem_cons_of_mem _ h)) st1 ha
  | @next o v rest ss hv hp hr ih =>
    rw [String.toList_append]
    show cliLoop none (('-' :: '-' :: (longName o).toList) :: v :: (rest ++ more)) st = _
    rw [cliLoop_long (longName_nonempty o), long_pending hv]
    simp only
    rw [cliLoop_value hp]
    simp only [applyAll] at ha
    cases hc : cliReact o (some v) st with
    | error e => rw [hc] at ha; cases ha
    | ok st1 =>
      rw [hc] at ha
      exact ih (fun h => hstop (List.mem_cons_of_mem _ (List.mem_cons_of_mem _ h))) st1 ha
  | @group letters gs vs rest ss hg hr ih =>
    have hstop' : "--".toList ∉ rest := fun h =>
      hstop (List.mem_cons_of_mem _ (List.mem_append.2 (.inr h)))
    rw [applyAll_append] at ha
    cases hga : applyAll gs st with
    | error e => rw [hga] at ha; cases ha
    | ok st1 =>
      rw [hga] at ha
      obtain ⟨c, cs, hcs, hc⟩ := group_nonempty hg
      rw [List.cons_append, hcs, cliLoop_short hc, ← hcs]
      rcases group_reads hg st hga with ⟨rfl, h1⟩ | ⟨v, o, st2, rfl, hp, h1, h2⟩
      · rw [h1]; exact ih hstop' st1 ha
      · rw [h1]
        simp only [List.cons_append, List.nil_append]
        rw [cliLoop_value hp, h2]
        exact ih hstop' st1 ha

/-- The help or the version is shown only if it was asked for; and it is shown whatever comes after, if the options
before that one mean something. -/
theorem C95_info :
    (∀ argv, startProgram argv = .info →
      ∃ w ∈ argv, w = "--help".toList ∨ w = "--version".toList ∨ ∃ cs, w = '-' :: cs ∧ ('h' ∈ cs ∨ 'V' ∈ cs)) ∧
    (∀ pre ss args line rest, Written pre ss → Means ss args line → "--".toList ∉ pre →
      ∀ w ∈ ["--help".toList, "--version".toList, "-h".toList, "-V".toList],
        startProgram (pre ++ w :: rest) = .info) := by
  constructor
  · intro argv h
    refine loop_info argv none cliInit ?_ (by simp)
    unfold startProgram at h
    split at h
    · split at h <;> cases h
    · next he => exact he
    · cases h
  · intro pre ss args line rest hw hm hstop w hin
    obtain ⟨st, hst⟩ := applyAll_ok hm (written_wellFormed hw) ss [] (by simp)
    obtain ⟨hm', hseen⟩ := applyAll_means hst
    have hno : ∀ o, o = .help ∨ o = .version → o ∉ st.seen := by
      intro o ho h
      rw [hseen, List.mem_reverse, List.mem_map] at h
      obtain ⟨⟨o', v⟩, h1, rfl⟩ := h
      rcases ho with ho | ho
      · simp only at ho; subst ho; exact (hm.noInfo v).1 h1
      · simp only at ho; subst ho; exact (hm.noInfo v).2 h1
    have hr : ∀ o, o = .help ∨ o = .version → cliReact o none st = .error .info := by
      intro o ho
      unfold cliReact
      rw [if_neg (hno o ho)]
      rcases ho with rfl | rfl <;> rfl
    have goal : ∀ w, cliLoop none (w :: rest) st = .error .info → startProgram (pre ++ w :: rest) = .info := by
      intro w h
      have h1 := written_before hw hstop (w :: rest) cliInit hst
      unfold startProgram
      rw [show ({ args := Args.default, input := none, seen := [] } : CliState) = cliInit from rfl, h1, h]
    have long : ∀ o : CliOpt, o = .help ∨ o = .version →
        cliLoop none (('-' :: '-' :: (longName o).toList) :: rest) st = .error .info := by
      intro o ho
      rw [cliLoop_long (longName_nonempty o), long_flag (by rcases ho with rfl | rfl <;> simp [Valued]), hr o ho]
      rfl
    have short : ∀ (c : Char) (o : CliOpt), Letter c o → o = .help ∨ o = .version →
        cliLoop none (['-', c] :: rest) st = .error .info := by
      intro c o hl ho
      have ht : o.takesValue = false := by rcases ho with rfl | rfl <;> rfl
      rw [cliLoop_short (letter_not_hyphen hl)]
      unfold cliShorts
      rw [find_short hl]
      simp [ht, hr o ho]
    apply goal
    simp only [List.mem_cons, List.not_mem_nil, or_false] at hin
    rcases hin with rfl | rfl | rfl | rfl
    · exact long .help (.inl rfl)
    · exact long .version (.inr rfl)
    · exact short 'h' .help .help (.inl rfl)
    · exact short 'V' .version .version (.inr rfl)

theorem means_perm {ss ss' : List GivenOption} (hp : ss.Perm ss') {args : Args} {line : Option Str}
    (h : Means ss args line) : Means ss' args line := by
  have e : ∀ x, x ∈ ss' ↔ x ∈ ss := fun x => hp.mem_iff.symm
  obtain ⟨m1, m2, m3, m4, m5, m6, m7, m8, m9, m10, m11, m12⟩ := h
  constructor <;> try (simp only [NumberIs, e] at *; assumption)
  exact (hp.map _).nodup_iff.1 m1

/-- The order of the options, and the way each is written, does not matter. -/
theorem C95_order (argv argv' : List Str) (ss ss' : List GivenOption) (h : Written argv ss) (h' : Written argv' ss')
    (hp : ss.Perm ss') (args : Args) (line : Option Str) (hm : Means ss args line) :
    startProgram argv = startProgram argv' := by
  have hm' := means_perm hp hm
  cases line with
  | none =>
    rw [(C95_command_line argv args).2.2 ⟨ss, h, hm⟩, (C95_command_line argv' args).2.2 ⟨ss', h', hm'⟩]
  | some line =>
    rw [((C95_command_line argv args).1 line).2 ⟨ss, h, hm⟩, ((C95_command_line argv' args).1 line).2 ⟨ss', h', hm'⟩]

theorem means_valid {ss : List GivenOption} {args : Args} {line : Option Str} (h : Means ss args line) :
    args.CliValid := by
  refine ⟨?_, ?_, ?_, ?_, ?_⟩
  · rcases h.radix with ⟨t, _, h1⟩ | ⟨_, h1⟩
    · have := h1.2; omega
    · omega
  · rcases h.radix with ⟨t, _, h1⟩ | ⟨_, h1⟩
    · have := h1.2; omega
    · omega
  · intro r hr
    rcases h.convertToRadix with ⟨t, n, _, h1, h2⟩ | ⟨_, h1⟩
    · rw [h2] at hr
      injection hr with hr
      have := h1.2; omega
    · rw [h1] at hr; cases hr
  · rcases h.precision with ⟨t, _, h1⟩ | ⟨_, h1⟩
    · have := h1.2; omega
    · omega
  · rcases h.extraPrecision with ⟨t, _, h1⟩ | ⟨_, h1⟩
    · have := h1.2; omega
    · omega

theorem decimalText_nat (n : Nat) : DecimalText (natToStr 10 n) n := by
  have h := DecimalText.plain (natToStr_digits (by decide) (by decide) n) (natDigits_ne_nil 10 n)
  rwa [value_natDigits] at h

/-- Writing every setting out. -/
def allSettings (args : Args) (line : Option Str) : List GivenOption :=
  [(.radix, some (natToStr 10 args.radix)), (.precision, some (natToStr 10 args.precision)),
    (.extraPrecision, some (natToStr 10 args.extraPrecision))] ++
  (match args.convertToRadix with
    | some n => [(.convertToRadix, some (natToStr 10 n))]
    | none => []) ++
  (match line with
    | some l => [(.input, some l)]
    | none => []) ++
  (if args.alternateScreen then [(.alternateScreen, none)] else []) ++
  (if args.noDb then [(.noDb, none)] else []) ++
  (if args.fractional then [(.fractional, none)] else []) ++
  (if args.commas then [(.commas, none)] else []) ++
  (if args.upper then [(.upper, none)] else [])

theorem written_append {ws : List Str} {ss : List GivenOption} (h : Written ws ss) (hstop : "--".toList ∉ ws)
    {ws' : List Str} {ss' : List GivenOption} (h' : Written ws' ss') : Written (ws ++ ws') (ss ++ ss') := by
  induction h with
  | nil => exact h'
  | stop => simp at hstop
  | flag hv _ ih => exact .flag hv (ih fun h => hstop (List.mem_cons_of_mem _ h))
  | equals hv _ ih => exact .equals hv (ih fun h => hstop (List.mem_cons_of_mem _ h))
  | next hv hp _ ih => exact .next hv hp (ih fun h => hstop (List.mem_cons_of_mem _ (List.mem_cons_of_mem _ h)))
  | group hg _ ih =>
    have := Written.group hg (ih fun h => hstop (List.mem_cons_of_mem _ (List.mem_append.2 (.inr h))))
    simpa using this

theorem written_all (ss : List GivenOption)
    (hw : ∀ x ∈ ss, (x.2 = none ∧ ¬ Valued x.1) ∨ (∃ t, x.2 = some t ∧ Valued x.1)) : ∃ ws, Written ws ss := by
  induction ss with
  | nil => exact ⟨[], .nil⟩
  | cons x xs ih =>
    obtain ⟨ws, h⟩ := ih fun y hy => hw y (List.mem_cons_of_mem _ hy)
    obtain ⟨o, v⟩ := x
    rcases hw _ List.mem_cons_self with ⟨h1, h2⟩ | ⟨t, h1, h2⟩
    · simp only at h1; subst h1; exact ⟨_, .flag h2 h⟩
    · simp only at h1; subst h1; exact ⟨_, .equals h2 h⟩

theorem allSettings_wellFormed (args : Args) (line : Option Str) :
    ∀ x ∈ allSettings args line, (x.2 = none ∧ ¬ Valued x.1) ∨ (∃ t, x.2 = some t ∧ Valued x.1) := by
  intro x hx
  unfold allSettings at hx
  simp only [List.mem_append, List.mem_cons, List.not_mem_nil, or_false] at hx
  rcases hx with (((((((rfl | rfl | rfl) | hx) | hx) | hx) | hx) | hx) | hx) | hx
  · exact .inr ⟨_, rfl, by simp [Valued]⟩
  · exact .inr ⟨_, rfl, by simp [Valued]⟩
  · exact .inr ⟨_, rfl, by simp [Valued]⟩
  · split at hx
    · simp only [List.mem_singleton] at hx; subst hx; exact .inr ⟨_, rfl, by simp [Valued]⟩
    · simp at hx
  · split at hx
    · simp only [List.mem_singleton] at hx; subst hx; exact .inr ⟨_, rfl, by simp [Valued]⟩
    · simp at hx
  all_goals
    split at hx
    · simp only [List.mem_singleton] at hx; subst hx; exact .inl ⟨rfl, by simp [Valued]⟩
    · simp at hx

theorem allSettings_means {args : Args} (hv : args.CliValid) (line : Option Str) :
    Means (allSettings args line) args line := by
  obtain ⟨h1, h2, h3, h4, h5⟩ := hv
  constructor
  case once =>
    have hs : ((allSettings args line).map (·.1)).Sublist
        [.radix, .precision, .extraPrecision, .convertToRadix, .input, .alternateScreen, .noDb, .fractional, .commas,
          .upper] := by
      unfold allSettings
      simp only [List.map_append]
      have one : ∀ (b : Bool) (o : CliOpt), ((if b then [((o, none) : GivenOption)] else []).map (·.1)).Sublist [o] := by
        intro b o; cases b <;> simp
      have e : ([.radix, .precision, .extraPrecision, .convertToRadix, .input, .alternateScreen, .noDb, .fractional,
          .commas, .upper] : List CliOpt) =
        [.radix, .precision, .extraPrecision] ++ [.convertToRadix] ++ [.input] ++ [.alternateScreen] ++ [.noDb] ++
          [.fractional] ++ [.commas] ++ [.upper] := rfl
      rw [e]
      refine (((((((List.Sublist.append ?_ ?_).append ?_).append (one _ _)).append (one _ _)).append (one _ _)).append
        (one _ _)).append (one _ _))
      · exact List.Sublist.refl _
      · cases args.convertToRadix <;> simp
      · cases line <;> simp
    exact List.Nodup.sublist hs (by decide)
  case noInfo => intro t; unfold allSettings; cases args.convertToRadix <;> cases line <;> simp
  case radix =>
    exact .inl ⟨_, by simp [allSettings], decimalText_nat _, by omega, by omega⟩
  case precision =>
    exact .inl ⟨_, by simp [allSettings], decimalText_nat _, by omega, by omega⟩
  case extraPrecision =>
    exact .inl ⟨_, by simp [allSettings], decimalText_nat _, by omega, by omega⟩
  case convertToRadix =>
    cases hc : args.convertToRadix with
    | some n =>
      have := h3 n hc
      exact .inl ⟨_, n, by simp [allSettings, hc], ⟨decimalText_nat _, by omega, by omega⟩, rfl⟩
    | none => exact .inr ⟨fun t => by unfold allSettings; rw [hc]; cases line <;> simp, rfl⟩
  case input =>
    cases line with
    | some l => exact .inl ⟨l, by simp [allSettings], rfl⟩
    | none => exact .inr ⟨fun t => by unfold allSettings; cases args.convertToRadix <;> simp, rfl⟩
  all_goals
    unfold allSettings
    cases args.convertToRadix <;> cases line <;> simp

/-- The settings the program starts with are in their ranges, and every combination of settings in these ranges, with
any line or interactive, is meant by some command line. -/
theorem C95_reach (args : Args) :
    ((∃ argv line, startProgram argv = .oneShot args line) → args.CliValid) ∧
    ((∃ argv, startProgram argv = .interactive args) → args.CliValid) ∧
    (args.CliValid → (∀ line, ∃ argv, startProgram argv = .oneShot args line) ∧
      ∃ argv, startProgram argv = .interactive args) := by
  refine ⟨?_, ?_, fun hv => ⟨fun line => ?_, ?_⟩⟩
  · rintro ⟨argv, line, h⟩
    obtain ⟨ss, _, hm⟩ := ((C95_command_line argv args).1 line).1 h
    exact means_valid hm
  · rintro ⟨argv, h⟩
    obtain ⟨ss, _, hm⟩ := (C95_command_line argv args).2.1 h
    exact means_valid hm
  · obtain ⟨ws, hw⟩ := written_all _ (allSettings_wellFormed args (some line))
    exact ⟨ws, ((C95_command_line ws args).1 line).2 ⟨_, hw, allSettings_means hv _⟩⟩
  · obtain ⟨ws, hw⟩ := written_all _ (allSettings_wellFormed args none)
    exact ⟨ws, (C95_command_line ws args).2.2 ⟨_, hw, allSettings_means hv _⟩⟩

/-- Any line at all can be given after `--input=`, and after `-i` or `--input` any line that does not look like an
option: it arrives unchanged, with all settings as by default. -/
theorem C95_any_line (line : Str) :
    startProgram [("--input=".toList ++ line)] = .oneShot .default line ∧
    (PlainWord line → startProgram ["-i".toList, line] = .oneShot .default line ∧
      startProgram ["--input".toList, line] = .oneShot .default line) := by
  have hm : Means [(.input, some line)] .default (some line) := by
    constructor <;> simp [NumberIs, Args.default]
  refine ⟨?_, fun hp => ⟨?_, ?_⟩⟩
  · exact ((C95_command_line _ _).1 line).2 ⟨_, Written.equals (o := .input) (by simp [Valued]) .nil, hm⟩
  · exact ((C95_command_line _ _).1 line).2
      ⟨_, Written.group (Group.next .input (by simp [Valued]) hp) .nil, hm⟩
  · exact ((C95_command_line _ _).1 line).2
      ⟨_, Written.next (o := .input) (by simp [Valued]) hp .nil, hm⟩

/-- No settings: everything by default, interactive. -/
theorem C95_defaults : startProgram [] = .interactive .default := rfl

/-- A line that begins with a minus sign is refused after `-i`, whatever it is. -/
theorem C95_violation (line : Str) (h : ¬ PlainWord line) :
    startProgram ["-i".toList, line] = .usage ∧ startProgram ["--input".toList, line] = .usage := by
  have key : ∀ st, cliLoop (some .input) [line] st = .error .usage := by
    intro st
    unfold cliLoop
    simp only
    split
    · rfl
    · rfl
    · rfl
    · next h1 h2 h3 =>
      exfalso
      apply h
      apply plain_of_not
      · intro w hw
        cases w with
        | nil => exact h1 hw
        | cons c cs => exact h2 _ hw
      · intro c w hw
        exact h3 c w hw
  constructor
  · unfold startProgram
    rw [show ("-i".toList : Str) = '-' :: 'i' :: [] from rfl, cliLoop_short (by decide)]
    show (match cliLoop (some .input) [line] _ with
      | .ok st => _ | .error .info => _ | .error .usage => _) = _
    rw [key]
  · unfold startProgram
    rw [show ("--input".toList : Str) = '-' :: '-' :: (longName .input).toList from rfl,
      cliLoop_long (longName_nonempty _), long_pending (by simp [Valued])]
    simp only
    rw [key]

/-- From the shell to the answer: whatever the options and the way they are written, a line that is no command is
answered rightly or refused with a justified complaint, in the settings that the options mean. -/
theorem C95_answers (m : Machine) (argv : List Str) (ss : List GivenOption) (args : Args) (line : Str)
    (hw : Written argv ss) (hm : Means ss args (some line)) (h1 : args.convertToRadix ≠ some 1)
    (hp : args.precision + args.extraPrecision ≤ 254) (hc : ¬ CommandLine line) :
    startProgram argv = .oneShot args line ∧
    ∀ f, mainInput m args line = .ok f →
      (∃ text, f = ⟨text ++ ['\n'], some [], 0⟩ ∧ Answer args (fun _ => none) line text ∧ '\n' ∉ text) ∨
      (∃ text p, f = ⟨[], some ("Error: ".toList ++ text ++ ['\n']), 0⟩ ∧
        Complaint false args (fun _ => none) line text p ∧ '\n' ∉ text) ∨
      (f = ⟨[], none, 101⟩ ∧ ∃ k, oneShot m args line = .panic k) := by
  refine ⟨((C95_command_line _ _).1 line).2 ⟨ss, hw, hm⟩, fun f hf => ?_⟩
  obtain ⟨v1, v2, v3, v4, v5⟩ := means_valid hm
  refine C94_streams m args line ⟨⟨v1, v2⟩, fun r hr => ?_, by omega⟩ hp hc f hf
  have hr' := v3 r hr
  have : r ≠ 1 := by rintro rfl; exact h1 hr
  omega

/-- Letters together, a value in the next word, a value behind `=`: the settings as given, the others by default. -/
example : startProgram ["-fcr16".toList, "--precision=03".toList, "-i".toList, "1/3".toList] =
    .oneShot { Args.default with fractional := true, commas := true, radix := 16, precision := 3 } "1/3".toList := by
  decide +kernel

example : Written ["-fcr16".toList, "--precision=03".toList, "-i".toList, "1/3".toList]
    [(.fractional, none), (.commas, none), (.radix, some "16".toList), (.precision, some "03".toList),
      (.input, some "1/3".toList)] := by
  have h1 : PlainWord "1/3".toList := .inr fun r h => absurd (List.cons.inj h).1 (by decide)
  have h2 : Written ["-i".toList, "1/3".toList] [(.input, some "1/3".toList)] :=
    Written.group (Group.next .input (by simp [Valued]) h1) .nil
  have h3 := Written.equals (o := .precision) (v := "03".toList) (by simp [Valued]) h2
  have h4 : ∀ rest : Str, "16".toList ≠ '=' :: rest := fun r h => absurd (List.cons.inj h).1 (by decide)
  have h5 : Group "fcr16".toList [(.fractional, none), (.commas, none), (.radix, some "16".toList)] [] :=
    .more .fractional (by simp [Valued]) (.more .commas (by simp [Valued])
      (.attached .radix (by simp [Valued]) (by decide) h4))
  exact Written.group h5 h3

/-- Numbers out of range, an option given twice, an unknown option, a missing value, a value for a flag, a word that
is no option: refused. -/
example : startProgram ["-r1".toList] = .usage ∧ startProgram ["-r17".toList] = .usage ∧
    startProgram ["--precision=256".toList] = .usage ∧ startProgram ["-c".toList, "-c".toList] = .usage ∧
    startProgram ["--radi=10".toList] = .usage ∧ startProgram ["-i".toList] = .usage ∧
    startProgram ["--commas=true".toList] = .usage ∧ startProgram ["1+1".toList] = .usage ∧
    startProgram ["-p".toList, "-f".toList] = .usage := by
  decide +kernel

example : ¬ PlainWord "-1+2".toList := by
  rintro (h | h)
  · exact absurd h (by decide)
  · exact h "1+2".toList rfl

/-- Output radix 1 is accepted on the command line. -/
example : startProgram ["--convert-to-radix=1".toList] = .interactive { Args.default with convertToRadix := some 1 } ∧
    startProgram ["--convert-to-radix".toList, "0".toList] = .usage ∧
    startProgram ["--convert-to-radix".toList, "17".toList] = .usage := by
  decide +kernel

example : (startProgram ["-f".toList, "--help".toList, "nonsense".toList]).exitStatus = some 0 ∧
    (startProgram ["nonsense".toList, "--help".toList]).exitStatus = some 2 := by
  decide +kernel

end Bcalc
