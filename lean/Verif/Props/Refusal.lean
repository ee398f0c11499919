import Verif.Proof.Refusal2

/-! # Refused commands -/

namespace Bcalc

open Spec

/-! ## C76 A refused command says what is wrong with it -/

/-- Whatever happens, a command complains about its input only if there is an objection, and in the words of that
objection; and then nothing happens apart from recording. -/
theorem C76_justified (m : Machine) (ce : CommandExecutor) (hce : CommandExecutor.new = .ok ce) (line : Str)
    (s : Session) (cmd : Cmd) (arguments : Str) (hl : IsCommand line cmd arguments) (t : Str) (p : Option Position)
    (h : (calculate m ce line s).1 = .err (.input t p)) :
    Objection s line arguments cmd t p ∧ (calculate m ce line s).2 = (recordInput s).2 := by
  rw [new_eq_table hce] at h ⊢
  rcases hrec : recordInput s with ⟨r, s1⟩
  cases r with
  | ok id =>
    obtain ⟨name, pn, q, ht, hres⟩ := (isCommand_iff s.args.radix).1 hl
    have hq := command_place ht
    obtain ⟨h1, h2⟩ := calculate_refused (m := m) hrec ht hres t p
    have h3 := (command_refused (named_of_tokenize ht) cmd m s1 q hq t p).1 (h1.1 h)
    refine ⟨objection_recorded.1 ?_, h2 h⟩
    rw [hrec]
    exact h3
  | err e =>
    rw [calculate_eq, andThen_of_err hrec] at h
    simp only at h
    injection h with h
    rw [h] at hrec
    exact absurd hrec recordInput_err
  | panic k =>
    rw [calculate_eq, andThen_of_panic hrec] at h
    cases h
  | diverge =>
    rw [calculate_eq] at h
    unfold St.andThen at h
    rw [hrec] at h
    cases h

/-- If the line is recorded, the command complains exactly when there is an objection. -/
theorem C76_complaint_iff (m : Machine) (ce : CommandExecutor) (hce : CommandExecutor.new = .ok ce) (line : Str)
    (s s1 : Session) (id : Option Int) (hrec : recordInput s = (.ok id, s1)) (cmd : Cmd) (arguments : Str)
    (hl : IsCommand line cmd arguments) (t : Str) (p : Option Position) :
    (calculate m ce line s).1 = .err (.input t p) ↔ Objection s line arguments cmd t p := by
  rw [new_eq_table hce]
  obtain ⟨name, pn, q, ht, hres⟩ := (isCommand_iff s.args.radix).1 hl
  rw [(calculate_refused (m := m) hrec ht hres t p).1,
    command_refused (named_of_tokenize ht) cmd m s1 q (command_place ht) t p, ← objection_recorded (s := s), hrec]

/-- There is at most one objection. -/
theorem C76_unique (line : Str) (s : Session) (cmd : Cmd) (arguments : Str) (hl : IsCommand line cmd arguments)
    (t t' : Str) (p p' : Option Position) (h : Objection s line arguments cmd t p)
    (h' : Objection s line arguments cmd t' p') : t = t' ∧ p = p' := by
  obtain ⟨name, pn, q, ht, hres⟩ := (isCommand_iff 10).1 hl
  have key : ∀ t p, _ ↔ _ :=
    fun t p => command_refused (named_of_tokenize ht) cmd (exMachine true) s q (command_place ht) t p
  have h1 := (key t p).2 h
  rw [(key t' p').2 h'] at h1
  obtain ⟨rfl, rfl⟩ := err_input_inj h1
  exact ⟨rfl, rfl⟩

/-- The places of complaints about the topic of `/help` and about the argument of a switch are places of the
line, and they hold the text complained about. -/
theorem C76_place (line : Str) (s : Session) (cmd : Cmd) (arguments : Str) (hl : IsCommand line cmd arguments)
    (t : Str) (p : Position) (h : Objection s line arguments cmd t (some p)) :
    (cmd = .help → ∃ topic start, Topic arguments topic start ∧ textAt line p = topic) ∧
    (Switch cmd → textAt line p = arguments) := by
  have hsuf : ∃ pre, line = pre ++ arguments ∧ pre.length = line.length - arguments.length := by
    obtain ⟨name, _, _, pre, tail, rfl, _, _, h4⟩ := hl
    rcases h4 with ⟨rfl, rfl⟩ | ⟨b, _, rfl⟩
    · exact ⟨pre ++ '/' :: name.toList, by simp, by simp⟩
    · refine ⟨pre ++ '/' :: name.toList ++ [b], by simp, ?_⟩
      simp only [List.length_append, List.length_cons, List.length_nil]
      omega
  obtain ⟨pre, e, hlen⟩ := hsuf
  constructor
  · rintro rfl
    cases h with
    | @help name start k1 k2 =>
      refine ⟨name, start, k1, ?_⟩
      obtain ⟨pr, po, e', _, _, _, _, _, rfl⟩ := k1
      unfold textAt
      simp only
      rw [← hlen, e, e', ← List.drop_drop, List.drop_left, List.append_assoc, List.drop_left, List.take_left]
    | switch h => rcases h with h | h | h <;> cases h
    | integers hk => cases hk
    | tooMany hk => cases hk
    | small hc => rcases hc with h | h <;> cases h
    | large hc => rcases hc with h | h <;> cases h
    | names hc _ => rcases hc with h | h <;> cases h
  · intro hc
    have : p = ⟨line.length - arguments.length, arguments.length⟩ := by
      rcases hc with rfl | rfl | rfl <;>
      · cases h with
        | switch => rfl
        | integers hk => cases hk
        | tooMany hk => cases hk
        | small hc => rcases hc with h | h <;> cases h
        | large hc => rcases hc with h | h <;> cases h
        | names hc _ => rcases hc with h | h <;> cases h
    subst this
    unfold textAt
    simp only
    rw [← hlen, e, List.drop_left, List.take_length]

/-- The places of complaints about integers and variables are counted in the argument text, not in the line: here
the number 99, which begins at index 7 of the line, is said to be at index 0. -/
theorem C76_violation : (calculate (exMachine true) table "/radix 99".toList
      { args := .default, db := none, inputs := none, vars := none }).1 =
    .err (.input "Radix cannot be greater than 16".toList (some ⟨0, 2⟩)) ∧
    textAt "/radix 99".toList ⟨7, 2⟩ = "99".toList ∧ textAt "/radix 99".toList ⟨0, 2⟩ = "/r".toList := by
  refine ⟨by decide +kernel, by decide, by decide⟩

/-- A complaint of each kind. -/
example : (∃ topic start, Topic " foo ".toList topic start ∧
      Objection { args := .default, db := none, inputs := none, vars := none } "/h  foo ".toList " foo ".toList .help
        ("No such command: '".toList ++ topic ++ "'".toList) (some ⟨4, 3⟩)) ∧
    Objection { args := .default, db := none, inputs := none, vars := none } "/precision 200 100".toList
      "200 100".toList .precision
      "Sum of precision and extra must be representable as an 8-bit unsigned integer".toList (some ⟨0, 7⟩) ∧
    NoIntegers "3 -- 4".toList "Two negative signs in a row".toList ⟨2, 2⟩ ∧
    NoNames "$a 3".toList ("Expected variable, found ".toList ++ called (.number 3)) ⟨3, 1⟩ := by
  have hA : ∀ s : String, s.toList.all isAscii = true → Ascii s.toList := by
    intro s h c hc
    have := List.all_eq_true.1 h c hc
    unfold isAscii at this
    simpa using this
  have ht : Topic " foo ".toList "foo".toList 1 := by
    refine ⟨" ".toList, " ".toList, by decide, ?_, ?_, by decide, ?_, ?_, rfl⟩
    · intro c hc
      rw [← isAsciiWs_iff]
      revert c; decide
    · intro c hc
      rw [← isAsciiWs_iff]
      revert c; decide
    · intro c cs e
      have : c = 'f' := by cases e; rfl
      rw [← isAsciiWs_iff, this]; decide
    · intro c cs e
      have : c = 'o' := by
        have := congrArg List.getLast? e
        simp at this
        exact this.symm
      rw [← isAsciiWs_iff, this]; decide
  refine ⟨⟨"foo".toList, 1, ht, ?_⟩, ?_, ?_, ?_⟩
  · refine Objection.help ht ?_
    have : ∀ p ∈ commandNames, p.1.toList ≠ "foo".toList := by decide
    exact fun n cmd h => this _ h
  · have h : IntegersAt "200 100".toList [⟨200, ⟨0, 3⟩⟩, ⟨100, ⟨4, 3⟩⟩] :=
      (integersAt_iff (hA _ (by decide)) _).2 (by decide +kernel)
    exact .sums h (by decide) (by decide) (by decide) (by decide) (by decide)
  · exact (noIntegers_iff (hA _ (by decide)) _ _).1 (by decide +kernel)
  · exact (noNames_iff (hA _ (by decide)) _ _).1 (by decide +kernel)

end Bcalc
