import Verif.Model.Main
import Verif.Props.Order
import Verif.Props.Terminal
import Verif.Props.Editing

/-! # What a run of the program writes, and its exit status (C94) -/

namespace Bcalc
open Spec

/-! ## C94 One line on one stream -/

theorem newline_no_wordChar : ¬ WordChar '\n' := fun h => h.1 (by unfold Blank; decide)

theorem word_one_line {w : Str} (h : ∀ c ∈ w, WordChar c) : '\n' ∉ w := fun hn => newline_no_wordChar (h _ hn)

/-- Names of variables contain no line feed. -/
theorem lexes_names {radix pos : Nat} {line : Str} {ts : List PTok} (h : Lexes radix pos line ts) :
    ∀ x p, (⟨.variable x, p⟩ : PTok) ∈ ts → '\n' ∉ x := by
  induction h with
  | done => intro x p h; cases h
  | blank _ _ ih => exact ih
  | symbol hs _ ih =>
    intro x p h
    rcases List.mem_cons.1 h with h | h
    · cases h; cases hs
    · exact ih x p h
  | word _ hc _ hw _ ih =>
    intro x p h
    rcases List.mem_cons.1 h with h | h
    · cases h
      cases hw
      exact word_one_line hc
    · exact ih x p h

/-- No name of a variable among the tokens contains a line feed. -/
def PlainNames (ts : List PTok) : Prop := ∀ x p, (⟨.variable x, p⟩ : PTok) ∈ ts → '\n' ∉ x

theorem PlainNames.left {ts ts' : List PTok} (h : PlainNames (ts ++ ts')) : PlainNames ts :=
  fun x p hx => h x p (List.mem_append_left _ hx)
theorem PlainNames.right {ts ts' : List PTok} (h : PlainNames (ts ++ ts')) : PlainNames ts' :=
  fun x p hx => h x p (List.mem_append_right _ hx)
theorem PlainNames.tail {t : PTok} {ts : List PTok} (h : PlainNames (t :: ts)) : PlainNames ts :=
  fun x p hx => h x p (List.mem_cons_of_mem _ hx)

theorem unknown_one_line {store : Bool} {x : Str} (h : '\n' ∉ x) : '\n' ∉ unknownText store x := by
  unfold unknownText
  cases store
  · rw [if_neg (by decide)]; decide
  · rw [if_pos rfl]
    intro hn
    rcases List.mem_append.1 hn with hn | hn
    · revert hn; decide
    · exact h hn

/-- A refusal of the expression is one line. -/
def RefusedInLine (n : Node) : Prop :=
  ∀ store ρ (V : Node → Rat → Prop) t p, Refused store ρ V n t p → '\n' ∉ t

theorem function_one_line {f : FnName} {p q : Position} {ns : List Node} (h : ∀ n ∈ ns, RefusedInLine n) :
    RefusedInLine (.function f p ns q) := by
  intro store ρ V t r hr
  cases hr with
  | argument _ h1 => exact h _ (by simp) _ _ _ _ _ h1
  | noArguments => cases f <;> decide

mutual
theorem expr_one_line : ∀ {k ts n}, Expr k ts n → PlainNames ts → RefusedInLine n
  | _, _, _, .signed h, ha => signed_one_line h ha
  | _, _, _, .lift h, ha => expr_one_line h ha
  | _, _, _, .op h _ h', ha => by
    intro store ρ V t p hr
    cases hr with
    | left h1 => exact expr_one_line h ha.left _ _ _ _ _ h1
    | right _ h1 => exact expr_one_line h' ha.right.tail _ _ _ _ _ h1
    | divide => decide
    | power => decide
theorem signed_one_line : ∀ {ts n}, Signed ts n → PlainNames ts → RefusedInLine n
  | _, _, .minus h, ha => by
    intro store ρ V t p hr
    cases hr with
    | operand h1 => exact signed_one_line h ha.tail _ _ _ _ _ h1
  | _, _, .atom h, ha => atom_one_line h ha
theorem atom_one_line : ∀ {ts n}, Atom ts n → PlainNames ts → RefusedInLine n
  | _, _, .number, _ => by intro store ρ V t p hr; cases hr
  | _, _, .variable, ha => by
    intro store ρ V t p hr
    cases hr with
    | «variable» _ => exact unknown_one_line (ha _ _ (List.mem_singleton.2 rfl))
  | _, _, .paren h, ha => by
    intro store ρ V t p hr
    cases hr with
    | paren h1 => exact expr_one_line h ha.tail.left _ _ _ _ _ h1
  | _, _, .unary h, ha => by
    intro store ρ V t p hr
    cases hr with
    | operand h1 => exact signed_one_line h ha.tail _ _ _ _ _ h1
    | sqrt => decide
  | _, _, .functionBare h _, ha => by
    have hs := signed_one_line h ha.tail
    exact function_one_line fun n hn => by rw [List.mem_singleton.1 hn]; exact hs
  | _, _, .functionEmpty, _ => function_one_line fun n hn => by cases hn
  | _, _, .function h, ha => function_one_line (arguments_one_line h ha.tail.tail.left)
theorem arguments_one_line : ∀ {ts ns}, Arguments ts ns → PlainNames ts → ∀ n ∈ ns, RefusedInLine n
  | _, _, .one h, ha => by
    intro n hn
    rw [List.mem_singleton.1 hn]
    exact expr_one_line h ha
  | _, _, .more h h', ha => by
    intro n hn
    rcases List.mem_cons.1 hn with hn | hn
    · have h1 := expr_one_line h ha.left
      rw [hn]; exact h1
    · exact arguments_one_line h' ha.right.tail n hn
end

theorem defect_one_line {ts : List PTok} {t : Str} {p : Position} (h : Defect ts t p) : '\n' ∉ t := by
  cases h with
  | nothing => decide
  | assign => decide
  | comma => decide
  | @operator _ o => cases o <;> decide
  | opened => decide
  | closed => decide
  | empty => decide
  | @binary _ o => cases o <;> decide
  | @«prefix» _ _ o => cases o <;> decide
  | commaFirst => decide
  | commaLast => decide
  | @function _ f => cases f <;> decide
  | gap => decide

/-- Every complaint about a line is itself one line. -/
theorem complaint_one_line {store : Bool} {args : Args} {ρ : Valuation} {line t : Str} {p : Position}
    (h : Complaint store args ρ line t p) : '\n' ∉ t := by
  cases h with
  | character => decide
  | word _ hw =>
    obtain ⟨_, _, _, _, _, _, hc, _⟩ := hw
    intro hn
    rcases List.mem_append.1 hn with hn | hn
    · rcases List.mem_append.1 hn with hn | hn
      · revert hn; decide
      · exact word_one_line hc hn
    · revert hn; decide
  | «syntax» _ hd => exact defect_one_line hd
  | value hl hi hr =>
    have hn : PlainNames _ := lexes_names hl
    cases hi with
    | expression h => exact expr_one_line h hn _ _ _ _ _ hr
    | assignment h => exact expr_one_line h hn.tail.tail _ _ _ _ _ hr
  | assignment => decide

/-- Every answer is one line. -/
theorem answer_one_line {args : Args} {ρ : Valuation} {line t : Str} (h : Answer args ρ line t) : '\n' ∉ t := by
  have hs : ∀ v : Rat, '\n' ∉ sign v := by intro v; unfold sign; split <;> decide
  have hw : ∀ {radix : Nat} {w : Str} {u : Rat}, Numeral radix w u → '\n' ∉ w := fun hn => word_one_line (numeral_wordChar hn)
  cases h with
  | blank => decide
  | value _ _ _ hd =>
    unfold Displays at hd
    split at hd
    · obtain ⟨a, b, _, _, ⟨_, w, rfl, h1⟩ | ⟨_, w, w', rfl, h1, h2⟩⟩ := hd
      · intro hn
        rcases List.mem_append.1 hn with hn | hn
        · exact hs _ hn
        · exact hw h1 hn
      · intro hn
        rcases List.mem_append.1 hn with hn | hn
        · rcases List.mem_append.1 hn with hn | hn
          · exact hs _ hn
          · exact hw h1 hn
        · rcases List.mem_cons.1 hn with hn | hn
          · revert hn; decide
          · exact hw h2 hn
    · obtain ⟨w, u, he, h1, _⟩ := hd
      intro hn
      have : '\n' ∈ noCommas t := List.mem_filter.2 ⟨hn, by decide⟩
      rw [he] at this
      rcases List.mem_append.1 this with hn | hn
      · exact hs _ hn
      · exact hw h1 hn

/-- With `--input` and a line that is no command, the program ends in one of three ways.  It writes a right answer, in
one line, to standard output, and nothing else; or nothing to standard output and "Error: " and a justified complaint,
in one line, to standard error; or it panics and has exit status 101.  In the first two cases the exit status is 0. -/
theorem C94_streams (m : Machine) (args : Args) (line : Str) (hv : ValidSettings args)
    (hp : args.precision + args.extraPrecision ≤ 254) (hc : ¬ CommandLine line) (f : Finished)
    (h : mainInput m args line = .ok f) :
    (∃ text, f = ⟨text ++ ['\n'], some [], 0⟩ ∧ Answer args (fun _ => none) line text ∧ '\n' ∉ text) ∨
    (∃ text p, f = ⟨[], some ("Error: ".toList ++ text ++ ['\n']), 0⟩ ∧
      Complaint false args (fun _ => none) line text p ∧ '\n' ∉ text) ∨
    (f = ⟨[], none, 101⟩ ∧ ∃ k, oneShot m args line = .panic k) := by
  unfold mainInput at h
  have hr := fun e => C68_no_runtime_error m args line e
  rcases ho : oneShot m args line with sh | e | k | _
  · cases sh with
    | result text =>
      rw [ho] at h
      simp only [Outcome.ok.injEq] at h
      have ha := C72_one_shot m args hv hp line hc text ho
      exact .inl ⟨text, h.symm, ha, answer_one_line ha⟩
    | inputError text =>
      rw [ho] at h
      simp only [Outcome.ok.injEq] at h
      obtain ⟨p, hcm⟩ := C73_one_shot m args hv hp line hc text ho
      exact .inr (.inl ⟨text, p, h.symm, hcm, complaint_one_line hcm⟩)
    | runtimeError e => exact absurd ho (hr e).2
  · exact absurd ho (hr e).1
  · rw [ho] at h
    simp only [Outcome.ok.injEq] at h
    exact .inr (.inr ⟨h.symm, k, rfl⟩)
  · rw [ho] at h; cases h

/-- Whatever the input, commands included, and whatever the settings: something is written to exactly one of the two
streams; what is written to standard error begins with "Error: " or reports a panic; the exit status is 0 or, if the
program panics, 101, and never 1. -/
theorem C94_one_stream (m : Machine) (args : Args) (input : Str) (f : Finished) (h : mainInput m args input = .ok f) :
    (f.status = 0 ∧ f.stderr = some [] ∧ ∃ text, f.stdout = text ++ ['\n']) ∨
    (f.status = 0 ∧ f.stdout = [] ∧ ∃ text, f.stderr = some ("Error: ".toList ++ text ++ ['\n'])) ∨
    (f.status = 101 ∧ f.stdout = []) := by
  unfold mainInput at h
  have hr := fun e => C68_no_runtime_error m args input e
  rcases ho : oneShot m args input with sh | e | k | _
  · cases sh with
    | result text => rw [ho] at h; cases h; exact .inl ⟨rfl, rfl, text, rfl⟩
    | inputError text => rw [ho] at h; cases h; exact .inr (.inl ⟨rfl, rfl, text, rfl⟩)
    | runtimeError e => exact absurd ho (hr e).2
  · exact absurd ho (hr e).1
  · rw [ho] at h; cases h; exact .inr (.inr ⟨rfl, rfl⟩)
  · rw [ho] at h; cases h

/-- The program ends: there is a result that every machine with enough time arrives at. -/
theorem C94_ends (checks : Bool) (args : Args) (hv : ValidSettings args) (input : Str) :
    ∃ (F : Nat) (f : Finished), ∀ m : Machine, m.overflowChecks = checks → F ≤ m.fuel → mainInput m args input = .ok f := by
  obtain ⟨F, r, hr, hF⟩ := C68_determined checks args hv input
  rcases r with sh | e | k | _
  · cases sh with
    | result text => exact ⟨F, _, fun m h1 h2 => by unfold mainInput; rw [hF m h1 h2]⟩
    | inputError text => exact ⟨F, _, fun m h1 h2 => by unfold mainInput; rw [hF m h1 h2]⟩
    | runtimeError e => exact ⟨F, _, fun m h1 h2 => by unfold mainInput; rw [hF m h1 h2]⟩
  · exact ⟨F, _, fun m h1 h2 => by unfold mainInput; rw [hF m h1 h2]⟩
  · exact ⟨F, _, fun m h1 h2 => by unfold mainInput; rw [hF m h1 h2]⟩
  · exact absurd rfl hr

/-- In a session too, the answer to a line that is no command is one line, and so is every complaint about it. -/
theorem C94_session (m : Machine) (ce : CommandExecutor) (line : Str) (s : Session)
    (h : Ready s line) (hv : ValidSettings s.args) (hp : s.args.precision + s.args.extraPrecision ≤ 254)
    (hc : ¬ CommandLine line) :
    (∀ text, (calculate m ce line s).1 = .ok text → '\n' ∉ text) ∧
    (∀ t p, (calculate m ce line s).1 = .err (.input t p) → '\n' ∉ t) := by
  obtain ⟨ρ, hρ⟩ := C73_values s line h
  obtain ⟨h1, h2⟩ := C73_justified m ce line s ρ h hv hp hc hρ
  refine ⟨fun text ht => answer_one_line (h1 text ht), fun t p ht => ?_⟩
  obtain ⟨t', p', e, hcm⟩ := h2 _ ht
  cases e
  exact complaint_one_line hcm

theorem events_done (m : Machine) (ce : CommandExecutor) (errorText : RuntimeErr → Str) :
    ∀ (events : List (Event × TermInfo)) (e : Editor), (eventsTrace m ce errorText e events).2.2 = .done →
      ∃ c t, (.key (.char c) .control, t) ∈ events ∧ c ∈ ['c', 'd', 'z']
  | [], e, h => by simp [eventsTrace] at h
  | (ev, t) :: rest, e, h => by
    have hr := stepTrace_result m ce errorText e ev t
    unfold eventsTrace at h
    generalize stepTrace m ce errorText e ev t = x at h hr
    obtain ⟨as, args, r⟩ := x
    simp only at hr
    subst hr
    cases hs : step m ce e ev t with
    | err x => rw [hs] at h; simp [stepResult, Ending.of] at h
    | panic x => rw [hs] at h; simp [stepResult, Ending.of] at h
    | diverge => rw [hs] at h; simp [stepResult, Ending.of] at h
    | ok r =>
      obtain ⟨out, e'⟩ := r
      cases hq : out.quit with
      | true =>
        obtain ⟨c, rfl, hc⟩ := C61_quit_only m ce e e' ev t out hs hq
        exact ⟨c, t, List.mem_cons_self, hc⟩
      | false =>
        rw [hs] at h
        simp only [stepResult, hq] at h
        obtain ⟨c, t', hm, hc⟩ := events_done m ce errorText rest e' h
        exact ⟨c, t', List.mem_cons_of_mem _ hm, hc⟩

/-- An interactive session ends with exit status 0 only if the user pressed Ctrl+C, Ctrl+D or Ctrl+Z, and no operation
on the terminal failed; then, and whenever it ends with status 1, the terminal is as before. -/
theorem C94_interactive (m : Machine) (ce : CommandExecutor) (hce : CommandExecutor.new = .ok ce)
    (errorText : RuntimeErr → Str) (args : Args) (opened : Outcome DbError (Option SavedData))
    (rawFails enterFails : Bool) (fault : Option Nat) (t : TermInfo) (events : List (Event × TermInfo))
    (ops : List TermOp) (ending : Ending)
    (h : mainInteractive m ce errorText args opened rawFails enterFails fault t events = (ops, ending)) :
    (exitStatus ending = some 0 → ∃ c t, (.key (.char c) .control, t) ∈ events ∧ c ∈ ['c', 'd', 'z']) ∧
    (exitStatus ending = some 0 ∨ exitStatus ending = some 1 → modesAfter ops = Modes.normal) := by
  constructor
  · intro h0
    have hd : ending = .done := by cases ending <;> simp [exitStatus] at h0 ⊢
    subst hd
    unfold mainInteractive at h
    split at h
    · simp at h
    · split at h
      · simp at h
      · simp only at h
        generalize hx : withFault fault (interactiveTrace m ce errorText args opened t events) = x at h
        obtain ⟨as, args', r⟩ := x
        have hr : r = .done := by cases r <;> simp at h ⊢
        subst hr
        have ht : (interactiveTrace m ce errorText args opened t events).2.2 = .done := by
          generalize interactiveTrace m ce errorText args opened t events = y at hx ⊢
          obtain ⟨as1, args1, r1⟩ := y
          unfold withFault at hx
          simp only at hx
          cases fault with
          | none => simp only [Prod.mk.injEq] at hx; exact hx.2.2
          | some n =>
            simp only at hx
            cases hn : as1[n]? with
            | none => rw [hn] at hx; simp only [Prod.mk.injEq] at hx; exact hx.2.2
            | some a => rw [hn] at hx; simp at hx
        unfold interactiveTrace at ht
        split at ht
        · cases ht
        · cases ht
        · cases ht
        · split at ht
          · cases ht
          · cases ht
          · cases ht
          · exact events_done m ce errorText events _ ht
  · intro h0
    exact C81_restored m ce hce errorText args opened rawFails enterFails fault t events ops ending h
      (by cases ending <;> simp [exitStatus] at h0 ⊢)

/-- A failure of the input cannot be told from a success by the exit status: dividing by zero ends with status 0. -/
theorem C94_violation : mainInput (exMachine true) .default "1/0".toList =
      .ok ⟨[], some "Error: Cannot divide by 0\n".toList, 0⟩ ∧
    mainInput (exMachine true) .default "1/4".toList = .ok ⟨"0.25\n".toList, some [], 0⟩ ∧
    mainInput (exMachine true) .default "1%0".toList = .ok ⟨[], none, 101⟩ := by
  decide +kernel

/-- The output of a command may have more lines. -/
example : ∃ text, mainInput (exMachine true) .default "/help".toList = .ok ⟨text ++ ['\n'], some [], 0⟩ ∧ '\n' ∈ text := by
  refine ⟨(match oneShot (exMachine true) .default "/help".toList with | .ok (.result t) => t | _ => []), ?_, ?_⟩ <;>
    decide +kernel

end Bcalc
