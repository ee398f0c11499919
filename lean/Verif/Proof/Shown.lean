import Verif.Spec.Shown
import Verif.Proof.Sight
import Verif.Proof.Settings
import Verif.Props.Settings
import Verif.Proof.Naming

/-! # The display settings do not matter to a calculation -/

namespace Bcalc
open Spec

theorem Spec.SameButDisplay.refl (a : Args) : SameButDisplay a a := ⟨rfl, rfl, rfl, rfl, rfl⟩

theorem Spec.OutcomeAlike.refl {ε α : Type} (o : Outcome ε α) : OutcomeAlike Eq o o := by
  cases o
  · exact .ok rfl
  · exact .err
  · exact .panic
  · exact .diverge

theorem Spec.OutcomeAlike.of_eq {ε α : Type} {o o' : Outcome ε α} (h : o = o') : OutcomeAlike Eq o o' := h ▸ .refl o

theorem Spec.OutcomeAlike.mono {ε α β : Type} {R S : α → β → Prop} (h : ∀ a b, R a b → S a b) {o : Outcome ε α} {o' : Outcome ε β} :
    OutcomeAlike R o o' → OutcomeAlike S o o'
  | .ok r => .ok (h _ _ r)
  | .err => .err
  | .panic => .panic
  | .diverge => .diverge

theorem Spec.OutcomeAlike.bind {ε α β γ δ : Type} {R : α → β → Prop} {S : γ → δ → Prop} {o : Outcome ε α} {o' : Outcome ε β}
    {f : α → Outcome ε γ} {f' : β → Outcome ε δ} (h : OutcomeAlike R o o') (hf : ∀ a b, R a b → OutcomeAlike S (f a) (f' b)) :
    OutcomeAlike S (o >>= f) (o' >>= f') := by
  cases h with
  | ok r => exact hf _ _ r
  | err => exact .err
  | panic => exact .panic
  | diverge => exact .diverge

/-- The programs go alike under the two settings, and keep these. -/
def GoAlike {α β : Type} (a a' : Args) (R : α → β → Prop) (f : Sess α) (f' : Sess β) : Prop :=
  ∀ s s' : Session, SessionButDisplay s s' → s.args = a → s'.args = a' →
    OutcomeAlike R (f s).1 (f' s').1 ∧ SessionButDisplay (f s).2 (f' s').2 ∧ (f s).2.args = a ∧ (f' s').2.args = a'

theorem GoAlike.andThen {α β γ δ : Type} {a a' : Args} {R : α → β → Prop} {S : γ → δ → Prop} {f : Sess α} {f' : Sess β}
    {g : α → Sess γ} {g' : β → Sess δ} (h : GoAlike a a' R f f') (hg : ∀ x y, R x y → GoAlike a a' S (g x) (g' y)) :
    GoAlike a a' S (St.andThen f g) (St.andThen f' g') := by
  intro s s' hs h1 h2
  obtain ⟨h3, h4, h5, h6⟩ := h s s' hs h1 h2
  unfold St.andThen
  generalize f s = p at h3 h4 h5 h6 ⊢
  generalize f' s' = p' at h3 h4 h5 h6 ⊢
  obtain ⟨r, t⟩ := p
  obtain ⟨r', t'⟩ := p'
  simp only at h3 h4 h5 h6
  cases h3 with
  | ok r => exact hg _ _ r t t' h4 h5 h6
  | err => exact ⟨.err, h4, h5, h6⟩
  | panic => exact ⟨.panic, h4, h5, h6⟩
  | diverge => exact ⟨.diverge, h4, h5, h6⟩

theorem GoAlike.lift {α β : Type} {a a' : Args} {R : α → β → Prop} {o : Outcome Failure α} {o' : Outcome Failure β}
    (h : OutcomeAlike R o o') : GoAlike a a' R (St.lift o) (St.lift o') :=
  fun _ _ hs h1 h2 => ⟨h, hs, h1, h2⟩

theorem Spec.SessionButDisplay.eq {s s' : Session} (h : SessionButDisplay s s') : s' = { s with args := s'.args } := by
  obtain ⟨a, d, i, v⟩ := s
  obtain ⟨a', d', i', v'⟩ := s'
  obtain ⟨_, h1, h2, h3⟩ := h
  simp only at h1 h2 h3
  subst h1 h2 h3
  rfl

theorem same_recordInput (a a' : Args) : GoAlike a a' Eq recordInput recordInput := by
  rintro ⟨args, db, inputs, vars⟩ ⟨args', db', inputs', vars'⟩ ⟨h, h1, h2, h3⟩ ha ha'
  simp only at h1 h2 h3 ha ha' h
  subst h1 h2 h3 ha ha'
  unfold recordInput
  cases inputs with
  | none => exact ⟨.ok rfl, ⟨h, rfl, rfl, rfl⟩, rfl, rfl⟩
  | some i => exact ⟨.refl _, ⟨h, rfl, rfl, rfl⟩, rfl, rfl⟩

theorem same_touchOne (a a' : Args) (id : Option Int) (x : Str) : GoAlike a a' Eq (touchOne id x) (touchOne id x) := by
  rintro ⟨args, db, inputs, vars⟩ ⟨args', db', inputs', vars'⟩ ⟨h, h1, h2, h3⟩ ha ha'
  simp only at h1 h2 h3 ha ha' h
  subst h1 h2 h3 ha ha'
  unfold touchOne
  cases vars with
  | none => exact ⟨.ok rfl, ⟨h, rfl, rfl, rfl⟩, rfl, rfl⟩
  | some i => exact ⟨.refl _, ⟨h, rfl, rfl, rfl⟩, rfl, rfl⟩

theorem same_touchAll (a a' : Args) (id : Option Int) : ∀ xs, GoAlike a a' Eq (touchAll id xs) (touchAll id xs)
  | [] => fun _ _ hs h1 h2 => ⟨.ok rfl, hs, h1, h2⟩
  | x :: xs => (same_touchOne a a' id x).andThen fun _ _ _ => same_touchAll a a' id xs

theorem same_touching (a a' : Args) (id : Option Int) (xs : List Str) : GoAlike a a' Eq
    (fun s => (match s.vars with | some _ => touchAll id xs | none => fun s => (.ok (), s) : Sess Unit) s)
    (fun s => (match s.vars with | some _ => touchAll id xs | none => fun s => (.ok (), s) : Sess Unit) s) := by
  intro s s' hs h1 h2
  have := hs.vars
  cases hv : s.vars with
  | none =>
    rw [hv] at this
    simp only [hv, ← this]
    exact ⟨.ok rfl, hs, h1, h2⟩
  | some v =>
    rw [hv] at this
    simp only [hv, ← this]
    exact same_touchAll a a' id xs s s' hs h1 h2

section
variable {a a' : Args} (h : SameButDisplay a a')
include h

theorem same_applyUnary (m : Machine) (o : UnOp) (p : Position) (v : Rat) : applyUnary m a o p v = applyUnary m a' o p v := by
  unfold applyUnary
  rw [h.radix, h.precision, h.extra]

theorem same_applyBinary (m : Machine) (o : BinOp) (p : Position) (v w : Rat) :
    applyBinary m a o p v w = applyBinary m a' o p v w := by
  unfold applyBinary
  rw [h.radix, h.precision, h.extra]

mutual
theorem same_execute (m : Machine) : ∀ n : Node, n.execute m a = n.execute m a'
  | .number v p => by unfold Node.execute; rfl
  | .variable x p => by unfold Node.execute; rfl
  | .unary o p n => by
    unfold Node.execute
    rw [same_execute m n]
    simp only [same_applyUnary h]
  | .binary o p n n' => by
    unfold Node.execute
    rw [same_execute m n, same_execute m n']
    simp only [same_applyBinary h]
  | .function f p ns q => by
    unfold Node.execute
    rw [same_executeList m ns]
  | .paren p q n => by
    unfold Node.execute
    exact same_execute m n

theorem same_executeList (m : Machine) : ∀ ns : List Node, executeList m a ns = executeList m a' ns
  | [] => by unfold executeList; rfl
  | n :: ns => by
    unfold executeList
    rw [same_execute m n, same_executeList m ns]
end

theorem same_executeTree (m : Machine) (t : SyntaxTree) (id : Option Int) : GoAlike a a' Eq (executeTree m t id) (executeTree m t id) := by
  rintro ⟨args, db, inputs, vars⟩ ⟨args', db', inputs', vars'⟩ ⟨h0, h1, h2, h3⟩ ha ha'
  simp only at h1 h2 h3 ha ha' h0
  subst h1 h2 h3 ha ha'
  unfold executeTree SyntaxTree.execute
  simp only [same_execute h]
  exact ⟨.refl _, ⟨h0, rfl, rfl, rfl⟩, trivial, trivial⟩

/-- Answers to the tokens of a line. -/
theorem same_tokens (hv : ValidSettings a) (hv' : ValidSettings a') (m : Machine) (id : Option Int) (ts : List PTok) :
    GoAlike a a' (fun t t' => (ts = [] ∧ t = [] ∧ t' = []) ∨ SameNumberShown a a' t t') (calculateTokens m id ts) (calculateTokens m id ts) := by
  unfold calculateTokens
  refine (same_touching a a' id _).andThen fun _ _ _ => ?_
  by_cases hts : ts = []
  · simp only [if_pos hts]
    exact fun s s' hs h1 h2 => ⟨.ok (.inl ⟨hts, rfl, rfl⟩), hs, h1, h2⟩
  · simp only [if_neg hts]
    refine (GoAlike.lift (.refl _)).andThen ?_
    rintro t _ rfl
    refine (same_executeTree h m t id).andThen ?_
    rintro v _ rfl s s' hs h1 h2
    subst h1 h2
    obtain ⟨t, e, hd⟩ := displays_of_display s.args hv v
    obtain ⟨t', e', hd'⟩ := displays_of_display s'.args hv' v
    simp only [e, e']
    exact ⟨.ok (.inr ⟨v, hd, hd'⟩), hs, trivial, trivial⟩

end

/-- The programs go alike under settings that differ only in how numbers are shown. -/
def GoSame {α β : Type} (R : α → β → Prop) (f : Sess α) (f' : Sess β) (s s' : Session) : Prop :=
  OutcomeAlike R (f s).1 (f' s').1 ∧ SessionButDisplay (f s).2 (f' s').2

theorem same_bool (get : Args → Bool) (set : Args → Bool → Args) (hset : ∀ a b x, SameButDisplay a b → SameButDisplay (set a x) (set b x))
    (arguments : Positioned Str) {s s' : Session} (h : SessionButDisplay s s') :
    GoSame (fun x y => x.2 = y.2 ∧ (x.1 = y.1 ∨ (x.1 = switchText (get s.args) ∧ y.1 = switchText (get s'.args))))
      (executeBool get set arguments) (executeBool get set arguments) s s' := by
  unfold GoSame executeBool
  rcases boolArgument arguments with (_ | b) | e | k | _
  · exact ⟨.ok ⟨rfl, .inr ⟨rfl, rfl⟩⟩, h⟩
  · exact ⟨.ok ⟨rfl, .inl rfl⟩, ⟨hset _ _ _ h.args, h.db, h.inputs, h.vars⟩⟩
  · exact ⟨.err, h⟩
  · exact ⟨.panic, h⟩
  · exact ⟨.diverge, h⟩

theorem same_cmd (m : Machine) (ce : CommandExecutor) (cmd : Cmd) (arguments : Positioned Str) {s s' : Session}
    (h : SessionButDisplay s s') :
    GoSame (fun x y => x.2 = y.2 ∧ (x.1 = y.1 ∨ (Setting cmd ∧ x.1 = settingText s.args cmd ∧ y.1 = settingText s'.args cmd)))
      (cmd.execute m ce arguments) (cmd.execute m ce arguments) s s' := by
  have hb : ∀ get set, (∀ a b x, SameButDisplay a b → SameButDisplay (set a x) (set b x)) →
      (Setting cmd ∧ (∀ a, settingText a cmd = switchText (get a))) →
      GoSame (fun x y => x.2 = y.2 ∧ (x.1 = y.1 ∨ (Setting cmd ∧ x.1 = settingText s.args cmd ∧ y.1 = settingText s'.args cmd)))
      (executeBool get set arguments) (executeBool get set arguments) s s' := by
    intro get set h1 h2
    obtain ⟨h3, h4⟩ := same_bool get set h1 arguments h
    refine ⟨h3.mono ?_, h4⟩
    rintro x y ⟨e, e' | ⟨e1, e2⟩⟩
    · exact ⟨e, .inl e'⟩
    · exact ⟨e, .inr ⟨h2.1, by rw [h2.2, e1], by rw [h2.2, e2]⟩⟩
  obtain ⟨a, db, inputs, vars⟩ := s
  obtain ⟨a', db', inputs', vars'⟩ := s'
  obtain ⟨h0, h1, h2, h3⟩ := id h
  simp only at h0 h1 h2 h3
  subst h1 h2 h3
  cases cmd with
  | help =>
    refine ⟨?_, h⟩
    have : executeHelp ce arguments ⟨a, db, inputs, vars⟩ = executeHelp ce arguments ⟨a', db, inputs, vars⟩ := rfl
    unfold Cmd.execute
    simp only [this]
    exact (OutcomeAlike.refl _).mono fun x y e => ⟨congrArg _ e, .inl (congrArg _ e)⟩
  | reloadVar =>
    unfold GoSame Cmd.execute executeReloadVar
    simp only
    rcases tokenizeVariableList arguments.value with ts | e | k | _
    · simp only
      cases db with
      | none => exact ⟨.err, h⟩
      | some db =>
        cases vars with
        | none => exact ⟨.err, h⟩
        | some vars =>
          exact ⟨(OutcomeAlike.refl _).mono fun x y e => ⟨congrArg _ e, .inl (congrArg _ e)⟩, h0, rfl, rfl, rfl⟩
    · exact ⟨.err, h⟩
    · exact ⟨.panic, h⟩
    · exact ⟨.diverge, h⟩
  | purgeVar =>
    unfold GoSame Cmd.execute executePurgeVar
    simp only
    rcases tokenizeVariableList arguments.value with ts | e | k | _
    · simp only
      cases vars with
      | none => exact ⟨.err, h⟩
      | some vars =>
        exact ⟨(OutcomeAlike.refl _).mono fun x y e => ⟨congrArg _ e, .inl (congrArg _ e)⟩, h0, rfl, rfl, rfl⟩
    · exact ⟨.err, h⟩
    · exact ⟨.panic, h⟩
    · exact ⟨.diverge, h⟩
  | histcap =>
    unfold GoSame Cmd.execute executeHistcap
    simp only
    rcases (intListArgs arguments.value >>= histcapArgument) with i | e | k | _
    · simp only
      cases db with
      | none => exact ⟨.err, h⟩
      | some db =>
        cases i with
        | some size =>
          simp only
          rcases db.setMaxHistorySize size with ⟨_ | _ | _ | _, db'⟩
          · exact ⟨.ok ⟨rfl, .inl rfl⟩, h0, rfl, rfl, rfl⟩
          · exact ⟨.err, h0, rfl, rfl, rfl⟩
          · exact ⟨.panic, h0, rfl, rfl, rfl⟩
          · exact ⟨.diverge, h0, rfl, rfl, rfl⟩
        | none =>
          simp only
          rcases db.getMaxHistorySize with ⟨_ | _ | _ | _, db'⟩
          · exact ⟨.ok ⟨rfl, .inl rfl⟩, h0, rfl, rfl, rfl⟩
          · exact ⟨.err, h0, rfl, rfl, rfl⟩
          · exact ⟨.panic, h0, rfl, rfl, rfl⟩
          · exact ⟨.diverge, h0, rfl, rfl, rfl⟩
    · exact ⟨.err, h⟩
    · exact ⟨.panic, h⟩
    · exact ⟨.diverge, h⟩
  | fractional => exact hb _ _ (fun _ _ _ h => ⟨h.1, h.2, h.3, h.4, h.5⟩) ⟨trivial, fun _ => rfl⟩
  | upper => exact hb _ _ (fun _ _ _ h => ⟨h.1, h.2, h.3, h.4, h.5⟩) ⟨trivial, fun _ => rfl⟩
  | commas => exact hb _ _ (fun _ _ _ h => ⟨h.1, h.2, h.3, h.4, h.5⟩) ⟨trivial, fun _ => rfl⟩
  | radix =>
    unfold GoSame Cmd.execute executeRadix
    simp only
    rcases (intListArgs arguments.value >>= radixArgument) with (_ | r) | e | k | _
    · exact ⟨.ok ⟨rfl, .inl (by simp only [h0.radix])⟩, h⟩
    · exact ⟨.ok ⟨rfl, .inl rfl⟩, ⟨rfl, h0.2, h0.3, h0.4, h0.5⟩, rfl, rfl, rfl⟩
    · exact ⟨.err, h⟩
    · exact ⟨.panic, h⟩
    · exact ⟨.diverge, h⟩
  | convertToRadix =>
    unfold GoSame Cmd.execute executeConvertToRadix
    simp only
    split
    · exact ⟨.ok ⟨rfl, .inl rfl⟩, ⟨h0.1, h0.2, h0.3, h0.4, h0.5⟩, rfl, rfl, rfl⟩
    rcases (intListArgs arguments.value >>= radixArgument) with (_ | r) | e | k | _
    · have e0 : ∀ b : Args, b.convertToRadix = none → msg "None".toList = (settingText b .convertToRadix, []) := by
        intro b hb
        unfold settingText
        simp only [hb]
        rfl
      have e1 : ∀ (b : Args) (r : Nat), b.convertToRadix = some r →
          msg (intDisplay (r : Int)) = (settingText b .convertToRadix, []) := by
        intro b r hb
        unfold settingText
        simp only [hb, intDisplay_nat]
        rfl
      rcases hA : a.convertToRadix with _ | r <;> rcases hB : a'.convertToRadix with _ | r' <;> simp only
      · rw [e0 a hA]
        exact ⟨.ok ⟨rfl, .inl rfl⟩, h⟩
      · rw [e0 a hA, e1 a' r' hB]
        exact ⟨.ok ⟨rfl, .inr ⟨trivial, rfl, rfl⟩⟩, h⟩
      · rw [e1 a r hA, e0 a' hB]
        exact ⟨.ok ⟨rfl, .inr ⟨trivial, rfl, rfl⟩⟩, h⟩
      · rw [e1 a r hA, e1 a' r' hB]
        exact ⟨.ok ⟨rfl, .inr ⟨trivial, rfl, rfl⟩⟩, h⟩
    · exact ⟨.ok ⟨rfl, .inl rfl⟩, ⟨h0.1, h0.2, h0.3, h0.4, h0.5⟩, rfl, rfl, rfl⟩
    · exact ⟨.err, h⟩
    · exact ⟨.panic, h⟩
    · exact ⟨.diverge, h⟩
  | precision =>
    unfold GoSame Cmd.execute executePrecision
    simp only [h0.extra]
    rcases (intListArgs arguments.value >>= precisionArgument a'.extraPrecision) with (_ | ⟨p, x⟩) | e | k | _
    · exact ⟨.ok ⟨rfl, .inl (by simp only [h0.precision])⟩, h⟩
    · exact ⟨.ok ⟨rfl, .inl rfl⟩, ⟨h0.1, rfl, rfl, h0.4, h0.5⟩, rfl, rfl, rfl⟩
    · exact ⟨.err, h⟩
    · exact ⟨.panic, h⟩
    · exact ⟨.diverge, h⟩

theorem command_of_tokenize {line : Str} {radix : Nat} {name arguments : Positioned Str}
    (h : tokenize line radix = .ok (.command name arguments)) : CommandLine line := by
  by_contra hc
  unfold tokenize at h
  rw [maybeExtractCommand_none.2 hc] at h
  split at h
  · cases h
  · simp only at h
    cases hl : (tokenizeLoop radix 0 line [] [] : Outcome (Positioned ParseError) (List PTok)) <;> rw [hl] at h <;> cases h

/-- A line. -/
theorem same_line (m : Machine) {ce : CommandExecutor} (hce : ce = table) (line : Str) {s s' : Session}
    (h : SessionButDisplay s s') (hv : ValidSettings s.args) (hv' : ValidSettings s'.args) :
    GoSame (ReplyAlike s.args s'.args line) (calculate m ce line) (calculate m ce line) s s' := by
  obtain ⟨h1, h2, h3, h4⟩ := same_recordInput s.args s'.args s s' h rfl rfl
  unfold GoSame calculate St.andThen
  generalize recordInput s = p at h1 h2 h3 ⊢
  generalize recordInput s' = p' at h1 h2 h4 ⊢
  obtain ⟨r, t⟩ := p
  obtain ⟨r', t'⟩ := p'
  simp only at h1 h2 h3 h4
  cases h1 with
  | err => exact ⟨.err, h2⟩
  | panic => exact ⟨.panic, h2⟩
  | diverge => exact ⟨.diverge, h2⟩
  | @ok id _ e =>
    subst e
    simp only
    rw [← h2.args.radix]
    rcases ht : tokenize line t.args.radix with x | e | k | _
    · cases x with
      | tokens ts =>
        simp only
        obtain ⟨h5, h6, h7, h8⟩ := same_tokens h.args hv hv' m id ts t t' h2 h3 h4
        refine ⟨h5.mono ?_, h6⟩
        obtain ⟨_, h9, h10⟩ := (C01_tokens_iff _ (h3 ▸ hv.radix.1) (h3 ▸ hv.radix.2) _ _).1 ht
        rintro x y (⟨e, rfl, rfl⟩ | hn)
        · exact .blank (blanks_of_lexes h10 e)
        · exact .number h9 hn
      | command name arguments =>
        simp only
        unfold calculateCommand CommandExecutor.executeCommand St.andThen
        cases hc : ce.resolve name.value with
        | none => exact ⟨.err, h2⟩
        | some cmd =>
          simp only
          obtain ⟨h5, h6⟩ := same_cmd m ce cmd arguments h2
          generalize cmd.execute m ce arguments t = p at h5 h6 ⊢
          generalize cmd.execute m ce arguments t' = p' at h5 h6 ⊢
          obtain ⟨r, u⟩ := p
          obtain ⟨r', u'⟩ := p'
          simp only at h5 h6
          cases h5 with
          | err => exact ⟨.err, h6⟩
          | panic => exact ⟨.panic, h6⟩
          | diverge => exact ⟨.diverge, h6⟩
          | @ok x y e =>
            obtain ⟨e1, e2⟩ := e
            obtain ⟨x1, x2⟩ := x
            obtain ⟨y1, y2⟩ := y
            simp only at e1 e2
            subst e1
            have hr : ReplyAlike s.args s'.args line x1 y1 := by
              rcases e2 with rfl | ⟨hs, e3, e4⟩
              · exact .command (command_of_tokenize ht)
              · subst hce
                rw [h3] at e3
                rw [h4] at e4
                rw [e3, e4]
                exact .setting hs ((isCommand_iff t.args.radix).2 ⟨_, _, _, ht, hc⟩)
            have h7 := ((same_touching u.args u'.args id x2).andThen (S := ReplyAlike s.args s'.args line)
              (g := fun _ s => (.ok x1, s)) (g' := fun _ s => (.ok y1, s)) fun _ _ _ v v' hv h1 h2 =>
                ⟨.ok hr, hv, h1, h2⟩) u u' h6 rfl rfl
            exact ⟨h7.1, h7.2.1⟩
    · exact ⟨.err, h2⟩
    · exact ⟨.panic, h2⟩
    · exact ⟨.diverge, h2⟩

/-- The editor with other settings. -/
def Editor.with (e : Editor) (a : Args) : Editor := { e with args := a }

/-- The outcomes agree, but for the settings. -/
abbrev Kept {α : Type} (a a' : Args) (x y : α × Editor) : Prop := x.1 = y.1 ∧ y.2 = x.2.with a' ∧ x.2.args = a

theorem kept_ok {α : Type} {a' : Args} (x : α) (e : Editor) :
    OutcomeAlike (ε := RuntimeErr) (Kept e.args a') (.ok (x, e)) (.ok (x, e.with a')) := .ok ⟨rfl, rfl, rfl⟩

theorem Spec.OutcomeAlike.bind_same {ε α γ δ : Type} {S : γ → δ → Prop} {o : Outcome ε α} {f : α → Outcome ε γ} {f' : α → Outcome ε δ}
    (hf : ∀ a, OutcomeAlike S (f a) (f' a)) : OutcomeAlike S (o >>= f) (o >>= f') :=
  (OutcomeAlike.refl o).bind fun a _ h => h ▸ hf a

theorem same_event (e : Editor) (a' : Args) (ev : Event) :
    OutcomeAlike (Kept e.args a') (handleEvent e ev) (handleEvent (e.with a') ev) := by
  cases ev with
  | key k mods =>
    cases k with
    | char c =>
      unfold handleEvent handleChar
      simp only
      split
      · exact kept_ok _ _
      cases mods with
      | control =>
        simp only
        split
        · exact kept_ok _ _
        split
        · refine OutcomeAlike.bind_same fun line => OutcomeAlike.bind_same fun r => ?_
          cases r with
          | none => exact kept_ok _ _
          | some p => exact .ok ⟨rfl, rfl, rfl⟩
        · exact kept_ok _ _
      | shift =>
        unfold insertAtCursor
        exact OutcomeAlike.bind_same fun i => .ok ⟨rfl, rfl, rfl⟩
      | none =>
        unfold insertAtCursor
        exact OutcomeAlike.bind_same fun i => .ok ⟨rfl, rfl, rfl⟩
      | other => exact kept_ok _ _
    | backspace =>
      unfold handleEvent
      by_cases h0 : e.cursorPos = 0
      · rw [if_pos h0, if_pos (c := (e.with a').cursorPos = 0) h0]
        exact kept_ok _ _
      · rw [if_neg h0, if_neg (c := (e.with a').cursorPos = 0) h0]
        exact OutcomeAlike.bind_same (o := e.inputs.removeChar (e.cursorPos - 1)) fun i => .ok ⟨rfl, rfl, rfl⟩
    | delete =>
      unfold handleEvent
      refine OutcomeAlike.bind_same (o := e.inputs.currentLine) fun line => ?_
      by_cases h0 : e.cursorPos ≥ line.length
      · rw [if_pos h0, if_pos (c := (e.with a').cursorPos ≥ line.length) h0]
        exact kept_ok _ _
      · rw [if_neg h0, if_neg (c := (e.with a').cursorPos ≥ line.length) h0]
        exact OutcomeAlike.bind_same (o := e.inputs.removeChar e.cursorPos) fun i => .ok ⟨rfl, rfl, rfl⟩
    | up =>
      unfold handleEvent
      simp only [Editor.with]
      rcases e.inputs.tryEarlier e.db with ⟨(_ | _) | _ | _ | _, i, d⟩
      · exact .ok ⟨rfl, rfl, rfl⟩
      · exact OutcomeAlike.bind_same fun i => .ok ⟨rfl, rfl, rfl⟩
      · exact .err
      · exact .panic
      · exact .diverge
    | down =>
      unfold handleEvent
      simp only [Editor.with]
      rcases e.inputs.tryLater with ⟨_ | _, i⟩
      · exact .ok ⟨rfl, rfl, rfl⟩
      · exact OutcomeAlike.bind_same fun i => .ok ⟨rfl, rfl, rfl⟩
    | left =>
      unfold handleEvent
      simp only [Editor.with]
      cases moveDistance mods with
      | none => exact .ok ⟨rfl, rfl, rfl⟩
      | some d => exact .ok ⟨rfl, rfl, rfl⟩
    | right =>
      unfold handleEvent
      simp only [Editor.with]
      cases moveDistance mods with
      | none => exact .ok ⟨rfl, rfl, rfl⟩
      | some d => exact OutcomeAlike.bind_same fun i => .ok ⟨rfl, rfl, rfl⟩
    | home => exact .ok ⟨rfl, rfl, rfl⟩
    | «end» => exact OutcomeAlike.bind_same fun i => .ok ⟨rfl, rfl, rfl⟩
    | enter => exact .ok ⟨rfl, rfl, rfl⟩
    | other => exact .ok ⟨rfl, rfl, rfl⟩
  | paste => exact .err
  | resize w => exact .ok ⟨rfl, rfl, rfl⟩
  | other => exact .ok ⟨rfl, rfl, rfl⟩

theorem same_draw (m : Machine) (e : Editor) (a' : Args) (h : SameButDisplay e.args a') :
    OutcomeAlike (Kept e.args a') (draw m e) (draw m (e.with a')) := by
  unfold draw
  refine OutcomeAlike.bind_same fun line => ?_
  have e1 : (e.with a').args.alternateScreen = e.args.alternateScreen := h.screen.symm
  rw [e1]
  change OutcomeAlike _ (if (e.args.alternateScreen || e.inputComplete) = true then _ else _)
    (if (e.args.alternateScreen || e.inputComplete) = true then _ else _)
  split
  · exact OutcomeAlike.bind_same (o := drawWrapped m e line) fun d => .ok ⟨rfl, rfl, rfl⟩
  · exact OutcomeAlike.bind_same (o := drawScrolled e line) fun d => .ok ⟨rfl, rfl, rfl⟩

theorem calculate_valid (m : Machine) (line : Str) {s : Session} (h : ValidSettings s.args) :
    ValidSettings (calculate m table line s).2.args := by
  rcases calculate_args m line s with h1 | ⟨cmd, arguments, a', _, _, h3, _, h5⟩
  · rw [h1]; exact h
  · rw [h5]; exact requests_valid h3 h

/-- The line an editor finishes. -/
theorem same_finish (m : Machine) {ce : CommandExecutor} (hce : ce = table) {e : Editor} {a' : Args}
    (h : SameButDisplay e.args a') (hv : ValidSettings e.args) (hv' : ValidSettings a') :
    OutcomeAlike (fun x y => (x.1 = y.1 ∨ ∃ line t t', ReplyAlike e.args a' line t t' ∧ x.1 = .result t ∧ y.1 = .result t') ∧
        (SameButDisplay x.2.args y.2.args ∧ ValidSettings x.2.args ∧ ValidSettings y.2.args) ∧ y.2 = x.2.with y.2.args)
      (finishLine m ce e) (finishLine m ce (e.with a')) := by
  unfold finishLine
  refine OutcomeAlike.bind_same (o := e.inputs.currentLine) fun line => ?_
  obtain ⟨h1, h2⟩ := same_line m hce line (s := e.session) (s' := (e.with a').session) ⟨h, rfl, rfl, rfl⟩ hv hv'
  have hw := calculate_valid m line (s := e.session) hv
  have hw' := calculate_valid m line (s := (e.with a').session) hv'
  rw [← hce] at hw hw'
  generalize calculate m ce line e.session = p at h1 h2 hw ⊢
  generalize calculate m ce line (e.with a').session = p' at h1 h2 hw' ⊢
  obtain ⟨r, s⟩ := p
  obtain ⟨r', s'⟩ := p'
  simp only at h1 h2 hw hw' ⊢
  have h3 : ∀ (c d : Shown), (c = d ∨ ∃ line t t', ReplyAlike e.args a' line t t' ∧ c = .result t ∧ d = .result t') →
      OutcomeAlike (ε := RuntimeErr) (fun x y => (x.1 = y.1 ∨ ∃ line t t', ReplyAlike e.args a' line t t' ∧ x.1 = .result t ∧ y.1 = .result t') ∧
        (SameButDisplay x.2.args y.2.args ∧ ValidSettings x.2.args ∧ ValidSettings y.2.args) ∧ y.2 = x.2.with y.2.args)
      (.ok (c, { e with args := s.args, db := s.db, inputs := s.inputs.getD e.inputs, vars := s.vars.getD e.vars }))
      (.ok (d, { e.with a' with args := s'.args, db := s'.db, inputs := s'.inputs.getD (e.with a').inputs,
                                vars := s'.vars.getD (e.with a').vars })) := by
    intro c d hcd
    refine .ok ⟨hcd, ⟨h2.args, hw, hw'⟩, ?_⟩
    simp only [h2.db, h2.inputs, h2.vars]
    rfl
  cases h1 with
  | ok r => exact h3 _ _ (.inr ⟨_, _, _, r, rfl, rfl⟩)
  | @err f =>
    cases f with
    | input t p => exact h3 _ _ (.inl rfl)
    | runtime f => exact h3 _ _ (.inl rfl)
  | panic => exact .panic
  | diverge => exact .diverge

theorem same_step (m : Machine) {ce : CommandExecutor} (hce : ce = table) {e : Editor} {a' : Args} (ev : Event) (t : TermInfo)
    (h : SameButDisplay e.args a') (hv : ValidSettings e.args) (hv' : ValidSettings a') :
    OutcomeAlike (fun x y => (x.1.drawings = y.1.drawings ∧ x.1.quit = y.1.quit ∧ (x.1.output = y.1.output ∨
        ∃ line t t', ReplyAlike e.args a' line t t' ∧ x.1.output = some (.result t) ∧ y.1.output = some (.result t'))) ∧
        (SameButDisplay x.2.args y.2.args ∧ ValidSettings x.2.args ∧ ValidSettings y.2.args) ∧ y.2 = x.2.with y.2.args)
      (step m ce e ev t) (step m ce (e.with a') ev t) := by
  unfold step
  refine (same_event e a' ev).bind ?_
  rintro ⟨act, e1⟩ ⟨_, _⟩ ⟨rfl, rfl, h1⟩
  simp only at h1 ⊢
  rw [← h1] at h hv ⊢
  cases act with
  | ignore => exact .ok ⟨⟨rfl, rfl, .inl rfl⟩, ⟨h, hv, hv'⟩, rfl⟩
  | quit => exact .ok ⟨⟨rfl, rfl, .inl rfl⟩, ⟨h, hv, hv'⟩, rfl⟩
  | redraw =>
    refine (same_draw m e1 a' h).bind ?_
    rintro ⟨d, e2⟩ ⟨_, _⟩ ⟨rfl, rfl, h2⟩
    simp only at h2 ⊢
    rw [← h2] at h hv ⊢
    change OutcomeAlike _ (if e2.inputComplete = true then _ else _) (if e2.inputComplete = true then _ else _)
    split
    · refine (same_finish m hce h hv hv').bind ?_
      rintro ⟨o, e3⟩ ⟨o', e3'⟩ ⟨h3, ⟨h4, hw, hw'⟩, h5⟩
      simp only at h3 h4 h5 hw hw' ⊢
      generalize e3'.args = b at h4 h5 hw'
      subst h5
      refine (same_draw m (e3.newLine t) b h4).bind ?_
      rintro ⟨d', e4⟩ ⟨_, _⟩ ⟨rfl, rfl, h6⟩
      simp only at h6
      refine .ok ⟨⟨rfl, rfl, ?_⟩, ⟨h6 ▸ h4, h6 ▸ hw, hw'⟩, rfl⟩
      rcases h3 with rfl | ⟨line, u, u', hr, rfl, rfl⟩
      · exact .inl rfl
      · exact .inr ⟨line, u, u', hr, rfl, rfl⟩
    · exact .ok ⟨⟨rfl, rfl, .inl rfl⟩, ⟨h, hv, hv'⟩, rfl⟩

end Bcalc
