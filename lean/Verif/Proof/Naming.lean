import Verif.Proof.Swap
import Verif.Proof.Alike

/-! # A name for a value -/

namespace Bcalc
open Spec

/-- The same lexemes elsewhere. -/
theorem lexes_place {radix pos s ts} (h : Lexes radix pos s ts) (pos' : Nat) :
    ∃ ts', Lexes radix pos' s ts' ∧ ts'.map (·.value) = ts.map (·.value) := by
  induction h generalizing pos' with
  | done => exact ⟨[], .done, rfl⟩
  | blank hc _ ih =>
    obtain ⟨ts', h, e⟩ := ih (pos' + 1)
    exact ⟨ts', .blank hc h, e⟩
  | symbol hc _ ih =>
    obtain ⟨ts', h, e⟩ := ih (pos' + 1)
    exact ⟨_, .symbol hc h, by simp [e]⟩
  | @word _ w t rest ts h1 h2 h3 h4 _ ih =>
    obtain ⟨ts', h, e⟩ := ih (pos' + w.length)
    exact ⟨_, .word h1 h2 h3 h4 h, by simp [e]⟩

/-- Blanks have no lexemes. -/
theorem blanks_of_lexes {radix pos s ts} (h : Lexes radix pos s ts) (ht : ts = []) : ∀ c ∈ s, Blank c := by
  induction h with
  | done => simp
  | blank hc _ ih =>
    intro c hcs
    rcases List.mem_cons.1 hcs with rfl | hcs
    · exact hc
    · exact ih ht c hcs
  | symbol => simp at ht
  | word => simp at ht

/-- The first lexeme is an equals sign. -/
theorem lexes_equals {radix pos s ts us p} (h : Lexes radix pos s ts) (ht : ts = ⟨.assign, p⟩ :: us) :
    ∃ b rest, s = b ++ '=' :: rest ∧ ∀ c ∈ b, Blank c := by
  induction h with
  | done => simp at ht
  | @blank _ c rest _ hc _ ih =>
    obtain ⟨b, rest', rfl, hb⟩ := ih ht
    refine ⟨c :: b, rest', rfl, ?_⟩
    intro d hd
    rcases List.mem_cons.1 hd with rfl | hd
    · exact hc
    · exact hb d hd
  | @symbol _ c t rest ts hc _ ih =>
    simp only [List.cons.injEq, Positioned.mk.injEq] at ht
    obtain ⟨⟨rfl, _⟩, _⟩ := ht
    cases hc
    exact ⟨[], rest, rfl, by simp⟩
  | word h1 h2 h3 h4 _ ih =>
    simp only [List.cons.injEq, Positioned.mk.injEq] at ht
    obtain ⟨⟨rfl, _⟩, _⟩ := ht
    cases h4

theorem wordChar_dollar : WordChar '$' := by
  refine ⟨by unfold Blank; decide, ?_⟩
  intro t h
  generalize hc : '$' = c at h
  cases h <;> revert hc <;> decide

/-- A name alone. -/
theorem lexes_name {radix pos : Nat} {x : Str} (hx : VariableName x) :
    Lexes radix pos x [⟨.variable x, ⟨pos, x.length⟩⟩] := by
  obtain ⟨⟨rest, rfl⟩, hw⟩ := hx
  have := Lexes.word (radix := radix) (pos := pos) (w := '$' :: rest) (rest := []) (by simp) hw (by intro c cs h; cases h)
    (.variable rfl) .done
  simpa using this

theorem tokenize_of_lexes {radix : Nat} (h2 : 2 ≤ radix) (h16 : radix ≤ 16) {line : Str} (ha : Ascii line)
    (hc : ¬ CommandLine line) {ts : List PTok} (h : Lexes radix 0 line ts) : tokenize line radix = .ok (.tokens ts) :=
  (C01_tokens_iff radix h2 h16 line ts).2 ⟨ha, hc, h⟩

theorem input_nonempty {ts : List PTok} {target n} (h : Input ts target n) : ts ≠ [] := by
  rintro rfl
  exact input_ne_nil h

/-- The answer to a well-formed line. -/
theorem pureAnswer_of {m : Machine} {args : Args} {ρ : Valuation} {line : Str} (h2 : 2 ≤ args.radix) (h16 : args.radix ≤ 16)
    (ha : Ascii line) (hc : ¬ CommandLine line) {ts : List PTok} (h : Lexes args.radix 0 line ts) {target n}
    (hi : Input ts target n) :
    pureAnswer m args ρ line = (n.pure m args true ρ >>= displayResult args) ∧
    pureEffect m args ρ line = (match target, n.pure m args true ρ with
      | some x, .ok v => fun y => if y = x.value then some v else ρ y
      | _, _ => ρ) := by
  have hn := (C10_parser_iff_grammar ts ⟨target, n⟩).2 hi
  unfold pureAnswer pureEffect
  rw [tokenize_of_lexes h2 h16 ha hc h]
  simp only [if_neg (input_nonempty hi), hn, Outcome.mapErr, Outcome.bind_ok]
  refine ⟨trivial, ?_⟩
  cases target with
  | none => rfl
  | some x => simp only; cases n.pure m args true ρ <;> rfl

theorem unplaced_ok_iff {α : Type} {a b : Outcome Failure α} (h : unplaced a = unplaced b) (v : α) : a = .ok v ↔ b = .ok v := by
  constructor
  · rintro rfl; exact unplaced_ok h
  · rintro rfl; exact unplaced_ok h.symm

/-- Putting an expression in parentheses for a name that has its value. -/
theorem naming_core {m : Machine} {args : Args} {ρ : Valuation} (h2 : 2 ≤ args.radix) (h16 : args.radix ≤ 16)
    {x a pre post : Str} (hx : VariableName x) (haa : Ascii a) {as : List PTok} {pos : Nat} (hla : Lexes args.radix pos a as) {na : Node}
    (hna : Expr 4 as na) {q : Rat} (hpa : na.pure m args true ρ = .ok q) (hρ : ρ x = some q)
    (hpre : ∀ p c, pre = p ++ [c] → ¬ WordChar c) (hpost : Boundary post) (hno : ¬ AssignedBetween pre post)
    (hal : Ascii (pre ++ x ++ post)) (hcl : ¬ CommandLine (pre ++ x ++ post)) (hw : WellFormed args.radix (pre ++ x ++ post)) :
    Ascii (pre ++ '(' :: a ++ ')' :: post) ∧ ¬ CommandLine (pre ++ '(' :: a ++ ')' :: post) ∧
    WellFormed args.radix (pre ++ '(' :: a ++ ')' :: post) ∧
    unplaced (pureAnswer m args ρ (pre ++ x ++ post)) = unplaced (pureAnswer m args ρ (pre ++ '(' :: a ++ ')' :: post)) ∧
    pureEffect m args ρ (pre ++ x ++ post) = pureEffect m args ρ (pre ++ '(' :: a ++ ')' :: post) := by
  obtain ⟨ts, target, n, hl, hi⟩ := hw
  have hasc : Ascii (pre ++ '(' :: a ++ ')' :: post) := by
    intro c hc
    simp only [List.mem_append, List.mem_cons] at hc
    rcases hc with (hc | rfl | hc) | rfl | hc
    · exact hal c (by simp [hc])
    · decide
    · exact haa c hc
    · decide
    · exact hal c (by simp [hc])
  have hcl' : ¬ CommandLine (pre ++ '(' :: a ++ ')' :: post) := by
    rintro ⟨b, rest, e, hb⟩
    rw [List.append_assoc, List.cons_append] at e
    rcases List.append_eq_append_iff.1 e with ⟨c, rfl, hc⟩ | ⟨c, rfl, hc⟩
    · cases c with
      | nil => simp at hc
      | cons d c =>
        simp only [List.cons_append, List.cons.injEq] at hc
        rcases hb d (by simp) with h | h
        · rw [← hc.1] at h; revert h; unfold Blank; decide
        · rw [← hc.1] at h; revert h; decide
    · cases c with
      | nil => simp at hc
      | cons d c =>
        simp only [List.cons_append, List.cons.injEq] at hc
        obtain ⟨rfl, _⟩ := hc
        exact hcl ⟨b, c ++ x ++ post, by simp, hb⟩
  rw [List.append_assoc] at hl
  obtain ⟨t1, t23, rfl, hl1, hl23⟩ := lexes_split_apart hl (.inl hpre)
  obtain ⟨t2, t3, rfl, hl2, hl3⟩ := lexes_split_apart hl23 (.inr hpost)
  obtain ⟨p2, rfl⟩ : ∃ p, t2 = [⟨.variable x, p⟩] := by
    obtain ⟨t2', h, e⟩ := lexes_place hl2 0
    have hax : Ascii x := fun c hc => hal c (by simp [hc])
    have hcx : ¬ CommandLine x := by
      obtain ⟨⟨r, rfl⟩, hwx⟩ := hx
      rintro ⟨b, rest, e, hb⟩
      cases b with
      | nil => cases e
      | cons d b =>
        cases e
        rcases hb '$' (by simp) with h | h
        · exact wordChar_dollar.1 h
        · revert h; decide
    have e1 := tokenize_of_lexes h2 h16 hax hcx h
    rw [tokenize_of_lexes h2 h16 hax hcx (lexes_name hx)] at e1
    cases e1
    cases t2 with
    | nil => simp at e
    | cons t t2 =>
      obtain ⟨v, p⟩ := t
      simp only [List.map_cons, List.map_nil, List.cons.injEq] at e
      obtain ⟨rfl, e⟩ := e
      cases t2 with
      | nil => exact ⟨p, rfl⟩
      | cons => simp at e
  obtain ⟨as', hla', hva⟩ := lexes_place hla (0 + pre.length + 1)
  obtain ⟨t3', hl3', hv3⟩ := lexes_place hl3 (0 + pre.length + 1 + a.length + 1)
  have hl' : Lexes args.radix 0 (pre ++ '(' :: a ++ ')' :: post)
      (t1 ++ ⟨.openParen, ⟨0 + pre.length, 1⟩⟩ :: (as' ++ ⟨.closeParen, ⟨0 + pre.length + 1 + a.length, 1⟩⟩ :: t3')) := by
    rw [List.append_assoc]
    refine lexes_append hl1 (.inl hpre) ?_
    refine .symbol .openP ?_
    refine lexes_append hla' (.inr ?_) (.symbol .closeP hl3')
    intro c cs h
    cases h
    exact fun h => h.2 _ .closeP
  have hsw : Swap True x (as.map (·.value)) (t1 ++ ([⟨.variable x, p2⟩] ++ t3))
      (t1 ++ ⟨.openParen, ⟨0 + pre.length, 1⟩⟩ :: (as' ++ ⟨.closeParen, ⟨0 + pre.length + 1 + a.length, 1⟩⟩ :: t3')) :=
    (Swap.refl rfl).prefix (.swap trivial hva (.refl hv3))
  have hA : True → ∃ q, ρ x = some q ∧ ∀ us : List PTok, us.map (·.value) = as.map (·.value) →
      ∃ n, Expr 4 us n ∧ n.pure m args true ρ = .ok q := by
    intro _
    refine ⟨q, hρ, fun us hus => ?_⟩
    obtain ⟨n', h1, h2⟩ := moved_expr m args true ρ hna hus
    unfold Evens at h2
    rw [hpa] at h2
    exact ⟨n', h1, unplaced_ok h2⟩
  have hi' : ∃ target' n', Input (t1 ++ ⟨.openParen, ⟨0 + pre.length, 1⟩⟩ :: (as' ++ ⟨.closeParen, ⟨0 + pre.length + 1 + a.length, 1⟩⟩ :: t3')) target' n' ∧
      target'.map (·.value) = target.map (·.value) ∧ Evens m args true ρ n n' := by
    generalize hts : t1 ++ ([⟨.variable x, p2⟩] ++ t3) = ts at hi
    cases hi with
    | expression h =>
      subst hts
      obtain ⟨n', h1, h2⟩ := swap_expr hA h hsw
      exact ⟨none, n', .expression h1, rfl, h2⟩
    | @assignment y p q' ts' _ h =>
      cases t1 with
      | nil =>
        simp only [List.nil_append, List.cons_append, List.cons.injEq] at hts
        obtain ⟨_, rfl⟩ := hts
        exact absurd ⟨blanks_of_lexes hl1 rfl, lexes_equals hl3 rfl⟩ hno
      | cons t t1 =>
        cases t1 with
        | nil => simp at hts
        | cons t' t1 =>
          simp only [List.cons_append, List.cons.injEq] at hts
          obtain ⟨rfl, rfl, rfl⟩ := hts
          have hsw' : Swap True x (as.map (·.value)) (t1 ++ ([⟨.variable x, p2⟩] ++ t3))
              (t1 ++ ⟨.openParen, ⟨0 + pre.length, 1⟩⟩ ::
                (as' ++ ⟨.closeParen, ⟨0 + pre.length + 1 + a.length, 1⟩⟩ :: t3')) :=
            (Swap.refl rfl).prefix (.swap trivial hva (.refl hv3))
          obtain ⟨n', h1, h2⟩ := swap_expr hA h hsw'
          exact ⟨_, n', .assignment h1, rfl, h2⟩
  obtain ⟨target', n', hi', htt, he⟩ := hi'
  obtain ⟨h3, h4⟩ := pureAnswer_of (m := m) (ρ := ρ) h2 h16 hal hcl (by rw [List.append_assoc]; exact hl) hi
  obtain ⟨h5, h6⟩ := pureAnswer_of (m := m) (ρ := ρ) h2 h16 hasc hcl' hl' hi'
  refine ⟨hasc, hcl', ⟨_, _, _, hl', hi'⟩, ?_, ?_⟩
  · rw [h3, h5]
    exact unplaced_bind he fun v => rfl
  · rw [h4, h6]
    unfold Evens at he
    cases target with
    | none =>
      cases target' with
      | none => rfl
      | some => simp at htt
    | some y =>
      cases target' with
      | none => simp at htt
      | some y' =>
        have hy : y'.value = y.value := by simpa using htt
        cases hn : n.pure m args true ρ with
        | ok v => rw [(unplaced_ok_iff he v).1 hn]; simp only [hy]
        | _ =>
          cases hn' : n'.pure m args true ρ with
          | ok v => rw [(unplaced_ok_iff he v).2 hn'] at hn; cases hn
          | _ => rfl

/-! ## The values a line finds do not depend on its text -/

theorem stored_add_text {db : Db} (hr : Reachable db) (line line' x : Str) (q : Rat)
    (h : Stored ((DbOp.add line).apply db) x q) : Stored ((DbOp.add line').apply db) x q := by
  obtain ⟨st, hst⟩ := hr.rep
  obtain ⟨row, hrow, hn, h1, h2⟩ := h
  have h3 := ((hst.step (.add line)).vars x q row.lastUsedBy).2 ⟨row, hrow, hn, h1, h2, rfl⟩
  have h4 : (st.step (.add line')).vars = (st.step (.add line)).vars := by
    unfold Store.step Store.trim Store.Has
    simp only [List.length_append, List.length_singleton]
  rw [← h4] at h3
  obtain ⟨row', hrow', hn', h1', h2', _⟩ := ((hst.step (.add line')).vars x q row.lastUsedBy).1 h3
  exact ⟨row', hrow', hn', h1', h2'⟩

theorem seenBy_text {s : Session} (h : Undisturbed s) {line : Str} {ρ : Valuation} (hρ : SeenBy s line ρ) (line' : Str) :
    SeenBy s line' ρ := by
  intro x q
  rw [hρ x q]
  unfold Sees
  constructor
  · rintro (h1 | ⟨h1, h2, sd, h3, h4⟩)
    · exact .inl h1
    · exact .inr ⟨h1, h2, sd, h3, stored_add_text (h.reachable sd h3) _ _ _ _ h4⟩
  · rintro (h1 | ⟨h1, h2, sd, h3, h4⟩)
    · exact .inl h1
    · exact .inr ⟨h1, h2, sd, h3, stored_add_text (h.reachable sd h3) _ _ _ _ h4⟩

/-! ## Evaluation depends on the variables that occur -/

mutual
/-- With more values known. -/
theorem pure_mono {m : Machine} {args : Args} {store : Bool} {ρ ρ' : Valuation} (h : ∀ x q, ρ x = some q → ρ' x = some q) :
    ∀ (n : Node) {v : Rat}, n.pure m args store ρ = .ok v → n.pure m args store ρ' = .ok v
  | .number w p, v, hv => hv
  | .variable x p, v, hv => by
    unfold Node.pure pureVariable at hv ⊢
    cases hx : ρ x with
    | some q => rw [hx] at hv; rw [h x q hx]; exact hv
    | none => rw [hx] at hv; cases hv
  | .paren p q n, v, hv => by
    unfold Node.pure at hv ⊢
    exact pure_mono h n hv
  | .unary o p n, v, hv => by
    unfold Node.pure at hv ⊢
    obtain ⟨a, h1, h2⟩ := outcome_bind_ok hv
    rw [pure_mono h n h1]
    exact h2
  | .binary o p n n', v, hv => by
    unfold Node.pure at hv ⊢
    obtain ⟨a, h1, h2⟩ := outcome_bind_ok hv
    obtain ⟨b, h3, h4⟩ := outcome_bind_ok h2
    rw [pure_mono h n h1, Outcome.bind_ok, pure_mono h n' h3]
    exact h4
  | .function f p ns q, v, hv => by
    unfold Node.pure at hv ⊢
    obtain ⟨a, h1, h2⟩ := outcome_bind_ok hv
    rw [pureList_mono h ns h1]
    exact h2
theorem pureList_mono {m : Machine} {args : Args} {store : Bool} {ρ ρ' : Valuation} (h : ∀ x q, ρ x = some q → ρ' x = some q) :
    ∀ (ns : List Node) {v : List Rat}, pureList m args store ρ ns = .ok v → pureList m args store ρ' ns = .ok v
  | [], v, hv => hv
  | n :: ns, v, hv => by
    unfold pureList at hv ⊢
    obtain ⟨a, h1, h2⟩ := outcome_bind_ok hv
    obtain ⟨b, h3, h4⟩ := outcome_bind_ok h2
    rw [pure_mono h n h1, Outcome.bind_ok, pureList_mono h ns h3]
    exact h4
end

mutual
/-- The variable occurs in the expression. -/
def Node.occurs (x : Str) : Node → Prop
  | .number _ _ => False
  | .variable y _ => y = x
  | .paren _ _ n => n.occurs x
  | .unary _ _ n => n.occurs x
  | .binary _ _ n n' => n.occurs x ∨ n'.occurs x
  | .function _ _ ns _ => occursList x ns
/-- The variable occurs in one of them. -/
def occursList (x : Str) : List Node → Prop
  | [] => False
  | n :: ns => n.occurs x ∨ occursList x ns
end

mutual
theorem pure_other {m : Machine} {args : Args} {store : Bool} {ρ ρ' : Valuation} {x : Str} (h : ∀ y, y ≠ x → ρ y = ρ' y) :
    ∀ n : Node, ¬ n.occurs x → n.pure m args store ρ = n.pure m args store ρ'
  | .number w p, _ => rfl
  | .variable y p, hn => by
    unfold Node.occurs at hn
    unfold Node.pure pureVariable
    rw [h y hn]
  | .paren p q n, hn => by
    unfold Node.occurs at hn
    unfold Node.pure
    exact pure_other h n hn
  | .unary o p n, hn => by
    unfold Node.occurs at hn
    unfold Node.pure
    rw [pure_other h n hn]
  | .binary o p n n', hn => by
    unfold Node.occurs at hn
    unfold Node.pure
    rw [pure_other h n fun h => hn (.inl h), pure_other h n' fun h => hn (.inr h)]
  | .function f p ns q, hn => by
    unfold Node.occurs at hn
    unfold Node.pure
    rw [pureList_other h ns hn]
theorem pureList_other {m : Machine} {args : Args} {store : Bool} {ρ ρ' : Valuation} {x : Str} (h : ∀ y, y ≠ x → ρ y = ρ' y) :
    ∀ ns : List Node, ¬ occursList x ns → pureList m args store ρ ns = pureList m args store ρ' ns
  | [], _ => rfl
  | n :: ns, hn => by
    unfold occursList at hn
    unfold pureList
    rw [pure_other h n fun h => hn (.inl h), pureList_other h ns fun h => hn (.inr h)]
end

mutual
theorem occurs_expr {x : Str} : ∀ {k : Nat} {ts : List PTok} {n : Node}, Expr k ts n → n.occurs x → ∃ p, ⟨.variable x, p⟩ ∈ ts
  | _, _, _, .signed h, ho => occurs_signed h ho
  | _, _, _, .lift h, ho => occurs_expr h ho
  | _, _, _, .op ha _ hb, ho => by
    unfold Node.occurs at ho
    rcases ho with ho | ho
    · obtain ⟨p, hp⟩ := occurs_expr ha ho; exact ⟨p, by simp [hp]⟩
    · obtain ⟨p, hp⟩ := occurs_expr hb ho; exact ⟨p, by simp [hp]⟩
theorem occurs_signed {x : Str} : ∀ {ts : List PTok} {n : Node}, Signed ts n → n.occurs x → ∃ p, ⟨.variable x, p⟩ ∈ ts
  | _, _, .minus h, ho => by
    unfold Node.occurs at ho
    obtain ⟨p, hp⟩ := occurs_signed h ho; exact ⟨p, by simp [hp]⟩
  | _, _, .atom h, ho => occurs_atom h ho
theorem occurs_atom {x : Str} : ∀ {ts : List PTok} {n : Node}, Atom ts n → n.occurs x → ∃ p, ⟨.variable x, p⟩ ∈ ts
  | _, _, .number, ho => by unfold Node.occurs at ho; exact ho.elim
  | _, _, .variable, ho => by unfold Node.occurs at ho; subst ho; exact ⟨_, List.mem_singleton_self _⟩
  | _, _, .paren h, ho => by
    unfold Node.occurs at ho
    obtain ⟨p, hp⟩ := occurs_expr h ho; exact ⟨p, by simp [hp]⟩
  | _, _, .unary h, ho => by
    unfold Node.occurs at ho
    obtain ⟨p, hp⟩ := occurs_signed h ho; exact ⟨p, by simp [hp]⟩
  | _, _, .functionBare h _, ho => by
    unfold Node.occurs occursList at ho
    rcases ho with ho | ho
    · obtain ⟨p, hp⟩ := occurs_signed h ho; exact ⟨p, by simp [hp]⟩
    · unfold occursList at ho; exact ho.elim
  | _, _, .functionEmpty, ho => by unfold Node.occurs occursList at ho; exact ho.elim
  | _, _, .function h, ho => by
    unfold Node.occurs at ho
    obtain ⟨p, hp⟩ := occurs_arguments h ho; exact ⟨p, by simp [hp]⟩
theorem occurs_arguments {x : Str} : ∀ {ts : List PTok} {ns : List Node}, Arguments ts ns → occursList x ns →
    ∃ p, ⟨.variable x, p⟩ ∈ ts
  | _, _, .one h, ho => by
    unfold occursList at ho
    rcases ho with ho | ho
    · exact occurs_expr h ho
    · unfold occursList at ho; exact ho.elim
  | _, _, .more h h', ho => by
    unfold occursList at ho
    rcases ho with ho | ho
    · obtain ⟨p, hp⟩ := occurs_expr h ho; exact ⟨p, by simp [hp]⟩
    · obtain ⟨p, hp⟩ := occurs_arguments h' ho; exact ⟨p, by simp [hp]⟩
end

/-! ## After an assignment -/

mutual
/-- After an evaluation the session has the values that were used. -/
theorem execute_loads (m : Machine) (args : Args) (store : Bool) : ∀ (n : Node) {env env' : Env} {v : Rat},
    n.execute m args env = (.ok v, env') → n.pure m args store (sessionValues env') = .ok v
  | .number w p, env, env', v, h => by
    simp [Node.execute, St.lift] at h
    rw [← h.1]; rfl
  | .variable x p, env, env', v, h => by
    unfold Node.execute at h
    unfold Node.pure pureVariable
    rw [execVariable_value h]
  | .paren p q n, env, env', v, h => by
    unfold Node.execute at h
    unfold Node.pure
    exact execute_loads m args store n h
  | .unary o p n, env, env', v, h => by
    unfold Node.execute at h
    obtain ⟨a, env1, h1, h3⟩ := andThen_ok h
    simp only [St.lift, Prod.mk.injEq] at h3
    obtain ⟨h3, rfl⟩ := h3
    unfold Node.pure
    rw [execute_loads m args store n h1]
    exact h3
  | .binary o p n n', env, env', v, h => by
    unfold Node.execute at h
    obtain ⟨a, env1, h1, h⟩ := andThen_ok h
    obtain ⟨b, env2, h4, h3⟩ := andThen_ok h
    simp only [St.lift, Prod.mk.injEq] at h3
    obtain ⟨h3, rfl⟩ := h3
    have hg := execute_grows m args n' env1
    rw [h4] at hg
    unfold Node.pure
    rw [pure_mono hg n (execute_loads m args store n h1), Outcome.bind_ok, execute_loads m args store n' h4]
    exact h3
  | .function f p ns q, env, env', v, h => by
    unfold Node.execute at h
    obtain ⟨a, env1, h1, h3⟩ := andThen_ok h
    simp only [St.lift, Prod.mk.injEq] at h3
    obtain ⟨h3, rfl⟩ := h3
    unfold Node.pure
    rw [executeList_loads m args store ns h1]
    exact h3
theorem executeList_loads (m : Machine) (args : Args) (store : Bool) : ∀ (ns : List Node) {env env' : Env} {vs : List Rat},
    executeList m args ns env = (.ok vs, env') → pureList m args store (sessionValues env') ns = .ok vs
  | [], env, env', vs, h => by
    simp [executeList, St.lift] at h
    rw [h.1]; rfl
  | n :: ns, env, env', vs, h => by
    unfold executeList at h
    obtain ⟨a, env1, h1, h⟩ := andThen_ok h
    obtain ⟨b, env2, h4, h3⟩ := andThen_ok h
    simp only [St.lift, Prod.mk.injEq] at h3
    obtain ⟨h3, rfl⟩ := h3
    have hg := executeList_rel (R := GrowsTo) (fun _ _ _ h => h) (fun _ _ _ h h' x q hx => h' x q (h x q hx)) execVariable_grows m args ns env1
    rw [h4] at hg
    unfold pureList
    rw [pure_mono hg n (execute_loads m args store n h1), Outcome.bind_ok, executeList_loads m args store ns h4]
    exact h3
end

/-- After a successful assignment the session has the value, and the values that it was computed from. -/
theorem assignment_loads {m : Machine} {ce : CommandExecutor} {line : Str} {s s' : Session} {text : Str}
    (h : calculate m ce line s = (.ok text, s')) {ts : List PTok} (ht : tokenize line s.args.radix = .ok (.tokens ts))
    {x : Positioned Str} {n : Node} (hi : Input ts (some x) n) :
    ∃ v ρ, n.pure m s.args true ρ = .ok v ∧ sessionValue s' = (fun y => if y = x.value then some v else ρ y) := by
  obtain ⟨id, s1, s2, tree, v, h1, h2, h3, h4, h5, h6, h7, h8⟩ := calculate_tokens_ok h ht (input_nonempty hi)
  have htree : tree = ⟨some x, n⟩ := by
    have := (C10_parser_iff_grammar ts ⟨some x, n⟩).2 hi
    rw [h6] at this
    cases this; rfl
  subst htree
  unfold executeTree SyntaxTree.execute St.andThen at h7
  rcases hr : n.execute m s2.args ⟨s2.vars, s2.db⟩ with ⟨r, env⟩
  simp only at h7
  rw [hr] at h7
  cases r with
  | ok q =>
    simp only at h7
    have hl := execute_loads m s2.args true n hr
    rw [h5] at hl
    cases hvars : env.vars with
    | none => rw [hvars] at h7; simp at h7
    | some vs =>
      rw [hvars] at h7
      simp only at h7
      have hu : (vs.update ⟨x.value, q⟩ id env.db).2.1 = vs.insert x.value q := by
        unfold VariableStore.update
        rfl
      rcases hq : vs.update ⟨x.value, q⟩ id env.db with ⟨r, vs', db'⟩
      rw [hq] at h7 hu
      simp only at hu
      subst hu
      cases r <;> simp at h7
      obtain ⟨rfl, h7⟩ := h7
      refine ⟨q, sessionValues env, hl, ?_⟩
      funext y
      rw [← h7]
      show (vs.insert x.value q).lookup y = _
      rw [lookup_insert]
      unfold sessionValues
      rw [hvars]
  | err e => simp at h7
  | panic k => simp at h7
  | diverge => simp at h7

theorem lexes_of_blanks {radix pos s ts} (h : Lexes radix pos s ts) (hb : ∀ c ∈ s, Blank c) : ts = [] := by
  induction h with
  | done => rfl
  | blank _ _ ih => exact ih fun c hc => hb c (by simp [hc])
  | @symbol _ c t _ _ hs _ _ =>
    have := hb c (by simp)
    unfold Blank at this
    rcases this with rfl | rfl | rfl | rfl | rfl <;> cases hs
  | @word _ w _ _ _ h1 hw _ _ _ _ =>
    cases w with
    | nil => exact absurd rfl h1
    | cons c w => exact absurd (hb c (by simp)) (hw c (by simp)).1

/-- What a successful assignment says of its right-hand side. -/
theorem assignment_reads {m : Machine} {ce : CommandExecutor} {x b a : Str} (hx : VariableName x) (hb : ∀ c ∈ b, Blank c)
    {s s' : Session} (h2 : 2 ≤ s.args.radix) (h16 : s.args.radix ≤ 16) {text : Str}
    (h : calculate m ce (x ++ b ++ '=' :: a) s = (.ok text, s')) :
    Ascii (x ++ b ++ '=' :: a) ∧ ¬ CommandLine (x ++ b ++ '=' :: a) ∧ ∃ pos as n p q,
      Lexes s.args.radix 0 (x ++ b ++ '=' :: a) (⟨.variable x, p⟩ :: ⟨.assign, q⟩ :: as) ∧
      Lexes s.args.radix pos a as ∧ Expr 4 as n := by
  have hcl : ¬ CommandLine (x ++ b ++ '=' :: a) := by
    obtain ⟨⟨r, rfl⟩, hwx⟩ := hx
    rintro ⟨b', rest, e, hb'⟩
    cases b' with
    | nil => cases e
    | cons d b' =>
      simp only [List.cons_append, List.cons.injEq] at e
      obtain ⟨rfl, _⟩ := e
      rcases hb' '$' (by simp) with h | h
      · exact wordChar_dollar.1 h
      · revert h; decide
  obtain ⟨ts, ht⟩ : ∃ ts, tokenize (x ++ b ++ '=' :: a) s.args.radix = .ok (.tokens ts) := by
    rw [calculate_eq] at h
    obtain ⟨id, s1, h1, h⟩ := andThen_ok h
    obtain ⟨ha, _⟩ := recordInput_args s
    rw [h1] at ha
    simp only at ha
    unfold afterRecording at h
    rw [ha] at h
    rcases tokenize_spec h2 h16 (x ++ b ++ '=' :: a) with ⟨i, _, _, e⟩ | ⟨_, p, hp, hc', _⟩ |
      ⟨_, _, ⟨ts', e, _⟩ | ⟨w, st, e, _, _⟩⟩
    · rw [e] at h; cases h
    · exact absurd hc' hcl
    · exact ⟨ts', e⟩
    · rw [e] at h; cases h
  obtain ⟨ha, _, hl⟩ := (C01_tokens_iff _ h2 h16 _ ts).1 ht
  have hl0 := hl
  have hbeq : Boundary ('=' :: a) := by intro c cs h; cases h; exact fun h => h.2 _ .equals
  have hbb : Boundary (b ++ '=' :: a) := by
    refine boundary_append ?_ fun _ => hbeq
    intro c cs hc hw
    exact hw.1 (hb c (by rw [hc]; simp))
  rw [List.append_assoc] at hl
  obtain ⟨t1, t23, rfl, hl1, hl23⟩ := lexes_split_apart hl (.inr hbb)
  obtain ⟨t2, t3, rfl, hl2, hl3⟩ := lexes_split_apart hl23 (.inr hbeq)
  have ht1 : t1 = [⟨.variable x, ⟨0, x.length⟩⟩] := by
    have hax : Ascii x := fun c hc => ha c (by simp [hc])
    have hcx : ¬ CommandLine x := by
      rintro ⟨b', rest, e, hb'⟩
      exact hcl ⟨b', rest ++ (b ++ '=' :: a), by rw [e]; simp, hb'⟩
    have e1 := tokenize_of_lexes h2 h16 hax hcx hl1
    rw [tokenize_of_lexes h2 h16 hax hcx (lexes_name hx)] at e1
    cases e1; rfl
  have ht2 : t2 = [] := lexes_of_blanks hl2 hb
  subst ht1 ht2
  generalize hpos : 0 + x.length + b.length = pos at hl3
  obtain ⟨q, as, rfl, hla⟩ : ∃ q as, t3 = ⟨.assign, q⟩ :: as ∧ Lexes s.args.radix (pos + 1) a as := by
    generalize hta : '=' :: a = l at hl3
    cases hl3 with
    | done => cases hta
    | blank hc _ => cases hta; exact absurd hc (by unfold Blank; decide)
    | symbol hc h => cases hta; cases hc; exact ⟨_, _, rfl, h⟩
    | @word _ w _ _ _ h1 hw _ _ _ =>
      cases w with
      | nil => exact absurd rfl h1
      | cons c w => cases hta; exact absurd Symbol.equals ((hw _ (by simp)).2 _)
  obtain ⟨id, s1, s2, tree, v, _, _, _, _, _, h6, _⟩ := calculate_tokens_ok h ht (by simp)
  have hi := (C10_parser_iff_grammar _ tree).1 h6
  obtain ⟨target, n⟩ := tree
  simp only [List.nil_append, List.cons_append] at hi hl0
  generalize hts : (⟨.variable x, ⟨0, x.length⟩⟩ :: ⟨.assign, q⟩ :: as : List PTok) = ts at hi
  cases hi with
  | expression h => subst hts; exact absurd rfl (expr_noAssign h ⟨.assign, q⟩ (by simp))
  | assignment he =>
    simp only [List.cons.injEq] at hts
    obtain ⟨_, _, rfl⟩ := hts
    exact ⟨ha, hcl, pos + 1, _, n, _, _, hl0, hla, he⟩

/-- The two lines in a session that finds the values. -/
theorem naming_sessions {m : Machine} {ce : CommandExecutor} {s : Session} (hu : Undisturbed s) {ρ : Valuation}
    (h2 : 2 ≤ s.args.radix) (h16 : s.args.radix ≤ 16)
    {x a pre post : Str} (hρs : SeenBy s (pre ++ x ++ post) ρ) (hx : VariableName x) (haa : Ascii a) {as : List PTok} {pos : Nat}
    (hla : Lexes s.args.radix pos a as) {na : Node}
    (hna : Expr 4 as na) {q : Rat} (hpa : na.pure m s.args true ρ = .ok q) (hρ : ρ x = some q)
    (hpre : ∀ p c, pre = p ++ [c] → ¬ WordChar c) (hpost : Boundary post) (hno : ¬ AssignedBetween pre post)
    (hal : Ascii (pre ++ x ++ post)) (hcl : ¬ CommandLine (pre ++ x ++ post)) (hw : WellFormed s.args.radix (pre ++ x ++ post))
    {hist hist' : InputHistory} (hl : (hist.currentLine : Outcome RuntimeErr Str) = .ok (pre ++ x ++ post))
    (hl' : (hist'.currentLine : Outcome RuntimeErr Str) = .ok (pre ++ '(' :: a ++ ')' :: post)) :
    unplaced (calculate m ce (pre ++ x ++ post) { s with inputs := some hist }).1 =
      unplaced (calculate m ce (pre ++ '(' :: a ++ ')' :: post) { s with inputs := some hist' }).1 ∧
    ∀ y v, Visible (calculate m ce (pre ++ x ++ post) { s with inputs := some hist }).2 y v ↔
      Visible (calculate m ce (pre ++ '(' :: a ++ ')' :: post) { s with inputs := some hist' }).2 y v := by
  obtain ⟨hal', hcl', hw', h3, h4⟩ := naming_core h2 h16 hx haa hla hna hpa hρ hpre hpost hno hal hcl hw
  obtain ⟨t, e, _, _, _, hsee, _⟩ := calculate_pure (m := m) (ce := ce) (hu.ready hl) hρs h2 h16 hcl
  obtain ⟨t', e', _, _, _, hsee', _⟩ := calculate_pure (m := m) (ce := ce) (hu.ready hl') (seenBy_text hu hρs _) h2 h16 hcl'
  rw [e, e']
  refine ⟨h3, fun y v => ?_⟩
  show EnvSees t.env y v ↔ EnvSees t'.env y v
  rw [← hsee y v, ← hsee' y v]
  show pureEffect m s.args ρ _ y = some v ↔ pureEffect m s.args ρ _ y = some v
  rw [h4]

end Bcalc
