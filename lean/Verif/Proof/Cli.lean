import Verif.Spec.CommandLine

/-! # Lemmas about reading the command line -/

namespace Bcalc

open Spec

/-! ## Numbers -/

theorem digitChar_decimal (c : Char) (d : Nat) :
    (DigitChar c d ∧ d < 10) ↔ (48 ≤ c.toNat ∧ c.toNat ≤ 57 ∧ d = c.toNat - 48) := by
  have h0 : '0'.toNat = 48 := rfl
  unfold DigitChar
  rw [h0]
  omega

theorem decimalDigits_fold (s : Str) (a n : Nat) :
    (s.foldl decimalStep (some a)) = some n ↔
    ∃ ds, Digits 10 s ds ∧ n = ds.foldl (fun acc d => acc * 10 + d) a := by
  induction s generalizing a with
  | nil =>
    constructor
    · intro h
      simp at h
      exact ⟨[], List.Forall₂.nil, by simpa using h.symm⟩
    · rintro ⟨ds, hd, rfl⟩
      cases hd
      rfl
  | cons c cs ih =>
    have none_fold : ∀ l : Str, (l.foldl decimalStep (none : Option Nat)) = none := by
      intro l
      induction l with
      | nil => rfl
      | cons _ _ ih2 => simpa [decimalStep] using ih2
    simp only [List.foldl_cons, decimalStep]
    by_cases hc : 48 ≤ c.toNat ∧ c.toNat ≤ 57
    · rw [if_pos hc, ih]
      constructor
      · rintro ⟨ds, hd, rfl⟩
        exact ⟨(c.toNat - 48) :: ds, List.Forall₂.cons ((digitChar_decimal _ _).2 ⟨hc.1, hc.2, rfl⟩) hd, rfl⟩
      · rintro ⟨ds, hd, rfl⟩
        cases hd with
        | cons h1 h2 =>
          obtain ⟨_, _, rfl⟩ := (digitChar_decimal _ _).1 h1
          exact ⟨_, h2, rfl⟩
    · rw [if_neg hc, none_fold]
      constructor
      · intro h; simp at h
      · rintro ⟨ds, hd, rfl⟩
        cases hd with
        | cons h1 h2 =>
          obtain ⟨h3, h4, _⟩ := (digitChar_decimal _ _).1 h1
          exact absurd ⟨h3, h4⟩ hc

theorem decimalDigits_iff (s : Str) (n : Nat) :
    decimalDigits s = some n ↔ ∃ ds, Digits 10 s ds ∧ ds ≠ [] ∧ n = value 10 ds := by
  unfold decimalDigits
  by_cases hs : s = []
  · subst hs
    simp only [if_true]
    constructor
    · intro h; simp at h
    · rintro ⟨ds, hd, h1, _⟩
      cases hd
      exact absurd rfl h1
  · rw [if_neg hs, decimalDigits_fold]
    constructor
    · rintro ⟨ds, hd, h⟩
      refine ⟨ds, hd, ?_, h⟩
      rintro rfl
      cases hd
      exact hs rfl
    · rintro ⟨ds, hd, _, h⟩
      exact ⟨ds, hd, h⟩

theorem decimalInt_iff (s : Str) (i : Int) : decimalInt s = some i ↔ DecimalText s i := by
  constructor
  · intro h
    unfold decimalInt at h
    split at h
    · obtain ⟨n, hn, rfl⟩ := Option.map_eq_some_iff.1 h
      obtain ⟨ds, hd, h1, rfl⟩ := (decimalDigits_iff _ _).1 hn
      exact .plus hd h1
    · obtain ⟨n, hn, rfl⟩ := Option.map_eq_some_iff.1 h
      obtain ⟨ds, hd, h1, rfl⟩ := (decimalDigits_iff _ _).1 hn
      exact .minus hd h1
    · obtain ⟨n, hn, rfl⟩ := Option.map_eq_some_iff.1 h
      obtain ⟨ds, hd, h1, rfl⟩ := (decimalDigits_iff _ _).1 hn
      exact .plain hd h1
  · intro h
    cases h with
    | plain hd h1 =>
      have hn := (decimalDigits_iff _ _).2 ⟨_, hd, h1, rfl⟩
      unfold decimalInt
      split
      · cases hd with
        | cons h2 h3 =>
          obtain ⟨h3, h4, _⟩ := (digitChar_decimal _ _).1 h2
          exact absurd h3 (by decide)
      · cases hd with
        | cons h2 h3 =>
          obtain ⟨h3, h4, _⟩ := (digitChar_decimal _ _).1 h2
          exact absurd h3 (by decide)
      · rw [hn]; rfl
    | @plus s ds hd h1 =>
      simp [decimalInt, (decimalDigits_iff _ _).2 ⟨ds, hd, h1, rfl⟩]
    | @minus s ds hd h1 =>
      simp [decimalInt, (decimalDigits_iff _ _).2 ⟨ds, hd, h1, rfl⟩]

theorem cliNumber_iff {lo hi : Int} (hlo : 0 ≤ lo) (t : Str) (n : Nat) :
    cliNumber lo hi t = .ok n ↔ InRange lo hi t n := by
  unfold cliNumber InRange
  constructor
  · intro h
    split at h
    · next i hi' =>
      split at h
      · next hr =>
        cases h
        have : ((i.toNat : Nat) : Int) = i := Int.toNat_of_nonneg (by omega)
        rw [this]
        exact ⟨(decimalInt_iff _ _).1 hi', hr.1, hr.2⟩
      · cases h
    · cases h
  · rintro ⟨h1, h2, h3⟩
    rw [(decimalInt_iff _ _).2 h1]
    simp [h2, h3]

theorem inRange_unique {lo hi : Int} {t : Str} {a b : Nat} (h1 : InRange lo hi t a) (h2 : InRange lo hi t b) :
    a = b := by
  have h3 := (decimalInt_iff _ _).2 h1.1
  have h4 := (decimalInt_iff _ _).2 h2.1
  rw [h3] at h4
  injection h4 with h4
  exact_mod_cast h4

/-! ## Names -/

theorem splitEq_plain (s : Str) (h : '=' ∉ s) : splitEq s = (s, none) := by
  induction s with
  | nil => rfl
  | cons c cs ih =>
    have hc : c ≠ '=' := fun e => h (by simp [e])
    have := ih (fun e => h (by simp [e]))
    unfold splitEq
    split
    · simp_all
    · simp_all
    · simp_all

theorem splitEq_equals (s v : Str) (h : '=' ∉ s) : splitEq (s ++ '=' :: v) = (s, some v) := by
  induction s with
  | nil => rfl
  | cons c cs ih =>
    have hc : c ≠ '=' := fun e => h (by simp [e])
    have := ih (fun e => h (by simp [e]))
    rw [List.cons_append]
    unfold splitEq
    split
    · simp_all
    · simp_all
    · simp_all

theorem splitEq_some {s name v : Str} (h : splitEq s = (name, some v)) : s = name ++ '=' :: v := by
  induction s generalizing name with
  | nil => simp [splitEq] at h
  | cons c cs ih =>
    unfold splitEq at h
    split at h
    · simp at *
    · next heq =>
      obtain ⟨rfl, rfl⟩ := List.cons.inj heq
      simp at h
      obtain ⟨rfl, rfl⟩ := h
      rfl
    · next c' cs' _ heq =>
      obtain ⟨rfl, rfl⟩ := List.cons.inj heq
      simp only [Prod.mk.injEq] at h
      obtain ⟨h1, h2⟩ := h
      subst h1
      rw [List.cons_append, ← ih (name := (splitEq cs).1) (by rw [← h2])]

theorem splitEq_none {s name : Str} (h : splitEq s = (name, none)) : s = name := by
  induction s generalizing name with
  | nil => simp [splitEq] at h; exact h.symm
  | cons c cs ih =>
    unfold splitEq at h
    split at h
    · simp at *
    · simp at h
    · next c' cs' _ heq =>
      obtain ⟨rfl, rfl⟩ := List.cons.inj heq
      simp only [Prod.mk.injEq] at h
      obtain ⟨h1, h2⟩ := h
      subst h1
      rw [← ih (name := (splitEq cs).1) (by rw [← h2])]

theorem longName_no_equals (o : CliOpt) : '=' ∉ (longName o).toList := by
  cases o <;> decide

theorem longName_nonempty (o : CliOpt) : (longName o).toList ≠ [] := by
  cases o <;> decide

theorem find_long (o : CliOpt) : (cliOpts.find? fun o' => o'.long = (longName o).toList) = some o := by
  cases o <;> decide

theorem find_long_some {name : Str} {o : CliOpt} (h : (cliOpts.find? fun o' => o'.long = name) = some o) :
    name = (longName o).toList := by
  have := List.find?_some h
  simp only [decide_eq_true_eq] at this
  rw [← this]
  cases o <;> rfl

theorem find_short {c : Char} {o : CliOpt} (h : Letter c o) :
    (cliOpts.find? fun o' => o'.short = some c) = some o := by
  cases h <;> decide

theorem find_short_some {c : Char} {o : CliOpt} (h : (cliOpts.find? fun o' => o'.short = some c) = some o) :
    Letter c o := by
  have := List.find?_some h
  simp only [decide_eq_true_eq] at this
  cases o <;> simp [CliOpt.short] at this <;> subst this <;> constructor

theorem valued_iff (o : CliOpt) : o.takesValue = true ↔ Valued o := by
  cases o <;> simp [CliOpt.takesValue, Valued]

theorem letter_not_hyphen {c : Char} {o : CliOpt} (h : Letter c o) : c ≠ '-' := by
  cases h <;> decide

/-! ## The loop, equation by equation -/

theorem cliLoop_stop (p : Option CliOpt) (rest : List Str) (st : CliState) :
    cliLoop p ("--".toList :: rest) st = if p = none ∧ rest = [] then .ok st else .error .usage := by
  unfold cliLoop
  rfl

theorem cliLoop_long {w : Str} (hw : w ≠ []) (rest : List Str) (st : CliState) :
    cliLoop none (('-' :: '-' :: w) :: rest) st = (match cliLong w st with
      | .ok (st, p) => cliLoop p rest st
      | .error e => .error e) := by
  conv => lhs; unfold cliLoop
  cases w with
  | nil => exact absurd rfl hw
  | cons => rfl

theorem cliLoop_short {c : Char} (hc : c ≠ '-') (cs : Str) (rest : List Str) (st : CliState) :
    cliLoop none (('-' :: c :: cs) :: rest) st = (match cliShorts (c :: cs) st with
      | .ok (st, p) => cliLoop p rest st
      | .error e => .error e) := by
  conv => lhs; unfold cliLoop
  simp only
  split
  · simp_all
  · simp_all
  · next heq =>
    simp only [List.cons.injEq, true_and] at heq
    obtain ⟨rfl, rfl⟩ := heq
    rfl
  · simp_all

theorem cliLoop_value {v : Str} (hv : PlainWord v) (o : CliOpt) (rest : List Str) (st : CliState) :
    cliLoop (some o) (v :: rest) st = (match cliReact o (some v) st with
      | .ok st => cliLoop none rest st
      | .error e => .error e) := by
  conv => lhs; unfold cliLoop
  simp only
  split
  · rcases hv with h | h
    · simp at h
    · exact absurd rfl (h _)
  · rcases hv with h | h
    · simp at h
    · exact absurd rfl (h _)
  · rcases hv with h | h
    · simp at h
    · exact absurd rfl (h _)
  · rfl

/-! ## Options one after the other -/

/-- The options in order. -/
def applyAll : List GivenOption → CliState → Except CliStop CliState
  | [], st => .ok st
  | (o, v) :: ss, st =>
    match cliReact o v st with
    | .ok st => applyAll ss st
    | .error e => .error e

theorem applyAll_append (a b : List GivenOption) (st : CliState) :
    applyAll (a ++ b) st = (match applyAll a st with
      | .ok st => applyAll b st
      | .error e => .error e) := by
  induction a generalizing st with
  | nil => rfl
  | cons x xs ih =>
    obtain ⟨o, v⟩ := x
    simp only [List.cons_append, applyAll]
    cases cliReact o v st with
    | ok st1 => exact ih st1
    | error e => rfl

theorem applyAll_single (o : CliOpt) (v : Option Str) (st : CliState) : applyAll [(o, v)] st = cliReact o v st := by
  simp only [applyAll]
  cases cliReact o v st <;> rfl

theorem map_ok {α β : Type} {f : α → β} {e : Except CliStop α} {b : β} (h : e.map f = .ok b) :
    ∃ a, e = .ok a ∧ f a = b := by
  cases e with
  | ok a => exact ⟨a, rfl, by simpa [Except.map] using h⟩
  | error e => simp [Except.map] at h

theorem shorts_ok {cs : Str} (hcs : cs ≠ []) {st st' : CliState} {p : Option CliOpt}
    (h : cliShorts cs st = .ok (st', p)) :
    (p = none ∧ ∃ gs, Group cs gs [] ∧ applyAll gs st = .ok st') ∨
    (∃ o gs, p = some o ∧ (∀ v, PlainWord v → Group cs (gs ++ [(o, some v)]) [v]) ∧ applyAll gs st = .ok st') := by
  induction cs generalizing st with
  | nil => exact absurd rfl hcs
  | cons c cs ih =>
    unfold cliShorts at h
    split at h
    · cases h
    · next o ho =>
      have hl := find_short_some ho
      split at h
      · next ht =>
        have hv := (valued_iff o).1 ht
        split at h
        · injection h with h
          simp only [Prod.mk.injEq] at h
          obtain ⟨rfl, rfl⟩ := h
          exact Or.inr ⟨o, [], rfl, fun v hp => .next hl hv hp, rfl⟩
        · obtain ⟨st1, h1, h2⟩ := map_ok h
          simp only [Prod.mk.injEq] at h2
          obtain ⟨rfl, rfl⟩ := h2
          exact Or.inl ⟨rfl, _, .equals hl hv, by rw [applyAll_single]; exact h1⟩
        · next v hne hno =>
          obtain ⟨st1, h1, h2⟩ := map_ok h
          simp only [Prod.mk.injEq] at h2
          obtain ⟨rfl, rfl⟩ := h2
          exact Or.inl ⟨rfl, _, .attached hl hv hne hno, by rw [applyAll_single]; exact h1⟩
      · next ht =>
        have hv : ¬ Valued o := fun e => ht ((valued_iff o).2 e)
        split at h
        · next st1 h1 =>
          by_cases hc : cs = []
          · subst hc
            unfold cliShorts at h
            injection h with h
            simp only [Prod.mk.injEq] at h
            obtain ⟨rfl, rfl⟩ := h
            exact Or.inl ⟨rfl, _, .flag hl hv, by rw [applyAll_single]; exact h1⟩
          · rcases ih hc h with ⟨hp, gs, hg, ha⟩ | ⟨o', gs, hp, hg, ha⟩
            · exact Or.inl ⟨hp, _, .more hl hv hg, by simp only [applyAll, h1]; exact ha⟩
            · exact Or.inr ⟨o', (o, none) :: gs, hp, fun v hpw => .more hl hv (hg v hpw),
                by simp only [applyAll, h1]; exact ha⟩
        · cases h

theorem shorts_pending_valued {cs : Str} {st st' : CliState} {o : CliOpt}
    (h : cliShorts cs st = .ok (st', some o)) : Valued o := by
  induction cs generalizing st with
  | nil => simp [cliShorts] at h
  | cons c cs ih =>
    unfold cliShorts at h
    split at h
    · cases h
    · next o' ho =>
      split at h
      · next ht =>
        split at h
        · injection h with h
          simp only [Prod.mk.injEq, Option.some.injEq] at h
          obtain ⟨_, rfl⟩ := h
          exact (valued_iff _).1 ht
        · obtain ⟨st1, h1, h2⟩ := map_ok h
          simp at h2
        · obtain ⟨st1, h1, h2⟩ := map_ok h
          simp at h2
      · split at h
        · exact ih h
        · cases h

theorem group_nonempty {cs : Str} {gs : List GivenOption} {vs : List Str} (h : Group cs gs vs) :
    ∃ c cs', cs = c :: cs' ∧ c ≠ '-' := by
  cases h with
  | flag hl => exact ⟨_, _, rfl, letter_not_hyphen hl⟩
  | more hl => exact ⟨_, _, rfl, letter_not_hyphen hl⟩
  | attached hl => exact ⟨_, _, rfl, letter_not_hyphen hl⟩
  | equals hl => exact ⟨_, _, rfl, letter_not_hyphen hl⟩
  | next hl => exact ⟨_, _, rfl, letter_not_hyphen hl⟩

/-- Reading a group and the words that belong to it. -/
theorem group_reads {cs : Str} {gs : List GivenOption} {vs : List Str} (h : Group cs gs vs) (st : CliState)
    {st' : CliState} (ha : applyAll gs st = .ok st') :
    (vs = [] ∧ cliShorts cs st = .ok (st', none)) ∨
    (∃ v o st1, vs = [v] ∧ PlainWord v ∧ cliShorts cs st = .ok (st1, some o) ∧ cliReact o (some v) st1 = .ok st') := by
  induction h generalizing st with
  | @flag c o hl hv =>
    rw [applyAll_single] at ha
    have ht : o.takesValue = false := by
      cases hh : o.takesValue with
      | false => rfl
      | true => exact absurd ((valued_iff o).1 hh) hv
    refine Or.inl ⟨rfl, ?_⟩
    unfold cliShorts
    rw [find_short hl]
    simp [ht, ha, cliShorts]
  | @more c o cs gs vs hl hv hg ih =>
    have ht : o.takesValue = false := by
      cases hh : o.takesValue with
      | false => rfl
      | true => exact absurd ((valued_iff o).1 hh) hv
    simp only [applyAll] at ha
    cases hr : cliReact o none st with
    | error e => rw [hr] at ha; cases ha
    | ok st1 =>
      rw [hr] at ha
      have hs : cliShorts (c :: cs) st = cliShorts cs st1 := by
        conv => lhs; unfold cliShorts
        rw [find_short hl]
        simp [ht, hr]
      rw [hs]
      exact ih st1 ha
  | @attached c o v hl hv hne hno =>
    rw [applyAll_single] at ha
    refine Or.inl ⟨rfl, ?_⟩
    unfold cliShorts
    rw [find_short hl]
    simp only [(valued_iff o).2 hv, if_true]
    cases v with
    | nil => exact absurd rfl hne
    | cons d w =>
      have hd : d ≠ '=' := by rintro rfl; exact hno w rfl
      rw [ha]; rfl
  | @equals c o v hl hv =>
    rw [applyAll_single] at ha
    refine Or.inl ⟨rfl, ?_⟩
    unfold cliShorts
    rw [find_short hl]
    simp only [(valued_iff o).2 hv, if_true]
    rw [ha]; rfl
  | @next c o v hl hv hp =>
    rw [applyAll_single] at ha
    refine Or.inr ⟨v, o, st, rfl, hp, ?_, ha⟩
    unfold cliShorts
    rw [find_short hl]
    simp only [(valued_iff o).2 hv, if_true]

theorem long_ok {w : Str} {st st' : CliState} {p : Option CliOpt} (h : cliLong w st = .ok (st', p)) :
    (∃ o, p = none ∧ ¬ Valued o ∧ w = (longName o).toList ∧ cliReact o none st = .ok st') ∨
    (∃ o v, p = none ∧ Valued o ∧ w = (longName o).toList ++ '=' :: v ∧ cliReact o (some v) st = .ok st') ∨
    (∃ o, p = some o ∧ Valued o ∧ w = (longName o).toList ∧ st' = st) := by
  unfold cliLong at h
  split at h
  next name v hw =>
  split at h
  · cases h
  · next o ho =>
    have hn := find_long_some ho
    split at h
    · next ht =>
      have hv := (valued_iff o).1 ht
      split at h
      · next v =>
        obtain ⟨st1, h1, h2⟩ := map_ok h
        simp only [Prod.mk.injEq] at h2
        obtain ⟨rfl, rfl⟩ := h2
        exact Or.inr (Or.inl ⟨o, v, rfl, hv, hn ▸ splitEq_some hw, h1⟩)
      · injection h with h
        simp only [Prod.mk.injEq] at h
        obtain ⟨rfl, rfl⟩ := h
        exact Or.inr (Or.inr ⟨o, rfl, hv, hn ▸ splitEq_none hw, rfl⟩)
    · next ht =>
      have hv : ¬ Valued o := fun e => ht ((valued_iff o).2 e)
      split at h
      · cases h
      · obtain ⟨st1, h1, h2⟩ := map_ok h
        simp only [Prod.mk.injEq] at h2
        obtain ⟨rfl, rfl⟩ := h2
        exact Or.inl ⟨o, rfl, hv, hn ▸ splitEq_none hw, h1⟩

theorem long_flag {o : CliOpt} (hv : ¬ Valued o) (st : CliState) :
    cliLong (longName o).toList st = (cliReact o none st).map fun st => (st, none) := by
  have ht : o.takesValue = false := by
    cases hh : o.takesValue with
    | false => rfl
    | true => exact absurd ((valued_iff o).1 hh) hv
  unfold cliLong
  rw [splitEq_plain _ (longName_no_equals o)]
  simp only [find_long, ht]
  rfl

theorem long_equals {o : CliOpt} (hv : Valued o) (v : Str) (st : CliState) :
    cliLong ((longName o).toList ++ '=' :: v) st = (cliReact o (some v) st).map fun st => (st, none) := by
  unfold cliLong
  rw [splitEq_equals _ _ (longName_no_equals o)]
  simp only [find_long, (valued_iff o).2 hv, if_true]

theorem long_pending {o : CliOpt} (hv : Valued o) (st : CliState) :
    cliLong (longName o).toList st = .ok (st, some o) := by
  unfold cliLong
  rw [splitEq_plain _ (longName_no_equals o)]
  simp only [find_long, (valued_iff o).2 hv, if_true]

/-! ## Accepted command lines -/

theorem plain_of_not {v : Str} (h1 : ∀ w, v ≠ '-' :: '-' :: w) (h2 : ∀ c w, v ≠ '-' :: c :: w) : PlainWord v := by
  match v with
  | [] => exact Or.inr fun r => by simp
  | [c] =>
    by_cases hc : c = '-'
    · subst hc; exact Or.inl rfl
    · exact Or.inr fun r h => hc (by simpa using (List.cons.inj h).1)
  | c :: d :: w =>
    by_cases hc : c = '-'
    · subst hc; exact absurd rfl (h2 d w)
    · exact Or.inr fun r h => hc (by simpa using (List.cons.inj h).1)

theorem loop_written (ws : List Str) :
    (∀ st st', cliLoop none ws st = .ok st' → ∃ ss, Written ws ss ∧ applyAll ss st = .ok st') ∧
    (∀ o st st', cliLoop (some o) ws st = .ok st' → ∃ v rest ss, ws = v :: rest ∧ PlainWord v ∧ Written rest ss ∧
      applyAll ((o, some v) :: ss) st = .ok st') := by
  induction ws with
  | nil =>
    constructor
    · intro st st' h
      simp [cliLoop] at h
      exact ⟨[], .nil, by simp [applyAll, h]⟩
    · intro o st st' h
      simp [cliLoop] at h
  | cons w rest ih =>
    have key : ∀ st1 p st', cliLoop p rest st1 = .ok st' →
        (p = none ∧ ∃ ss, Written rest ss ∧ applyAll ss st1 = .ok st') ∨
        (∃ o v rest' ss, p = some o ∧ rest = v :: rest' ∧ PlainWord v ∧ Written rest' ss ∧
          applyAll ((o, some v) :: ss) st1 = .ok st') := by
      intro st1 p st' h
      cases p with
      | none => exact Or.inl ⟨rfl, ih.1 _ _ h⟩
      | some o =>
        obtain ⟨v, rest', ss, h1, h2, h3, h4⟩ := ih.2 _ _ _ h
        exact Or.inr ⟨o, v, rest', ss, rfl, h1, h2, h3, h4⟩
    constructor
    · intro st st' h
      by_cases hstop : w = "--".toList
      · subst hstop
        rw [cliLoop_stop] at h
        split at h
        · next hh =>
          obtain ⟨_, rfl⟩ := hh
          exact ⟨[], .stop, h⟩
        · cases h
      by_cases hlong : ∃ l, w = '-' :: '-' :: l
      · obtain ⟨l, rfl⟩ := hlong
        have hl : l ≠ [] := by rintro rfl; exact hstop rfl
        rw [cliLoop_long hl] at h
        split at h
        · next st1 p heq =>
          rcases long_ok heq with ⟨o, rfl, hv, hw, hr⟩ | ⟨o, v, rfl, hv, hw, hr⟩ | ⟨o, rfl, hv, hw, rfl⟩
          · obtain ⟨ss, h1, h2⟩ := ih.1 _ _ h
            refine ⟨_, ?_, (by simp only [applyAll, hr]; exact h2 : applyAll ((o, none) :: ss) st = .ok st')⟩
            have := Written.flag hv h1
            rw [String.toList_append] at this
            rw [hw]; exact this
          · obtain ⟨ss, h1, h2⟩ := ih.1 _ _ h
            refine ⟨_, ?_, (by simp only [applyAll, hr]; exact h2 : applyAll ((o, some v) :: ss) st = .ok st')⟩
            have := Written.equals (v := v) hv h1
            rw [String.toList_append, String.toList_append] at this
            rw [hw]
            simpa using this
          · obtain ⟨v, rest', ss, rfl, h2, h3, h4⟩ := ih.2 _ _ _ h
            refine ⟨_, ?_, h4⟩
            have := Written.next hv h2 h3
            rw [String.toList_append] at this
            rw [hw]; exact this
        · cases h
      by_cases hshort : ∃ c l, w = '-' :: c :: l
      · obtain ⟨c, l, rfl⟩ := hshort
        have hc : c ≠ '-' := by rintro rfl; exact hlong ⟨l, rfl⟩
        rw [cliLoop_short hc] at h
        split at h
        · next st1 p heq =>
          rcases shorts_ok (by simp) heq with ⟨rfl, gs, hg, ha⟩ | ⟨o, gs, rfl, hg, ha⟩
          · obtain ⟨ss, h1, h2⟩ := ih.1 _ _ h
            exact ⟨gs ++ ss, by simpa using Written.group hg h1, by rw [applyAll_append, ha]; exact h2⟩
          · obtain ⟨v, rest', ss, rfl, h2, h3, h4⟩ := ih.2 _ _ _ h
            refine ⟨(gs ++ [(o, some v)]) ++ ss, by simpa using Written.group (hg v h2) h3, ?_⟩
            rw [List.append_assoc, applyAll_append, ha]
            exact h4
        · cases h
      · exfalso
        unfold cliLoop at h
        simp only at h
        split at h
        · exact hstop rfl
        · exact hlong ⟨_, rfl⟩
        · exact hshort ⟨_, _, rfl⟩
        · cases h
    · intro o st st' h
      have hp : PlainWord w := by
        apply plain_of_not
        · rintro l rfl
          cases l with
          | nil =>
            have := cliLoop_stop (some o) rest st
            simp only [reduceCtorEq, false_and, if_false] at this
            have h' : cliLoop (some o) (['-', '-'] :: rest) st = .ok st' := h
            rw [show (['-', '-'] : Str) = "--".toList from rfl, this] at h'
            cases h'
          | cons => unfold cliLoop at h; simp at h
        · rintro c l rfl
          unfold cliLoop at h
          simp only at h
          split at h <;> first | (cases h) | simp_all
      rw [cliLoop_value hp] at h
      split at h
      · next st1 hr =>
        obtain ⟨ss, h1, h2⟩ := ih.1 _ _ h
        exact ⟨w, rest, ss, rfl, hp, h1, by simp only [applyAll, hr]; exact h2⟩
      · cases h

theorem written_loop {ws : List Str} {ss : List GivenOption} (h : Written ws ss) (st : CliState) {st' : CliState}
    (ha : applyAll ss st = .ok st') : cliLoop none ws st = .ok st' := by
  induction h generalizing st with
  | nil => simpa [cliLoop, applyAll] using ha
  | stop => rw [cliLoop_stop]; simpa [applyAll] using ha
  | @flag o rest ss hv hr ih =>
    rw [String.toList_append]
    show cliLoop none (('-' :: '-' :: (longName o).toList) :: rest) st = _
    rw [cliLoop_long (longName_nonempty o), long_flag hv]
    simp only [applyAll] at ha
    cases hc : cliReact o none st with
    | error e => rw [hc] at ha; cases ha
    | ok st1 => rw [hc] at ha; exact ih st1 ha
  | @equals o v rest ss hv hr ih =>
    rw [String.toList_append, String.toList_append]
    have e : ("--".toList ++ (longName o).toList ++ "=".toList ++ v) =
      '-' :: '-' :: ((longName o).toList ++ '=' :: v) := by simp
    rw [e, cliLoop_long (by simp), long_equals hv]
    simp only [applyAll] at ha
    cases hc : cliReact o (some v) st with
    | error e => rw [hc] at ha; cases ha
    | ok st1 => rw [hc] at ha; exact ih st1 ha
  | @next o v rest ss hv hp hr ih =>
    rw [String.toList_append]
    show cliLoop none (('-' :: '-' :: (longName o).toList) :: v :: rest) st = _
    rw [cliLoop_long (longName_nonempty o), long_pending hv]
    simp only
    rw [cliLoop_value hp]
    simp only [applyAll] at ha
    cases hc : cliReact o (some v) st with
    | error e => rw [hc] at ha; cases ha
    | ok st1 => rw [hc] at ha; exact ih st1 ha
  | @group letters gs vs rest ss hg hr ih =>
    rw [applyAll_append] at ha
    cases hga : applyAll gs st with
    | error e => rw [hga] at ha; cases ha
    | ok st1 =>
      rw [hga] at ha
      obtain ⟨c, cs, hcs, hc⟩ := group_nonempty hg
      rw [hcs, cliLoop_short hc, ← hcs]
      rcases group_reads hg st hga with ⟨rfl, h1⟩ | ⟨v, o, st2, rfl, hp, h1, h2⟩
      · rw [h1]; exact ih st1 ha
      · rw [h1]
        simp only [List.cons_append, List.nil_append]
        rw [cliLoop_value hp, h2]
        exact ih st1 ha

end Bcalc
