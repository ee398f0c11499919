import Verif.Proof.Cli
import Mathlib.Data.List.Induction
import Mathlib.Data.List.Nodup

/-! # Lemmas about the meaning of the options -/

namespace Bcalc

open Spec

/-- Before any option. -/
def cliInit : CliState := { args := Args.default, input := none, seen := [] }

theorem numberIs_other {ss : List GivenOption} {o o' : CliOpt} (h : o ≠ o') {v : Option Str} {lo hi : Int} {d n : Nat}
    (hn : NumberIs ss o lo hi d n) : NumberIs (ss ++ [(o', v)]) o lo hi d n := by
  rcases hn with ⟨t, h1, h2⟩ | ⟨h1, h2⟩
  · exact Or.inl ⟨t, by simp [h1], h2⟩
  · exact Or.inr ⟨fun t => by simp [h1 t, h], h2⟩

theorem numberIs_new {ss : List GivenOption} {o : CliOpt} {t : Str} {lo hi : Int} {d n : Nat}
    (h : InRange lo hi t n) : NumberIs (ss ++ [(o, some t)]) o lo hi d n :=
  Or.inl ⟨t, by simp, h⟩

theorem means_init : Means [] Args.default none := by
  constructor <;> simp [NumberIs, Args.default]

theorem once_snoc {ss : List GivenOption} {o : CliOpt} {v : Option Str} (h : (ss.map (·.1)).Nodup)
    (ho : o ∉ ss.map (·.1)) : ((ss ++ [(o, v)]).map (·.1)).Nodup := by
  rw [List.map_append, List.nodup_append]
  refine ⟨h, by simp, ?_⟩
  intro a ha b hb
  simp only [List.map_cons, List.map_nil, List.mem_singleton] at hb
  subst hb
  rintro rfl
  exact ho ha

theorem noInfo_snoc {ss : List GivenOption} {o : CliOpt} {v : Option Str} (h1 : CliOpt.help ≠ o) (h2 : CliOpt.version ≠ o)
    (h : ∀ t, (CliOpt.help, t) ∉ ss ∧ (CliOpt.version, t) ∉ ss) :
    ∀ t, (CliOpt.help, t) ∉ ss ++ [(o, v)] ∧ (CliOpt.version, t) ∉ ss ++ [(o, v)] := by
  intro t
  simp [h t, h1, h2]

theorem conv_other {ss : List GivenOption} {o : CliOpt} {v : Option Str} (ho : CliOpt.convertToRadix ≠ o) {x : Option Nat}
    (h : (∃ t n, (CliOpt.convertToRadix, some t) ∈ ss ∧ InRange 1 16 t n ∧ x = some n) ∨
      ((∀ t, (CliOpt.convertToRadix, t) ∉ ss) ∧ x = none)) :
    (∃ t n, (CliOpt.convertToRadix, some t) ∈ ss ++ [(o, v)] ∧ InRange 1 16 t n ∧ x = some n) ∨
      ((∀ t, (CliOpt.convertToRadix, t) ∉ ss ++ [(o, v)]) ∧ x = none) := by
  rcases h with ⟨t, n, h1, h2⟩ | ⟨h1, h2⟩
  · exact Or.inl ⟨t, n, by simp [h1], h2⟩
  · exact Or.inr ⟨fun t => by simp [h1 t, ho], h2⟩

theorem input_other {ss : List GivenOption} {o : CliOpt} {v : Option Str} (ho : CliOpt.input ≠ o) {x : Option Str}
    (h : (∃ t, (CliOpt.input, some t) ∈ ss ∧ x = some t) ∨ ((∀ t, (CliOpt.input, t) ∉ ss) ∧ x = none)) :
    (∃ t, (CliOpt.input, some t) ∈ ss ++ [(o, v)] ∧ x = some t) ∨
      ((∀ t, (CliOpt.input, t) ∉ ss ++ [(o, v)]) ∧ x = none) := by
  rcases h with ⟨t, h1, h2⟩ | ⟨h1, h2⟩
  · exact Or.inl ⟨t, by simp [h1], h2⟩
  · exact Or.inr ⟨fun t => by simp [h1 t, ho], h2⟩

theorem flag_other {ss : List GivenOption} {o o' : CliOpt} {v : Option Str} (ho : o ≠ o') {b : Bool}
    (h : b = true ↔ (o, none) ∈ ss) : b = true ↔ (o, none) ∈ ss ++ [(o', v)] := by
  rw [h]; simp [ho]

theorem flag_new {ss : List GivenOption} {o : CliOpt} : true = true ↔ (o, (none : Option Str)) ∈ ss ++ [(o, none)] := by
  simp

theorem react_means {ss : List GivenOption} {st st' : CliState} {o : CliOpt} {v : Option Str}
    (hm : Means ss st.args st.input) (hs : st.seen = (ss.map (·.1)).reverse) (h : cliReact o v st = .ok st') :
    Means (ss ++ [(o, v)]) st'.args st'.input ∧ st'.seen = ((ss ++ [(o, v)]).map (·.1)).reverse := by
  unfold cliReact at h
  split at h
  · cases h
  next ho =>
  have ho' : o ∉ ss.map (·.1) := by rw [hs] at ho; simpa using ho
  have hnot : ∀ t, (o, t) ∉ ss := fun t ht => ho' (List.mem_map.2 ⟨_, ht, rfl⟩)
  obtain ⟨st1, h1, rfl⟩ := map_ok h
  obtain ⟨m1, m2, m3, m4, m5, m6, m7, m8, m9, m10, m11, m12⟩ := hm
  have hseen : ∀ st1 : CliState, st1.seen = st.seen → o :: st1.seen = ((ss ++ [(o, v)]).map (·.1)).reverse := by
    intro st1 h2; rw [h2, hs]; simp
  cases v with
  | some t =>
    cases o <;> simp only [cliStore, reduceCtorEq] at h1
    case radix =>
      obtain ⟨n, hn, rfl⟩ := map_ok h1
      have hr := (cliNumber_iff (by decide) _ _).1 hn
      exact ⟨⟨once_snoc m1 ho', noInfo_snoc (by decide) (by decide) m2, numberIs_new hr, numberIs_other (by decide) m4, numberIs_other (by decide) m5,
        conv_other (by decide) m6, input_other (by decide) m7,
        flag_other (by decide) m8, flag_other (by decide) m9, flag_other (by decide) m10, flag_other (by decide) m11, flag_other (by decide) m12⟩, hseen _ rfl⟩
    case input =>
      injection h1 with h1
      subst h1
      exact ⟨⟨once_snoc m1 ho', noInfo_snoc (by decide) (by decide) m2, numberIs_other (by decide) m3, numberIs_other (by decide) m4, numberIs_other (by decide) m5,
        conv_other (by decide) m6, Or.inl ⟨t, by simp, rfl⟩,
        flag_other (by decide) m8, flag_other (by decide) m9, flag_other (by decide) m10, flag_other (by decide) m11, flag_other (by decide) m12⟩, hseen _ rfl⟩
    case convertToRadix =>
      obtain ⟨n, hn, rfl⟩ := map_ok h1
      have hr := (cliNumber_iff (by decide) _ _).1 hn
      exact ⟨⟨once_snoc m1 ho', noInfo_snoc (by decide) (by decide) m2, numberIs_other (by decide) m3, numberIs_other (by decide) m4, numberIs_other (by decide) m5,
        Or.inl ⟨t, n, by simp, hr, rfl⟩, input_other (by decide) m7,
        flag_other (by decide) m8, flag_other (by decide) m9, flag_other (by decide) m10, flag_other (by decide) m11, flag_other (by decide) m12⟩, hseen _ rfl⟩
    case precision =>
      obtain ⟨n, hn, rfl⟩ := map_ok h1
      have hr := (cliNumber_iff (by decide) _ _).1 hn
      exact ⟨⟨once_snoc m1 ho', noInfo_snoc (by decide) (by decide) m2, numberIs_other (by decide) m3, numberIs_new hr, numberIs_other (by decide) m5,
        conv_other (by decide) m6, input_other (by decide) m7,
        flag_other (by decide) m8, flag_other (by decide) m9, flag_other (by decide) m10, flag_other (by decide) m11, flag_other (by decide) m12⟩, hseen _ rfl⟩
    case extraPrecision =>
      obtain ⟨n, hn, rfl⟩ := map_ok h1
      have hr := (cliNumber_iff (by decide) _ _).1 hn
      exact ⟨⟨once_snoc m1 ho', noInfo_snoc (by decide) (by decide) m2, numberIs_other (by decide) m3, numberIs_other (by decide) m4, numberIs_new hr,
        conv_other (by decide) m6, input_other (by decide) m7,
        flag_other (by decide) m8, flag_other (by decide) m9, flag_other (by decide) m10, flag_other (by decide) m11, flag_other (by decide) m12⟩, hseen _ rfl⟩
  | none =>
    cases o <;> simp only [cliFlag, reduceCtorEq] at h1
    case alternateScreen =>
      injection h1 with h1
      subst h1
      exact ⟨⟨once_snoc m1 ho', noInfo_snoc (by decide) (by decide) m2, numberIs_other (by decide) m3, numberIs_other (by decide) m4, numberIs_other (by decide) m5,
        conv_other (by decide) m6, input_other (by decide) m7,
        flag_new, flag_other (by decide) m9, flag_other (by decide) m10, flag_other (by decide) m11, flag_other (by decide) m12⟩, hseen _ rfl⟩
    case noDb =>
      injection h1 with h1
      subst h1
      exact ⟨⟨once_snoc m1 ho', noInfo_snoc (by decide) (by decide) m2, numberIs_other (by decide) m3, numberIs_other (by decide) m4, numberIs_other (by decide) m5,
        conv_other (by decide) m6, input_other (by decide) m7,
        flag_other (by decide) m8, flag_new, flag_other (by decide) m10, flag_other (by decide) m11, flag_other (by decide) m12⟩, hseen _ rfl⟩
    case fractional =>
      injection h1 with h1
      subst h1
      exact ⟨⟨once_snoc m1 ho', noInfo_snoc (by decide) (by decide) m2, numberIs_other (by decide) m3, numberIs_other (by decide) m4, numberIs_other (by decide) m5,
        conv_other (by decide) m6, input_other (by decide) m7,
        flag_other (by decide) m8, flag_other (by decide) m9, flag_new, flag_other (by decide) m11, flag_other (by decide) m12⟩, hseen _ rfl⟩
    case commas =>
      injection h1 with h1
      subst h1
      exact ⟨⟨once_snoc m1 ho', noInfo_snoc (by decide) (by decide) m2, numberIs_other (by decide) m3, numberIs_other (by decide) m4, numberIs_other (by decide) m5,
        conv_other (by decide) m6, input_other (by decide) m7,
        flag_other (by decide) m8, flag_other (by decide) m9, flag_other (by decide) m10, flag_new, flag_other (by decide) m12⟩, hseen _ rfl⟩
    case upper =>
      injection h1 with h1
      subst h1
      exact ⟨⟨once_snoc m1 ho', noInfo_snoc (by decide) (by decide) m2, numberIs_other (by decide) m3, numberIs_other (by decide) m4, numberIs_other (by decide) m5,
        conv_other (by decide) m6, input_other (by decide) m7,
        flag_other (by decide) m8, flag_other (by decide) m9, flag_other (by decide) m10, flag_other (by decide) m11, flag_new⟩, hseen _ rfl⟩

theorem applyAll_means {ss : List GivenOption} {st : CliState} (h : applyAll ss cliInit = .ok st) :
    Means ss st.args st.input ∧ st.seen = (ss.map (·.1)).reverse := by
  induction ss using List.reverseRecOn generalizing st with
  | nil =>
    simp only [applyAll] at h
    injection h with h
    subst h
    exact ⟨means_init, rfl⟩
  | append_singleton xs x ih =>
    rw [applyAll_append] at h
    split at h
    · next st1 h1 =>
      obtain ⟨h2, h3⟩ := ih h1
      obtain ⟨o, v⟩ := x
      rw [applyAll_single] at h
      exact react_means h2 h3 h
    · cases h

theorem eq_of_once {ss : List GivenOption} (h : (ss.map (·.1)).Nodup) {o : CliOpt} {a b : Option Str}
    (ha : (o, a) ∈ ss) (hb : (o, b) ∈ ss) : a = b := by
  have := List.inj_on_of_nodup_map h ha hb rfl
  exact (Prod.mk.inj this).2

theorem numberIs_unique {ss : List GivenOption} (h : (ss.map (·.1)).Nodup) {o : CliOpt} {lo hi : Int} {d a b : Nat}
    (ha : NumberIs ss o lo hi d a) (hb : NumberIs ss o lo hi d b) : a = b := by
  rcases ha with ⟨t, h1, h2⟩ | ⟨h1, h2⟩ <;> rcases hb with ⟨t', h1', h2'⟩ | ⟨h1', h2'⟩
  · have := eq_of_once h h1 h1'
    injection this with this
    subst this
    exact inRange_unique h2 h2'
  · exact absurd h1 (h1' _)
  · exact absurd h1' (h1 _)
  · rw [h2, h2']

theorem means_unique {ss : List GivenOption} {a a' : Args} {l l' : Option Str} (h : Means ss a l) (h' : Means ss a' l') :
    a = a' ∧ l = l' := by
  obtain ⟨m1, m2, m3, m4, m5, m6, m7, m8, m9, m10, m11, m12⟩ := h
  obtain ⟨n1, n2, n3, n4, n5, n6, n7, n8, n9, n10, n11, n12⟩ := h'
  have e3 := numberIs_unique m1 m3 n3
  have e4 := numberIs_unique m1 m4 n4
  have e5 := numberIs_unique m1 m5 n5
  have e6 : a.convertToRadix = a'.convertToRadix := by
    rcases m6 with ⟨t, n, h1, h2, h3⟩ | ⟨h1, h2⟩ <;> rcases n6 with ⟨t', n', h1', h2', h3'⟩ | ⟨h1', h2'⟩
    · have := eq_of_once m1 h1 h1'
      injection this with this
      subst this
      rw [h3, h3', inRange_unique h2 h2']
    · exact absurd h1 (h1' _)
    · exact absurd h1' (h1 _)
    · rw [h2, h2']
  have e7 : l = l' := by
    rcases m7 with ⟨t, h1, h2⟩ | ⟨h1, h2⟩ <;> rcases n7 with ⟨t', h1', h2'⟩ | ⟨h1', h2'⟩
    · have := eq_of_once m1 h1 h1'
      rw [h2, h2', this]
    · exact absurd h1 (h1' _)
    · exact absurd h1' (h1 _)
    · rw [h2, h2']
  have b8 := Bool.eq_iff_iff.2 (m8.trans n8.symm)
  have b9 := Bool.eq_iff_iff.2 (m9.trans n9.symm)
  have b10 := Bool.eq_iff_iff.2 (m10.trans n10.symm)
  have b11 := Bool.eq_iff_iff.2 (m11.trans n11.symm)
  have b12 := Bool.eq_iff_iff.2 (m12.trans n12.symm)
  refine ⟨?_, e7⟩
  cases a; cases a'
  simp only at *
  subst e3 e4 e5 e6 b8 b9 b10 b11 b12
  rfl

theorem group_wellFormed {cs : Str} {gs : List GivenOption} {vs : List Str} (h : Group cs gs vs) :
    ∀ x ∈ gs, (x.2 = none ∧ ¬ Valued x.1) ∨ (∃ t, x.2 = some t ∧ Valued x.1) := by
  induction h with
  | flag _ hv => simpa using hv
  | more _ hv _ ih =>
    intro x hx
    rcases List.mem_cons.1 hx with rfl | hx
    · exact Or.inl ⟨rfl, hv⟩
    · exact ih x hx
  | attached _ hv => simpa using hv
  | equals _ hv => simpa using hv
  | next _ hv => simpa using hv

theorem written_wellFormed {ws : List Str} {ss : List GivenOption} (h : Written ws ss) :
    ∀ x ∈ ss, (x.2 = none ∧ ¬ Valued x.1) ∨ (∃ t, x.2 = some t ∧ Valued x.1) := by
  induction h with
  | nil => simp
  | stop => simp
  | flag hv _ ih =>
    intro x hx
    rcases List.mem_cons.1 hx with rfl | hx
    · exact Or.inl ⟨rfl, hv⟩
    · exact ih x hx
  | equals hv _ ih =>
    intro x hx
    rcases List.mem_cons.1 hx with rfl | hx
    · exact Or.inr ⟨_, rfl, hv⟩
    · exact ih x hx
  | next hv _ _ ih =>
    intro x hx
    rcases List.mem_cons.1 hx with rfl | hx
    · exact Or.inr ⟨_, rfl, hv⟩
    · exact ih x hx
  | group hg _ ih =>
    intro x hx
    rcases List.mem_append.1 hx with hx | hx
    · exact group_wellFormed hg x hx
    · exact ih x hx

theorem number_given {ss : List GivenOption} (h : (ss.map (·.1)).Nodup) {o : CliOpt} {lo hi : Int} {d n : Nat} {t : Str}
    (hn : NumberIs ss o lo hi d n) (ht : (o, some t) ∈ ss) : InRange lo hi t n := by
  rcases hn with ⟨t', h1, h2⟩ | ⟨h1, _⟩
  · have := eq_of_once h ht h1
    injection this with this
    subst this
    exact h2
  · exact absurd ht (h1 _)

/-- Meaningful options are accepted one after the other. -/
theorem applyAll_ok {ss : List GivenOption} {args : Args} {line : Option Str} (hm : Means ss args line)
    (hw : ∀ x ∈ ss, (x.2 = none ∧ ¬ Valued x.1) ∨ (∃ t, x.2 = some t ∧ Valued x.1)) (pre post : List GivenOption)
    (hp : ss = pre ++ post) : ∃ st, applyAll pre cliInit = .ok st := by
  induction pre using List.reverseRecOn generalizing post with
  | nil => exact ⟨_, rfl⟩
  | append_singleton xs x ih =>
    obtain ⟨st, hst⟩ := ih (x :: post) (by rw [hp]; simp)
    obtain ⟨_, hseen⟩ := applyAll_means hst
    obtain ⟨o, v⟩ := x
    rw [applyAll_append, hst]
    simp only
    rw [applyAll_single]
    have hx : (o, v) ∈ ss := by rw [hp]; simp
    have ho : o ∉ st.seen := by
      rw [hseen]
      have h1 := hm.once
      rw [hp, List.append_assoc, List.map_append, List.nodup_append] at h1
      intro h2
      exact h1.2.2 o (by simpa using h2) o (by simp) rfl
    unfold cliReact
    rw [if_neg ho]
    have hnum : ∀ (lo hi : Int) (d n : Nat) (t : Str), 0 ≤ lo → NumberIs ss o lo hi d n → (o, some t) ∈ ss →
        cliNumber lo hi t = .ok n := by
      intro lo hi d n t hlo h1 h2
      exact (cliNumber_iff hlo _ _).2 (number_given hm.once h1 h2)
    rcases hw _ hx with ⟨h1, h2⟩ | ⟨t, h1, h2⟩
    · simp only at h1
      subst h1
      cases o <;> simp [Valued] at h2 <;> simp only [cliFlag] <;> try exact ⟨_, rfl⟩
      · exact absurd hx (hm.noInfo none).1
      · exact absurd hx (hm.noInfo none).2
    · simp only at h1
      subst h1
      cases o <;> simp [Valued] at h2 <;> simp only [cliStore]
      · rw [hnum 2 16 10 _ _ (by decide) hm.radix hx]; exact ⟨_, rfl⟩
      · exact ⟨_, rfl⟩
      · have : ∃ n, InRange 1 16 t n := by
          rcases hm.convertToRadix with ⟨t', n, h1, h2, _⟩ | ⟨h1, _⟩
          · have := eq_of_once hm.once hx h1
            injection this with this
            subst this
            exact ⟨n, h2⟩
          · exact absurd hx (h1 _)
        obtain ⟨n, hn⟩ := this
        rw [(cliNumber_iff (by decide) _ _).2 hn]; exact ⟨_, rfl⟩
      · rw [hnum 0 255 5 _ _ (by decide) hm.precision hx]; exact ⟨_, rfl⟩
      · rw [hnum 0 255 10 _ _ (by decide) hm.extraPrecision hx]; exact ⟨_, rfl⟩

/-- The loop accepts the command lines that mean something, and nothing else. -/
theorem cliLoop_iff (argv : List Str) (args : Args) (line : Option Str) :
    (∃ seen, cliLoop none argv cliInit = .ok ⟨args, line, seen⟩) ↔ ∃ ss, Written argv ss ∧ Means ss args line := by
  constructor
  · rintro ⟨seen, h⟩
    obtain ⟨ss, h1, h2⟩ := (loop_written argv).1 _ _ h
    exact ⟨ss, h1, (applyAll_means h2).1⟩
  · rintro ⟨ss, h1, h2⟩
    obtain ⟨st, hst⟩ := applyAll_ok h2 (written_wellFormed h1) ss [] (by simp)
    obtain ⟨e1, e2⟩ := means_unique h2 (applyAll_means hst).1
    refine ⟨st.seen, ?_⟩
    rw [e1, e2]
    exact written_loop h1 _ hst

end Bcalc
