import Verif.Proof.CalculatorCommand
import Verif.Props.Conversation

/-! # C106 The calculator on one page -/

namespace Bcalc
open Spec

theorem Spec.StartsAs.follows {s : Session} {c : Calculator} (h : StartsAs s c) : Follows c s := by
  refine ⟨h.settings, h.store, h.values, ?_⟩
  rcases h.saved with ⟨h1, h2⟩ | ⟨sd, ops, h1, h2, h3, h4⟩
  · rw [h1, h2]; trivial
  · rw [h1, h4]
    exact ⟨by rw [h3]; exact rep_after ops, h2, ops, h3⟩

theorem Follows.undisturbed {s : Session} {c : Calculator} (h : Follows c s) : Undisturbed s := by
  have hsv := h.saved
  refine ⟨h.store, fun sd hd => ?_, fun sd hd => ?_⟩
  all_goals
    rw [hd] at hsv
    cases hc : c.saved with
    | none => rw [hc] at hsv; exact hsv.elim
    | some st => rw [hc] at hsv; first | exact hsv.2.2 | exact hsv.2.1

theorem Follows.resembles {s : Session} {c : Calculator} (h : Follows c s) : Resembles s c := by
  have hsv := h.saved
  refine ⟨h.settings, h.values, ?_, fun sd st hd hc => ?_⟩
  · have := h.dbSome
    cases hc : c.saved <;> cases hd : s.db <;> rw [hc, hd] at this <;> simp_all
  · rw [hd, hc] at hsv
    refine ⟨?_, hsv.1.wf.hcap, fun x q => hsv.1.stored x q⟩
    exact hsv.1.historyOf

theorem sim_dialogue {m : Machine} (hm : HashOk m) {s s' : Session} {talk : List (Str × Outcome Failure Str)}
    (hd : Dialogue m table s talk s') : ∀ {c : Calculator}, Follows c s → ValidSettings s.args →
    (∀ p ∈ talk, (∀ k, p.2 ≠ .panic k) ∧ p.2 ≠ .diverge) →
    ∃ c', Converses (evaluator m) c talk c' ∧ Follows c' s' := by
  induction hd with
  | done => intro c hf _ _; exact ⟨c, .done, hf⟩
  | @line s hist line r s1 talk t hcur he hd ih =>
    intro c hf hv hok
    have hf' : Follows c { s with inputs := some hist } := ⟨hf.settings, hf.store, hf.values, hf.saved⟩
    obtain ⟨h1, h2⟩ := hok (line, r) (by simp)
    obtain ⟨c1, h3, h4⟩ := sim_step hm (hf.undisturbed.ready hcur) hf' hv he h1 h2
    have hv1 := C62_session m table new_table _ _ (.input (line := line) .now) (show ValidSettings { s with inputs := some hist }.args from hv)
    rw [he] at hv1
    obtain ⟨c', h5, h6⟩ := ih h4 hv1 fun p hp => hok p (by simp [hp])
    exact ⟨c', .line h3 h5, h6⟩

/-- The lines of any session, given one after the other, are answered as the calculator on one page answers them, and
the session is in the end as this calculator is in the end. -/
theorem C106_dialogue (m : Machine) (hm : HashOk m) : ∃ E : Evaluator, ∀ (ce : CommandExecutor) (_ : CommandExecutor.new = .ok ce)
    (s s' : Session) (c : Calculator) (_ : StartsAs s c) (_ : ValidSettings s.args) (talk : List (Str × Outcome Failure Str))
    (_ : Dialogue m ce s talk s') (_ : ∀ p ∈ talk, (∀ k, p.2 ≠ .panic k) ∧ p.2 ≠ .diverge),
    ∃ c', Converses E c talk c' ∧ Resembles s' c' := by
  refine ⟨evaluator m, fun ce hce s s' c hb hv talk hd hok => ?_⟩
  obtain rfl := new_eq_table hce
  obtain ⟨c', h1, h2⟩ := sim_dialogue hm hd hb.follows hv hok
  exact ⟨c', h1, h2.resembles⟩

/-- Every session that nobody disturbs begins as some such calculator. -/
theorem C106_begins (s : Session) (hs : Undisturbed s) : ∃ c, StartsAs s c := by
  cases hd : s.db with
  | none => exact ⟨⟨s.args, sessionValue s, none⟩, rfl, hs.vars, fun _ => rfl, .inl ⟨hd, rfl⟩⟩
  | some sd =>
    obtain ⟨ops, hops⟩ := hs.reachable sd hd
    exact ⟨⟨s.args, sessionValue s, some (storeAfter ops)⟩, rfl, hs.vars, fun _ => rfl,
      .inr ⟨sd, ops, hd, hs.quiet sd hd, hops, rfl⟩⟩

/-- At the keyboard: whatever keys are pressed, the answers that are printed are those of the calculator on one page to
the lines that were entered. -/
theorem C106_keyboard (m : Machine) (hm : HashOk m) : ∃ E : Evaluator, ∀ (ce : CommandExecutor) (_ : CommandExecutor.new = .ok ce)
    (e e' : Editor) (_ : Awaits m ce e) (c : Calculator) (_ : StartsAs e.session c) (_ : ValidSettings e.args)
    (evs : List (Event × TermInfo)) (outs : List StepOut) (_ : runEvents m ce e evs = .ok (outs, e')),
    ∃ talk c', talk.map (·.1) = enteredLines m ce e evs ∧ talk.map (shown ·.2) = (outs.filterMap (·.output)).map .ok ∧
      Converses E c talk c' ∧ Resembles e'.session c' := by
  refine ⟨evaluator m, fun ce hce e e' ha c hb hv evs outs hr => ?_⟩
  obtain rfl := new_eq_table hce
  obtain ⟨s', h1, h2⟩ := C103_session m table e e' ha hb.follows.undisturbed.quiet evs outs hr
  obtain ⟨talk, h3, h4, h5⟩ := converse_dialogue _ rfl h1
  have hok : ∀ p ∈ talk, (∀ k, p.2 ≠ .panic k) ∧ p.2 ≠ .diverge := by
    intro p hp
    have : shown p.2 ∈ talk.map (shown ·.2) := List.mem_map.2 ⟨p, hp, rfl⟩
    rw [h5] at this
    obtain ⟨a, _, ha⟩ := List.mem_map.1 this
    constructor
    · intro k hk; rw [hk] at ha; cases ha
    · intro hk; rw [hk] at ha; cases ha
  obtain ⟨c', h6, h7⟩ := sim_dialogue hm h3 hb.follows hv hok
  refine ⟨talk, c', h4, h5, h6, ?_⟩
  have h8 := h7.resembles
  refine ⟨h2.args.trans h8.settings, fun x => ?_, ?_, fun sd st hd hc => ?_⟩
  · rw [← h8.values x]; unfold sessionValue; rw [h2.vars]
  · rw [← h8.none]
    have := h2.saved
    cases he : e'.session.db <;> cases hs : s'.db <;> rw [he, hs] at this <;> simp_all
  · have := h2.saved
    rw [hd] at this
    cases hs : s'.db with
    | none => rw [hs] at this; cases this
    | some sd' =>
      rw [hs] at this
      simp only [Option.map_some, Option.some.injEq] at this
      rw [this]
      exact h8.saved sd' st hs hc

/-- A saved variable is found and used, the capacity is changed, the variable is purged, a line is
refused, a saved variable that none of the kept inputs used is gone, and the radix is changed. -/
def exPage : List Str := ["$x * 6".toList, "$y = $x + 1".toList, "/histcap 3".toList, "/purgevar $x".toList, "$x".toList,
  "/reloadvar $y $x".toList, "/radix 16".toList, "ff + $y".toList]

example : HashOk exForward ∧ ValidSettings exFresh.args := by
  refine ⟨fun l => List.Perm.refl _, ?_⟩
  exact exDefault_valid

example : StartsAs exFresh ⟨.default, fun _ => none, some (storeAfter
      [.add "$x = 2/3".toList, .setVar ⟨"$x".toList, 2 / 3⟩ 1, .setCap 2])⟩ :=
  ⟨rfl, rfl, fun _ => rfl, .inr ⟨_, _, rfl, rfl, rfl, rfl⟩⟩

example : Dialogue exForward table exFresh (exTalk exForward exFresh exPage).1 (exTalk exForward exFresh exPage).2 :=
  exTalk_dialogue _ _ _

example : (exTalk exForward exFresh exPage).1.map (·.2) = [.ok "4".toList, .ok "1.66667".toList, .ok "Done".toList,
      .ok "Done".toList, .err (.input "Unknown variable: $x".toList (some ⟨0, 2⟩)),
      .ok "$y unchanged\n$x unchanged".toList, .ok "Done".toList, .ok "100.aaaab".toList] := by
  decide +kernel

end Bcalc
