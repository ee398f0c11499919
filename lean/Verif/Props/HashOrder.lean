import Verif.Proof.HashOrder2
import Verif.Props.Session

/-! # C67: results do not depend on the order in which sets are iterated -/

namespace Bcalc
open Spec

/-- One line, in a session with an input history (or without a database) that is alone at its database: the
session ends up the same, and the answer is the same or, for `/reloadvar`, has the same lines. -/
theorem C67_line (m m' : Machine) (hb : SameBuild m m') (ho : HashOk m) (ho' : HashOk m') (line : Str)
    (s s' : Session) (h : SameSession s s') (hq : Quiet s) (hq' : Quiet s')
    (hi : s.inputs.isSome = true ∨ s.db = none) (hr : ∀ sd, s.db = some sd → Reachable sd.db) :
    SameSession (calculate m table line s).2 (calculate m' table line s').2 ∧
    ((calculate m table line s).1 = (calculate m' table line s').1 ∨
      ∃ p arguments t t', tokenize line s.args.radix = .ok (.command ⟨"reloadvar".toList, p⟩ arguments) ∧
        (calculate m table line s).1 = .ok t ∧ (calculate m' table line s').1 = .ok t' ∧ SameLines t t') := by
  obtain ⟨h1, h2⟩ := calculate_same ⟨hb.1, hb.2⟩ ho ho' table line (SameSession.twins h hq hq') hi hr
  refine ⟨h2.same.1, ?_⟩
  rcases h1 with h1 | ⟨⟨⟨n, p⟩, arguments, ht, hres⟩, t, t', h3, h4, h5⟩
  · exact .inl h1
  · have hn : n = "reloadvar".toList := table_ok.1 _ hres
    subst hn
    exact .inr ⟨p, arguments, t, t', ht, h3, h4, h5⟩

theorem SameEditor.ed {e e' : Editor} (h : SameEditor e e') (hq : Quiet e.session) (hq' : Quiet e'.session)
    (hr : ∀ sd, e.db = some sd → Reachable sd.db) : EdSame e e' := by
  have ht := SameSession.twins h.session hq hq'
  exact ⟨ht.args, by simpa [Editor.session] using ht.inputs, h.cursorPos, h.scrollOffset, h.startRow, h.startCol,
    h.cols, h.inputComplete, ht.vars, ht.db, hr⟩

theorem EdSame.same {e e' : Editor} (h : EdSame e e') : SameEditor e e' :=
  ⟨(Twins.same (s := e.session) (s' := e'.session) ⟨h.args, by simp [Editor.session, h.inputs], h.vars, h.db⟩).1, h.cursorPos, h.scrollOffset,
    h.startRow, h.startCol, h.cols, h.inputComplete⟩

/-- Any events, from editors in the same state: the runs end in the same state and show the same except for
the order of lines in results, or they fail in the same way. -/
theorem C67_session (m m' : Machine) (hb : SameBuild m m') (ho : HashOk m) (ho' : HashOk m')
    (events : List (Event × TermInfo)) (e e' : Editor) (h : SameEditor e e') (hq : Quiet e.session)
    (hq' : Quiet e'.session) (hr : ∀ sd, e.db = some sd → Reachable sd.db) :
    (∃ outs outs' e1 e1', runEvents m table e events = .ok (outs, e1) ∧ runEvents m' table e' events = .ok (outs', e1') ∧
      List.Forall₂ SameStep outs outs' ∧ SameEditor e1 e1') ∨
    (∃ r, runEvents m table e events = .err r ∧ runEvents m' table e' events = .err r) ∨
    (∃ k, runEvents m table e events = .panic k ∧ runEvents m' table e' events = .panic k) ∨
    (runEvents m table e events = .diverge ∧ runEvents m' table e' events = .diverge) := by
  have hx := runEvents_same ⟨hb.1, hb.2⟩ ho ho' table events (SameEditor.ed h hq hq' hr)
  generalize runEvents m table e events = r at hx ⊢
  generalize runEvents m' table e' events = r' at hx ⊢
  rcases r with ⟨outs, e1⟩ | e | k | _ <;> rcases r' with ⟨outs', e1'⟩ | e' | k' | _
  all_goals first
    | exact hx.elim
    | skip
  · exact .inl ⟨outs, outs', e1, e1', rfl, rfl, hx.1, EdSame.same hx.2⟩
  · have : e = e' := hx
    subst this
    exact .inr (.inl ⟨e, rfl, rfl⟩)
  · have : k = k' := hx
    subst this
    exact .inr (.inr (.inl ⟨k, rfl, rfl⟩))
  · exact .inr (.inr (.inr ⟨rfl, rfl⟩))

/-- The start does not depend on the order at all, so the runs start from the same state. -/
theorem C67_start (m m' : Machine) (hb : SameBuild m m') (args : Args) (db : Option SavedData) (t : TermInfo) :
    Editor.start m args db t = Editor.start m' args db t := by
  unfold Editor.start
  exact draw_machine ⟨hb.1, hb.2⟩ _

/-! Two machines that iterate sets in opposite orders. -/

/-- The names in order of their last occurrence. -/
def exForward : Machine := ⟨true, 20, fun l => l.dedup⟩
/-- The other way round. -/
def exBackward : Machine := ⟨true, 20, fun l => l.dedup.reverse⟩

example : SameBuild exForward exBackward ∧ HashOk exForward ∧ HashOk exBackward :=
  ⟨⟨rfl, rfl⟩, fun _ => .refl _, fun _ => List.reverse_perm _⟩

/-- A database with two variables. -/
def exTwoVars : Db := after [.add "$a = 1".toList, .setVar ⟨"$a".toList, 1⟩ 1, .add "$b = 2/3".toList,
  .setVar ⟨"$b".toList, 2 / 3⟩ 2] newDb

/-- A session in which reloading both has just been typed. -/
def exReload : Session := {
  args := .default
  db := some ⟨exTwoVars, some 2, [], [exTwoVars]⟩
  inputs := some { InputHistory.new true with current := [some "/reloadvar $a $b".toList] }
  vars := some .new }

example : SameSession exReload exReload ∧ Quiet exReload ∧ exReload.inputs.isSome = true ∧
    ∀ sd, exReload.db = some sd → Reachable sd.db :=
  ⟨⟨rfl, rfl, rfl, fun _ => rfl, rfl, rfl⟩, fun sd h => by
    simp only [exReload, Option.some.injEq] at h; rw [← h], rfl, fun sd h => by
    simp only [exReload, Option.some.injEq] at h; rw [← h]; exact ⟨_, rfl⟩⟩

/-- The order of the lines does differ. -/
example : (calculate exForward table "/reloadvar $a $b".toList exReload).1 =
      .ok "Set $a to 1\nSet $b to 2/3".toList ∧
    (calculate exBackward table "/reloadvar $a $b".toList exReload).1 =
      .ok "Set $b to 2/3\nSet $a to 1".toList := by
  decide +kernel

/-- The saved data do not. -/
example : (calculate exForward table "/reloadvar $a $b".toList exReload).2.db.map (·.db) =
    (calculate exBackward table "/reloadvar $a $b".toList exReload).2.db.map (·.db) ∧
    (calculate exForward table "/reloadvar $a $b".toList exReload).2.db.map (·.db) ≠ some exTwoVars := by
  decide +kernel

/-- The same session, where the third operation on the database (the second reload) fails. -/
def exFailing : Session :=
  { exReload with db := some ⟨exTwoVars, some 2, [⟨[], false⟩, ⟨[], false⟩, ⟨[], true⟩], [exTwoVars]⟩ }

/-- Where the database fails on the way, the order is visible: which variable has been set before the
failure depends on it.  So the theorems need the session to be alone at a working database. -/
theorem C67_failure :
    (calculate exForward table "/reloadvar $a $b".toList exFailing).1 = .err (.runtime (.db .environment)) ∧
    sessionValue (calculate exForward table "/reloadvar $a $b".toList exFailing).2 "$a".toList = some 1 ∧
    sessionValue (calculate exBackward table "/reloadvar $a $b".toList exFailing).2 "$a".toList = none := by
  decide +kernel

end Bcalc
