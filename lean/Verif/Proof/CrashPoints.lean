import Verif.Spec.CrashPoints
import Verif.Proof.Scroll
import Verif.Proof.Loaded

/-! # What a session commits on the way -/

namespace Bcalc
open Spec

theorem partway_left (a b : Db) : Partway a b a := ⟨.inl rfl, fun _ => .inl fun _ => Iff.rfl⟩
theorem partway_right (a b : Db) : Partway a b b := ⟨.inr rfl, fun _ => .inr fun _ => Iff.rfl⟩

/-- Same history and variables. -/
def SameData (a b : Db) : Prop := historyOf b = historyOf a ∧ ∀ x, SameVariable x b a

theorem SameData.refl (a : Db) : SameData a a := ⟨rfl, fun _ _ => Iff.rfl⟩
theorem SameData.trans {a b c : Db} (h : SameData a b) (h' : SameData b c) : SameData a c :=
  ⟨h'.1.trans h.1, fun x q => (h'.2 x q).trans (h.2 x q)⟩
theorem SameData.symm {a b : Db} (h : SameData a b) : SameData b a :=
  ⟨h.1.symm, fun x q => (h.2 x q).symm⟩

theorem Spec.Partway.of_same {a b c : Db} (h : SameData a c) : Partway a b c :=
  ⟨.inl h.1, fun x => .inl (h.2 x)⟩
theorem Spec.Partway.of_same_right {a b c : Db} (h : SameData b c) : Partway a b c :=
  ⟨.inr h.1, fun x => .inr (h.2 x)⟩

theorem Spec.Partway.congr {a a' b b' c : Db} (ha : SameData a a') (hb : SameData b b')
    (h : Partway a b c) : Partway a' b' c := by
  refine ⟨?_, fun x => ?_⟩
  · rcases h.1 with h | h
    · exact .inl (h.trans ha.1.symm)
    · exact .inr (h.trans hb.1.symm)
  · rcases h.2 x with h | h
    · exact .inl fun q => (h q).trans (ha.2 x q).symm
    · exact .inr fun q => (h q).trans (hb.2 x q).symm

theorem same_touch (y : Str) (i : Int) (db : Db) : SameData db ((DbOp.touch y i).apply db) := by
  refine ⟨?_, fun x q => stored_touch y i db x q⟩
  unfold DbOp.apply touchVariableTx
  simp only
  rcases exec_commit _ db with h | h <;> rw [h]
  rfl

theorem same_evolves {a b : Db} (h : Evolves IsTouch a b) : SameData a b :=
  h.keeps (P := SameData a) (fun _ _ ho ih => by
    obtain ⟨y, i, rfl⟩ := ho
    exact ih.trans (same_touch _ _ _)) (SameData.refl _)

/-- A piece of a session alone at its database that commits no changes. -/
def Still (s s' : Session) : Prop :=
  ∀ sd, s.db = some sd → sd.env = [] → ∃ sd', s'.db = some sd' ∧ sd'.env = [] ∧
    SameData sd.db sd'.db ∧ ∃ new, sd'.commits = sd.commits ++ new ∧ ∀ c ∈ new, SameData sd.db c

/-- A piece of a session alone at its database that commits no mixtures. -/
def Gradual (s s' : Session) : Prop :=
  ∀ sd, s.db = some sd → sd.env = [] → ∃ sd', s'.db = some sd' ∧ sd'.env = [] ∧
    ∃ new, sd'.commits = sd.commits ++ new ∧ ∀ c ∈ new, Partway sd.db sd'.db c

theorem Still.refl (s : Session) : Still s s :=
  fun sd hd he => ⟨sd, hd, he, SameData.refl _, [], by simp, by simp⟩

theorem Still.gradual {s s' : Session} (h : Still s s') : Gradual s s' := by
  intro sd hd he
  obtain ⟨sd', hd', he', hs, new, hn, hc⟩ := h sd hd he
  exact ⟨sd', hd', he', new, hn, fun c hm => .of_same (hc c hm)⟩

theorem Still.trans {s1 s2 s3 : Session} (h : Still s1 s2) (h' : Still s2 s3) : Still s1 s3 := by
  intro sd hd he
  obtain ⟨sd2, hd2, he2, hs2, new, hn, hc⟩ := h sd hd he
  obtain ⟨sd3, hd3, he3, hs3, new', hn', hc'⟩ := h' sd2 hd2 he2
  refine ⟨sd3, hd3, he3, hs2.trans hs3, new ++ new', by rw [hn', hn, List.append_assoc], ?_⟩
  intro c hm
  rcases List.mem_append.1 hm with hm | hm
  · exact hc c hm
  · exact hs2.trans (hc' c hm)

theorem Still.then {s1 s2 s3 : Session} (h : Still s1 s2) (h' : Gradual s2 s3) : Gradual s1 s3 := by
  intro sd hd he
  obtain ⟨sd2, hd2, he2, hs2, new, hn, hc⟩ := h sd hd he
  obtain ⟨sd3, hd3, he3, new', hn', hc'⟩ := h' sd2 hd2 he2
  refine ⟨sd3, hd3, he3, new ++ new', by rw [hn', hn, List.append_assoc], ?_⟩
  intro c hm
  rcases List.mem_append.1 hm with hm | hm
  · exact .of_same (hc c hm)
  · exact (hc' c hm).congr hs2.symm (SameData.refl _)

theorem Gradual.then {s1 s2 s3 : Session} (h : Gradual s1 s2) (h' : Still s2 s3) : Gradual s1 s3 := by
  intro sd hd he
  obtain ⟨sd2, hd2, he2, new, hn, hc⟩ := h sd hd he
  obtain ⟨sd3, hd3, he3, hs3, new', hn', hc'⟩ := h' sd2 hd2 he2
  refine ⟨sd3, hd3, he3, new ++ new', by rw [hn', hn, List.append_assoc], ?_⟩
  intro c hm
  rcases List.mem_append.1 hm with hm | hm
  · exact (hc c hm).congr (SameData.refl _) hs3
  · exact .of_same_right (hs3.symm.trans (hc' c hm))

theorem SdRel.quiet_commits {own : DbOp → Prop} {a b : SavedData} (h : SdRel own a b) (hq : a.env = []) :
    ∃ new, b.commits = a.commits ++ new ∧ ∀ c ∈ new, Evolves own a.db c ∧ Evolves own c b.db := by
  obtain ⟨new, hn, hc⟩ := h.commits
  refine ⟨new, hn, fun c hm => ?_⟩
  have hmono : ∀ op, (Scheduled a op ∨ own op) → own op := by
    rintro op (ho | ho)
    · exact absurd ho (not_scheduled hq op)
    · exact ho
  exact ⟨(hc c hm).1.mono hmono, (hc c hm).2.mono hmono⟩

theorem OptRel.some_left {own : DbOp → Prop} {sd : SavedData} {o : Option SavedData}
    (h : OptRel own (some sd) o) : ∃ sd', o = some sd' ∧ SdRel own sd sd' := by
  cases o with
  | none => exact h.elim
  | some sd' => exact ⟨sd', rfl, h⟩

theorem still_of_rel {own : DbOp → Prop} (ho : ∀ op, own op → IsTouch op) {s s' : Session}
    (h : SessRel own s s') : Still s s' := by
  intro sd hd he
  unfold SessRel at h
  rw [hd] at h
  obtain ⟨sd', hd', hrel⟩ := (OptRel.mono ho h).some_left
  obtain ⟨new, hn, hc⟩ := hrel.quiet_commits he
  obtain ⟨he', hev⟩ := hrel.quiet he
  exact ⟨sd', hd', he', same_evolves hev, new, hn, fun c hm => same_evolves (hc c hm).1⟩

/-- One transaction. -/
theorem gradual_run {s s' : Session}
    (h : ∀ sd, s.db = some sd → ∃ (α : Type) (tx : Tx α), s'.db = some (sd.run tx).2) : Gradual s s' := by
  intro sd hd he
  obtain ⟨α, tx, hd'⟩ := h sd hd
  refine ⟨_, hd', ?_⟩
  rw [run_quiet he]
  rcases tx sd.db with ⟨a, db'⟩ | e | k | _
  · exact ⟨he, [db'], rfl, by simpa using partway_right _ _⟩
  all_goals exact ⟨he, [], by simp, by simp⟩

/-- Removing variables. -/
theorem gradual_clear {own : DbOp → Prop} (ho : ∀ op, own op → ∃ x, op = .clear x) {s s' : Session}
    (h : SessRel own s s') : Gradual s s' := by
  intro sd hd he
  unfold SessRel at h
  rw [hd] at h
  obtain ⟨sd', hd', hrel⟩ := h.some_left
  obtain ⟨new, hn, hc⟩ := hrel.quiet_commits he
  obtain ⟨he', hev⟩ := hrel.quiet he
  refine ⟨sd', hd', he', new, hn, fun c hm => ?_⟩
  obtain ⟨h1, h2⟩ := hc c hm
  have hist : ∀ x db, historyOf ((DbOp.clear x).apply db) = historyOf db := by
    intro x db
    unfold DbOp.apply clearVariableTx
    simp only
    rcases exec_commit _ db with h | h <;> rw [h]
    rfl
  refine ⟨.inl (h1.keeps (P := fun d => historyOf d = historyOf sd.db) (fun op d hop ih => by
    obtain ⟨x, rfl⟩ := ho op hop
    rw [hist, ih]) rfl), fun x => ?_⟩
  -- either it has not been removed yet, or it stays removed
  have key : SameVariable x c sd.db ∨ ∀ q, ¬ Stored c x q := by
    refine h1.keeps (P := fun d => SameVariable x d sd.db ∨ ∀ q, ¬ Stored d x q) ?_ (.inl fun _ => Iff.rfl)
    intro op d hop ih
    obtain ⟨y, rfl⟩ := ho op hop
    rcases ih with ih | ih
    · by_cases hxy : x = y
      · subst hxy
        unfold DbOp.apply clearVariableTx
        simp only
        rcases exec_commit (fun db => { db with vars := db.vars.filter fun v => v.name ≠ x }) d with h | h
        · right
          rw [h]
          rintro q ⟨r, hr, hn, _⟩
          simp only [List.mem_filter, decide_eq_true_eq] at hr
          exact hr.2 hn
        · rw [h]; exact .inl ih
      · exact .inl fun q => (stored_clear y d x q hxy).trans (ih q)
    · exact .inr fun q hq => ih q (stored_of_sublist (rows_clear y d) hq)
  rcases key with key | key
  · exact .inl key
  · right
    intro q
    refine ⟨fun hq => absurd hq (key q), fun hq => absurd ?_ (key q)⟩
    refine stored_evolves (kind := own) ?_ h2 hq
    rintro op hop ⟨v, i, rfl⟩
    obtain ⟨x, hx⟩ := ho _ hop
    cases hx

/-! ## The pieces of handling an input -/

theorem executeTree_gradual (m : Machine) (tree : SyntaxTree) (id : Option Int) (s : Session) :
    Gradual s (executeTree m tree id s).2 := by
  have h1 := execute_db (fun _ => False) m s.args tree.root ⟨s.vars, s.db⟩
  rcases hx : tree.root.execute m s.args ⟨s.vars, s.db⟩ with ⟨r, env⟩
  rw [hx] at h1
  simp only at h1
  have hs : Still s { s with vars := env.vars, db := env.db } :=
    still_of_rel (own := fun _ => False) (by simp) h1
  unfold executeTree
  simp only
  unfold SyntaxTree.execute St.andThen
  rw [hx]
  cases r with
  | ok v =>
    simp only
    cases hr : tree.resultVar with
    | none => exact hs.gradual
    | some x =>
      simp only
      obtain ⟨vars, db⟩ := env
      cases vars with
      | none => exact hs.gradual
      | some vs =>
        simp only at hs ⊢
        refine hs.then ?_
        rcases hu : vs.update ⟨x.value, v⟩ id db with ⟨r, vs', db'⟩
        have hdb : db' = (vs.update ⟨x.value, v⟩ id db).2.2 := by rw [hu]
        have hg : Gradual { s with vars := some vs, db := db } { s with vars := some vs', db := db' } := by
          cases db with
          | none => intro sd hd; cases hd
          | some sd =>
            cases id with
            | none =>
              have : db' = some sd := hdb
              subst this
              exact fun sd' hd he => ⟨sd', hd, he, [], by simp, by simp⟩
            | some i =>
              refine gradual_run fun sd' hd => ⟨Unit, setVariableTx ⟨x.value, v⟩ i, ?_⟩
              simp only [Option.some.injEq] at hd
              subst hd
              exact hdb
        cases r <;> exact hg
  | err e => exact hs.gradual
  | panic k => exact hs.gradual
  | diverge => exact hs.gradual

theorem andThen_still_gradual {α β : Type} {t : Sess α} {f : α → Sess β} {s : Session}
    (h1 : Still s (t s).2) (h2 : ∀ a s', t s = (.ok a, s') → Gradual s' (f a s').2) :
    Gradual s (t.andThen f s).2 := by
  unfold St.andThen
  rcases ht : t s with ⟨a | e | k | _, s'⟩
  · rw [ht] at h1
    exact h1.then (h2 a s' ht)
  all_goals rw [ht] at h1; exact h1.gradual

theorem andThen_gradual_still {α β : Type} {t : Sess α} {f : α → Sess β} {s : Session}
    (h1 : Gradual s (t s).2) (h2 : ∀ a s', t s = (.ok a, s') → Still s' (f a s').2) :
    Gradual s (t.andThen f s).2 := by
  unfold St.andThen
  rcases ht : t s with ⟨a | e | k | _, s'⟩
  · rw [ht] at h1
    exact h1.then (h2 a s' ht)
  all_goals rw [ht] at h1; exact h1

theorem calculateTokens_gradual (m : Machine) (id : Option Int) (ts : List PTok) (s : Session) :
    Gradual s (calculateTokens m id ts s).2 := by
  unfold calculateTokens
  refine andThen_still_gradual
    (still_of_rel (own := IsTouch) (fun _ h => h) (touchVars_db id _ s.vars s)) fun _ s1 _ => ?_
  split
  · exact (Still.refl _).gradual
  · cases hn : SyntaxTree.new ts with
    | ok tree =>
      change Gradual s1 ((executeTree m tree id).andThen
        (fun result s => (displayResult s.args result, s)) s1).2
      exact andThen_gradual_still (executeTree_gradual m tree id s1) fun _ s2 _ => Still.refl _
    | err e => exact (Still.refl _).gradual
    | panic k => exact (Still.refl _).gradual
    | diverge => exact (Still.refl _).gradual

theorem executeHistcap_gradual (arguments : Positioned Str) (s : Session) :
    Gradual s (executeHistcap arguments s).2 := by
  have hrefl : Gradual s s := (Still.refl _).gradual
  unfold executeHistcap
  rcases (intListArgs arguments.value >>= histcapArgument) with a | e | k | _
  · simp only
    cases hd : s.db with
    | none => exact hrefl
    | some sd =>
      simp only
      cases a with
      | none =>
        simp only
        have hg : Gradual s { s with db := some sd.getMaxHistorySize.2 } :=
          gradual_run fun sd' hd' => ⟨Int, selectMeta metaMaxHistorySize, by
            rw [hd] at hd'; cases hd'; rfl⟩
        rcases hx : sd.getMaxHistorySize with ⟨r, sd'⟩
        rw [hx] at hg
        cases r <;> exact hg
      | some n =>
        simp only
        have hg : Gradual s { s with db := some (sd.setMaxHistorySize n).2 } := by
          unfold SavedData.setMaxHistorySize
          cases validateMaxHistorySize n with
          | error e =>
            exact fun sd' hd' he => ⟨sd', by rw [hd] at hd'; cases hd'; rfl, he, [], by simp, by simp⟩
          | ok _ =>
            exact gradual_run fun sd' hd' => ⟨Unit, setMaxHistorySizeTx n, by
              rw [hd] at hd'; cases hd'; rfl⟩
        rcases hx : sd.setMaxHistorySize n with ⟨r, sd'⟩
        rw [hx] at hg
        cases r <;> exact hg
  all_goals exact hrefl

theorem command_gradual (m : Machine) (ce : CommandExecutor) (cmd : Cmd) (arguments : Positioned Str)
    (s : Session) : Gradual s (cmd.execute m ce arguments s).2 := by
  by_cases hh : cmd = .histcap
  · subst hh
    exact executeHistcap_gradual arguments s
  · by_cases hp : cmd = .purgeVar
    · subst hp
      refine gradual_clear (own := CmdOp m .purgeVar arguments) ?_ (command_db m ce .purgeVar arguments s)
      rintro op (⟨_, _, _, x, _, rfl⟩ | ⟨h, _⟩)
      · exact ⟨x, rfl⟩
      · cases h
    · refine (still_of_rel (own := CmdOp m cmd arguments) ?_ (command_db m ce cmd arguments s)).gradual
      rintro op (⟨h, _⟩ | ⟨h, _⟩)
      · exact absurd h hp
      · exact absurd h hh

theorem calculateCommand_gradual (m : Machine) (ce : CommandExecutor) (id : Option Int)
    (name arguments : Positioned Str) (s : Session) :
    Gradual s (calculateCommand m ce id name arguments s).2 := by
  unfold calculateCommand
  refine andThen_gradual_still ?_ fun r s1 _ => ?_
  · unfold CommandExecutor.executeCommand
    cases ce.resolve name.value with
    | none => exact (Still.refl _).gradual
    | some cmd => exact command_gradual m ce cmd arguments s
  · exact still_of_rel (own := IsTouch) (fun _ h => h)
      (St.Rel.andThen (R := SessRel IsTouch) (fun _ _ _ => OptRel.trans)
        (touchVars_db id _ s1.vars) (fun _ s => SessRel.refl _ s) s1)

/-- Everything after recording. -/
theorem afterRecording_gradual (m : Machine) (ce : CommandExecutor) (line : Str) (id : Option Int)
    (s : Session) : Gradual s (afterRecording m ce line id s).2 := by
  unfold afterRecording
  rcases tokenize line s.args.radix with t | e | k | _
  · cases t with
    | tokens ts => exact calculateTokens_gradual m id ts s
    | command name arguments => exact calculateCommand_gradual m ce id name arguments s
  all_goals exact (Still.refl _).gradual

end Bcalc
