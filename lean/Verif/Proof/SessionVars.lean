import Verif.Proof.SessionDb
import Verif.Proof.ParserComplete

/-! # What the parts of `calculate` do to the variables of the session -/

namespace Bcalc
open Spec

/-- The variable keeps its value, if it has one. -/
def KeepsVar (x : Str) (s s' : Session) : Prop :=
  ∀ v, sessionValue s x = some v → sessionValue s' x = some v

theorem KeepsVar.refl (x : Str) (s : Session) : KeepsVar x s s := fun _ h => h

theorem KeepsVar.trans {x : Str} (a b c : Session) (h : KeepsVar x a b) (h' : KeepsVar x b c) :
    KeepsVar x a c := fun v hv => h' v (h v hv)

theorem KeepsVar.of_eq {x : Str} {s s' : Session} (h : s'.vars = s.vars) : KeepsVar x s s' := by
  intro v hv
  unfold sessionValue at hv ⊢
  rw [h]; exact hv

/-- Only the connection changes. -/
def OnlyDb (s s' : Session) : Prop := s' = { s with db := s'.db }

theorem OnlyDb.refl (s : Session) : OnlyDb s s := rfl

theorem OnlyDb.trans (a b c : Session) (h : OnlyDb a b) (h' : OnlyDb b c) : OnlyDb a c := by
  unfold OnlyDb at *
  rw [h', h]

theorem OnlyDb.vars {s s' : Session} (h : OnlyDb s s') : s'.vars = s.vars := by
  unfold OnlyDb at h; rw [h]

theorem OnlyDb.args {s s' : Session} (h : OnlyDb s s') : s'.args = s.args := by
  unfold OnlyDb at h; rw [h]

theorem OnlyDb.inputs {s s' : Session} (h : OnlyDb s s') : s'.inputs = s.inputs := by
  unfold OnlyDb at h; rw [h]

theorem touchOne_only (id : Option Int) (x : Str) : (touchOne id x).Rel OnlyDb := by
  intro s
  unfold touchOne
  cases hv : s.vars with
  | none => exact OnlyDb.refl _
  | some vs =>
    have := touch_vars vs x id s.db
    simp only
    rcases hq : vs.touch x id s.db with ⟨r, vs', db'⟩
    rw [hq] at this
    simp only at this
    unfold OnlyDb
    simp only
    rw [this, ← hv]

theorem touchAll_only (id : Option Int) (l : List Str) : (touchAll id l).Rel OnlyDb := by
  induction l with
  | nil => exact fun s => OnlyDb.refl _
  | cons x l ih =>
    unfold touchAll
    exact St.Rel.andThen (R := OnlyDb) OnlyDb.trans (touchOne_only id x) fun _ => ih

/-- The touching of the variables of an input. -/
theorem touchVars_only (id : Option Int) (l : List Str) (o : Option VariableStore) :
    (match o with
      | some _ => touchAll id l
      | none => fun s => (.ok (), s) : Sess Unit).Rel OnlyDb := by
  cases o with
  | none => exact fun s => OnlyDb.refl _
  | some vs => exact touchAll_only id l

theorem update_vars (vs : VariableStore) (var : Variable) (id : Option Int) (db : Option SavedData) :
    (vs.update var id db).2.1 = vs.insert var.name var.value := by
  unfold VariableStore.update
  rfl

theorem executeTree_args (m : Machine) (tree : SyntaxTree) (id : Option Int) (s : Session) :
    (executeTree m tree id s).2.args = s.args ∧ (executeTree m tree id s).2.inputs = s.inputs := by
  unfold executeTree
  exact ⟨rfl, rfl⟩

/-- Running a tree keeps the variables other than the assigned one. -/
theorem executeTree_keeps (m : Machine) (tree : SyntaxTree) (id : Option Int) (x : Str)
    (hx : ∀ r, tree.resultVar = some r → r.value ≠ x) : (executeTree m tree id).Rel (KeepsVar x) := by
  intro s v hv
  have hext := execute_extends m s.args tree.root ⟨s.vars, s.db⟩
  unfold executeTree SyntaxTree.execute St.andThen
  rcases hr : tree.root.execute m s.args ⟨s.vars, s.db⟩ with ⟨r, env⟩
  rw [hr] at hext
  have hval : sessionValues env x = some v := hext.2 x v hv
  have hkeep : ∀ s' : Session, s'.vars = env.vars → sessionValue s' x = some v := by
    intro s' h
    unfold sessionValue
    rw [h]
    exact hval
  cases r with
  | ok q =>
    simp only
    cases hres : tree.resultVar with
    | none => exact hkeep _ rfl
    | some y =>
      simp only
      cases hvars : env.vars with
      | none => exact hkeep _ rfl
      | some vs =>
        simp only
        have hu := update_vars vs ⟨y.value, q⟩ id env.db
        rcases hq : vs.update ⟨y.value, q⟩ id env.db with ⟨r, vs', db'⟩
        rw [hq] at hu
        simp only at hu
        have hfin : vs'.lookup x = some v := by
          rw [hu, lookup_insert, if_neg (fun h => hx y hres h.symm)]
          unfold sessionValues at hval
          rw [hvars] at hval
          exact hval
        cases r <;> exact hfin
  | err e => exact hkeep _ rfl
  | panic k => exact hkeep _ rfl
  | diverge => exact hkeep _ rfl

theorem new_resultVar {ts : List PTok} {t : SyntaxTree} (h : SyntaxTree.new ts = .ok t)
    {r : Positioned Str} (hr : t.resultVar = some r) :
    ∃ q rest, ts = ⟨.variable r.value, r.position⟩ :: ⟨.assign, q⟩ :: rest := by
  have := (parse_iff ts t).1 h
  rw [hr] at this
  cases this with
  | assignment h => exact ⟨_, _, rfl⟩

theorem calculateTokens_keeps (m : Machine) (id : Option Int) (ts : List PTok) (x : Str)
    (hx : ∀ p q rest, ts ≠ ⟨.variable x, p⟩ :: ⟨.assign, q⟩ :: rest) :
    (calculateTokens m id ts).Rel (KeepsVar x) := by
  intro s
  unfold calculateTokens
  refine St.Rel.andThen (R := KeepsVar x) KeepsVar.trans
    (fun s' => KeepsVar.of_eq (touchVars_only id _ s.vars s').vars) (fun _ => ?_) s
  split
  · exact fun s => KeepsVar.refl _ _
  · intro s
    cases hn : SyntaxTree.new ts with
    | ok tree =>
      change KeepsVar x s ((executeTree m tree id).andThen
        (fun result s => (displayResult s.args result, s)) s).2
      refine St.Rel.andThen (R := KeepsVar x) KeepsVar.trans
        (executeTree_keeps m tree id x fun r hr he => ?_) (fun _ s => KeepsVar.refl _ s) s
      obtain ⟨q, rest, h⟩ := new_resultVar hn hr
      rw [he] at h
      exact hx _ _ _ h
    | err e => exact KeepsVar.refl _ s
    | panic k => exact KeepsVar.refl _ s
    | diverge => exact KeepsVar.refl _ s

theorem getVariable_name {sd : SavedData} {x : Str} {var : Variable}
    (h : (sd.getVariable x).1 = .ok (some var)) : var.name = x := by
  have := get_cases ⟨[]⟩ x (some sd)
  rcases this with ⟨v, hv, _⟩ | ⟨_, hd, _⟩ | ⟨sd', _, hd, hc⟩
  · simp [VariableStore.lookup, assocGet] at hv
  · simp at hd
  · cases hd
    rcases hc with ⟨v, hv, _⟩ | ⟨hv, _⟩ | ⟨e, hv, _⟩ | ⟨k, hv, _⟩
    · rw [hv] at h; simp at h; rw [← h]
    all_goals rw [hv] at h; simp at h

theorem reload_vars (vs : VariableStore) (x y : Str) (sd : SavedData) (h : y ≠ x) :
    (vs.reload x sd).2.1.lookup y = vs.lookup y := by
  unfold VariableStore.reload
  have hn := @getVariable_name sd x
  rcases hg : sd.getVariable x with ⟨o, sd'⟩
  rw [hg] at hn
  rcases o with ⟨_ | var⟩ | _ | _ | _
  · rfl
  · simp only
    rw [lookup_insert, if_neg (by rw [hn rfl]; exact h)]
  · rfl
  · rfl
  · rfl

theorem reloadLoop_vars (y : Str) : ∀ (l : List Str) (vs : VariableStore) (sd : SavedData)
    (out : Str) (touched : List Str), y ∉ l →
      (reloadLoop l vs sd out touched).2.1.lookup y = vs.lookup y
  | [], _, _, _, _, _ => rfl
  | x :: l, vs, sd, out, touched, h => by
    unfold reloadLoop
    have := reload_vars vs x y sd (by rintro rfl; simp at h)
    rcases hr : vs.reload x sd with ⟨r, vs', sd'⟩
    rw [hr] at this
    cases r with
    | ok r => exact (reloadLoop_vars y l vs' sd' _ _ (by simp at h; exact h.2)).trans this
    | err e => exact this
    | panic k => exact this
    | diverge => exact this

theorem purge_vars (vs : VariableStore) (x y : Str) (db : Option SavedData) :
    (vs.purge x db).2.1.lookup y = if y = x then none else vs.lookup y := by
  unfold VariableStore.purge
  cases db <;> exact assocGet_remove x y vs.vars

theorem purgeLoop_vars (y : Str) : ∀ (l : List Str) (vs : VariableStore) (db : Option SavedData),
    y ∉ l → (purgeLoop l vs db).2.1.lookup y = vs.lookup y
  | [], _, _, _ => rfl
  | x :: l, vs, db, h => by
    unfold purgeLoop
    have hne : y ≠ x := by rintro rfl; simp at h
    have := purge_vars vs x y db
    rw [if_neg hne] at this
    rcases hr : vs.purge x db with ⟨r, vs', db'⟩
    rw [hr] at this
    cases r with
    | ok r => exact (purgeLoop_vars y l vs' db' (by simp at h; exact h.2)).trans this
    | err e => exact this
    | panic k => exact this
    | diverge => exact this

theorem bool_vars (get : Args → Bool) (set : Args → Bool → Args) (arguments : Positioned Str)
    (s : Session) : (executeBool get set arguments s).2.vars = s.vars := by
  unfold executeBool
  rcases boolArgument arguments with ⟨_ | _⟩ | _ | _ | _ <;> rfl

/-- The commands other than /reloadvar and /purgevar leave the variables alone. -/
theorem command_vars_eq (m : Machine) (ce : CommandExecutor) (cmd : Cmd) (arguments : Positioned Str)
    (s : Session) (h1 : cmd ≠ .reloadVar) (h2 : cmd ≠ .purgeVar) :
    (cmd.execute m ce arguments s).2.vars = s.vars := by
  unfold Cmd.execute
  cases cmd with
  | help => rfl
  | reloadVar => exact absurd rfl h1
  | purgeVar => exact absurd rfl h2
  | histcap =>
    simp only
    unfold executeHistcap
    cases intListArgs arguments.value >>= histcapArgument with
    | ok r =>
      cases s.db with
      | none => rfl
      | some sd =>
        cases r with
        | none => simp only; rcases sd.getMaxHistorySize with ⟨_ | _ | _ | _, _⟩ <;> rfl
        | some n => simp only; rcases sd.setMaxHistorySize n with ⟨_ | _ | _ | _, _⟩ <;> rfl
    | err e => rfl
    | panic k => rfl
    | diverge => rfl
  | fractional => exact bool_vars _ _ _ _
  | upper => exact bool_vars _ _ _ _
  | commas => exact bool_vars _ _ _ _
  | radix =>
    simp only
    unfold executeRadix
    rcases (intListArgs arguments.value >>= radixArgument) with ⟨_ | _⟩ | _ | _ | _ <;> rfl
  | convertToRadix =>
    simp only
    unfold executeConvertToRadix
    split
    · rfl
    · rcases (intListArgs arguments.value >>= radixArgument) with ⟨_ | _⟩ | _ | _ | _
      · simp only; split <;> rfl
      all_goals rfl
  | precision =>
    simp only
    unfold executePrecision
    rcases (intListArgs arguments.value >>= precisionArgument s.args.extraPrecision) with
      ⟨_ | _⟩ | _ | _ | _ <;> rfl

/-- A variable that is not listed keeps its value (or has none as before). -/
theorem command_value (m : Machine) (ce : CommandExecutor) (cmd : Cmd) (arguments : Positioned Str)
    (x : Str) (s : Session)
    (h : cmd = .reloadVar ∨ cmd = .purgeVar → ∀ ts, tokenizeVariableList arguments.value = .ok ts →
      x ∉ m.hashOrder (ts.map (·.value))) :
    sessionValue (cmd.execute m ce arguments s).2 x = sessionValue s x := by
  by_cases h1 : cmd = .reloadVar
  · subst h1
    unfold Cmd.execute
    simp only
    unfold executeReloadVar
    cases ht : tokenizeVariableList arguments.value with
    | ok ts =>
      cases hd : s.db with
      | none => rfl
      | some sd =>
        cases hv : s.vars with
        | none => rfl
        | some vs =>
          unfold sessionValue
          rw [hv]
          exact reloadLoop_vars x _ vs sd [] [] (h (.inl rfl) ts ht)
    | err e => rfl
    | panic k => rfl
    | diverge => rfl
  · by_cases h2 : cmd = .purgeVar
    · subst h2
      unfold Cmd.execute
      simp only
      unfold executePurgeVar
      cases ht : tokenizeVariableList arguments.value with
      | ok ts =>
        cases hv : s.vars with
        | none => rfl
        | some vs =>
          unfold sessionValue
          rw [hv]
          exact purgeLoop_vars x _ vs s.db (h (.inr rfl) ts ht)
      | err e => rfl
      | panic k => rfl
      | diverge => rfl
    · unfold sessionValue
      rw [command_vars_eq m ce cmd arguments s h1 h2]

theorem calculateCommand_value (m : Machine) (ce : CommandExecutor) (id : Option Int)
    (name arguments : Positioned Str) (x : Str) (s : Session)
    (h : ce.resolve name.value = some .reloadVar ∨ ce.resolve name.value = some .purgeVar →
      ∀ ts, tokenizeVariableList arguments.value = .ok ts → x ∉ m.hashOrder (ts.map (·.value))) :
    sessionValue (calculateCommand m ce id name arguments s).2 x = sessionValue s x := by
  unfold calculateCommand
  have h1 : sessionValue (ce.executeCommand m name arguments s).2 x = sessionValue s x := by
    unfold CommandExecutor.executeCommand
    cases hr : ce.resolve name.value with
    | none => rfl
    | some cmd =>
      apply command_value
      rintro hc ts hts
      rw [hr] at h
      exact h (hc.imp (congrArg some) (congrArg some)) ts hts
  rcases hx : ce.executeCommand m name arguments s with ⟨r, s1⟩
  rw [hx] at h1
  unfold St.andThen
  rw [hx]
  cases r with
  | ok r =>
    obtain ⟨out, touched⟩ := r
    refine Eq.trans ?_ h1
    refine St.Rel.andThen (R := fun a b => sessionValue b x = sessionValue a x)
      (fun a b c h h' => h'.trans h) (fun s' => ?_) (fun _ s' => rfl) s1
    have := OnlyDb.vars (touchVars_only id touched s1.vars s')
    unfold sessionValue
    exact congrArg (fun o : Option VariableStore => match o with
      | none => none
      | some vs => vs.lookup x) this
  | err e => exact h1
  | panic k => exact h1
  | diverge => exact h1

/-- The command table: only their names stand for /reloadvar and /purgevar. -/
def TableOk (ce : CommandExecutor) : Prop :=
  (∀ name, ce.resolve name = some .reloadVar → name = "reloadvar".toList) ∧
  (∀ name, ce.resolve name = some .purgeVar → name = "purgevar".toList)

theorem hash_mem {m : Machine} (hm : HashOk m) {l : List Str} {x : Str} :
    x ∈ m.hashOrder l ↔ x ∈ l := by
  rw [(hm l).mem_iff, List.mem_dedup]

/-- An input that does not set the variable keeps its value. -/
theorem calculate_keeps {m : Machine} (hm : HashOk m) {ce : CommandExecutor} (hce : TableOk ce)
    (line x : Str) (s : Session) (h : ¬ Sets s.args.radix line x) :
    KeepsVar x s (calculate m ce line s).2 := by
  obtain ⟨ha, hv⟩ := recordInput_args s
  rw [calculate_eq]
  rcases hr : recordInput s with ⟨r, s1⟩
  rw [hr] at ha hv
  have h1' : KeepsVar x s s1 := KeepsVar.of_eq hv
  unfold St.andThen
  rw [hr]
  simp only at ha
  cases r with
  | ok id =>
    refine KeepsVar.trans _ _ _ h1' ?_
    simp only
    unfold afterRecording
    rw [ha]
    cases ht : tokenize line s.args.radix with
    | ok t =>
      cases t with
      | tokens ts =>
        refine calculateTokens_keeps m id ts x (fun p q rest he => ?_) s1
        exact h (.inl ⟨p, q, rest, he ▸ ht⟩)
      | command name arguments =>
        intro v hv
        rw [← hv]
        apply calculateCommand_value
        rintro hc ts hts hx
        rw [hash_mem hm] at hx
        obtain ⟨n, p⟩ := name
        rcases hc with hc | hc
        · have := hce.1 _ hc
          simp only at this
          subst this
          exact h (.inr (.inl ⟨p, arguments, ts, ht, hts, hx⟩))
        · have := hce.2 _ hc
          simp only at this
          subst this
          exact h (.inr (.inr ⟨p, arguments, ts, ht, hts, hx⟩))
    | err e => exact KeepsVar.refl _ _
    | panic k => exact KeepsVar.refl _ _
    | diverge => exact KeepsVar.refl _ _
  | err e => exact h1'
  | panic k => exact h1'
  | diverge => exact h1'

theorem later_keeps {m : Machine} (hm : HashOk m) {ce : CommandExecutor} (hce : TableOk ce)
    {x : Str} {s s' : Session} (h : Later m ce x s s') : KeepsVar x s s' := by
  induction h with
  | now => exact KeepsVar.refl _ _
  | input _ hs ih => exact KeepsVar.trans _ _ _ ih (calculate_keeps hm hce _ _ _ hs)
  | meanwhile _ hv ih => exact KeepsVar.trans _ _ _ ih (KeepsVar.of_eq hv)

end Bcalc
