import Verif.Spec.Robust
import Verif.Proof.Commands3
import Verif.Proof.Sessions
import Verif.Props.Database
import Verif.Props.Arithmetic
import Verif.Props.Display
import Verif.Props.Answer

/-! # Nothing but powers, roots and moduli crashes -/

namespace Bcalc

open Spec

theorem ends_ne_panic {ε α : Type} {r : Outcome ε α} (h : Ends r) (k : PanicKind) : r ≠ .panic k := by
  rcases h with ⟨a, rfl⟩ | ⟨e, rfl⟩ <;> simp

theorem ends_ne_diverge {ε α : Type} {r : Outcome ε α} (h : Ends r) : r ≠ .diverge := by
  rcases h with ⟨a, rfl⟩ | ⟨e, rfl⟩ <;> simp

theorem ends_of {ε α : Type} {r : Outcome ε α} (h : ∀ k, r ≠ .panic k) (h' : r ≠ .diverge) : Ends r := by
  cases r with
  | ok a => exact .inl ⟨a, rfl⟩
  | err e => exact .inr ⟨e, rfl⟩
  | panic k => exact absurd rfl (h k)
  | diverge => exact absurd rfl h'

theorem ends_mapErr {ε ε' α : Type} {r : Outcome ε α} (h : Ends r) (f : ε → ε') : Ends (r.mapErr f) := by
  rcases h with ⟨a, rfl⟩ | ⟨e, rfl⟩
  · exact .inl ⟨a, rfl⟩
  · exact .inr ⟨f e, rfl⟩

theorem Settled.ends {α : Type} {r : Outcome Failure α} (h : Settled r) : Ends r := by
  rcases h with ⟨a, h⟩ | ⟨t, p, h⟩
  · exact .inl ⟨a, h⟩
  · exact .inr ⟨_, h⟩

theorem ends_andThen {σ α β : Type} {x : St σ α} {f : α → St σ β} {s : σ} (h : Ends (x s).1)
    (hf : ∀ a s', x s = (.ok a, s') → Ends (f a s').1) : Ends (x.andThen f s).1 := by
  rcases hx : x s with ⟨r, s'⟩
  rw [hx] at h
  rcases h with ⟨a, h⟩ | ⟨e, h⟩
  · simp only at h; subst h
    rw [andThen_of_ok hx]; exact hf a s' hx
  · simp only at h; subst h
    unfold St.andThen
    rw [hx]
    exact .inr ⟨e, rfl⟩

/-- The database (if there is one) is one the program made. -/
def Safe (o : Option SavedData) : Prop := ∀ sd, o = some sd → Reachable sd.db

theorem Safe.rel {own : DbOp → Prop} {o o' : Option SavedData} (h : Safe o) (hr : OptRel own o o') : Safe o' := by
  intro sd' he
  subst he
  cases o with
  | none => exact hr.elim
  | some sd => exact (h sd rfl).evolves hr.db

theorem ends_run {α : Type} {sd : SavedData} (hr : Reachable sd.db) {tx : Tx α}
    (h : ∀ db, Reachable db → Ends (tx db)) : Ends (sd.run tx).1 := by
  have hs : Reachable sd.seen := hr.evolves (seen_evolves (fun _ => False) sd)
  rcases run_cases sd tx with ⟨_, hx⟩ | ⟨_, hx⟩
  · rw [hx]; exact .inr ⟨_, rfl⟩
  · rw [hx]
    rcases h _ hs with ⟨⟨a, db⟩, e⟩ | ⟨e', e⟩
    · rw [e]; exact .inl ⟨_, rfl⟩
    · rw [e]; exact .inr ⟨_, rfl⟩

theorem ends_setVariable {sd : SavedData} (hr : Reachable sd.db) (var : Variable) (i : Int) :
    Ends (sd.setVariable var i).1 :=
  ends_run hr fun db hr => by
    by_cases h : ∃ r ∈ db.history, r.id = i
    · exact .inl ⟨_, (C46_setVariable db hr var i).1 h⟩
    · exact .inr ⟨_, ((C46_setVariable db hr var i).2 h).1⟩

theorem ends_touchVariable {sd : SavedData} (hr : Reachable sd.db) (x : Str) (i : Int) :
    Ends (sd.touchVariable x i).1 :=
  ends_run hr fun db hr => by
    by_cases h : (∃ r ∈ db.history, r.id = i) ∨ (∀ v ∈ db.vars, v.name ≠ x)
    · exact .inl ⟨_, (C46_touchVariable db hr x i).1 h⟩
    · exact .inr ⟨_, ((C46_touchVariable db hr x i).2 h).1⟩

theorem ends_getVariable {sd : SavedData} (hr : Reachable sd.db) (x : Str) : Ends (sd.getVariable x).1 :=
  ends_run hr fun db hr => by
    obtain ⟨v, h⟩ := (C46_operations db hr).2.2.2.2.1 x
    exact .inl ⟨_, h⟩

theorem ends_clearVariable {sd : SavedData} (hr : Reachable sd.db) (x : Str) : Ends (sd.clearVariable x).1 :=
  ends_run hr fun db hr => .inl ⟨_, (C46_operations db hr).2.2.2.1 x⟩

theorem ends_recordInput {s : Session} {line : Str} (h : Submitted s line) : Ends (recordInput s).1 := by
  unfold recordInput
  cases hi : s.inputs with
  | none => exact .inl ⟨_, rfl⟩
  | some inp =>
    have hc := h.inputs inp hi
    simp only
    unfold InputHistory.inputFinished
    rw [hc]
    simp only
    cases hd : s.db with
    | none => exact .inl ⟨_, rfl⟩
    | some sd =>
      have hr := h.reachable sd hd
      have hv : (usizeSub (inp.internal ++ [line]).length 1 >>= fun i => vecIndex (inp.internal ++ [line]) i :
          Outcome RuntimeErr Str) = .ok line := vecIndex_last _ _
      simp only
      rw [hv]
      simp only
      have := (C46_connection sd hr).1 line
      rcases hx : sd.addToInputHistory line with ⟨r, sd'⟩
      rw [hx] at this
      rcases this with ⟨i, e⟩ | e
      · simp only at e; subst e; exact .inl ⟨_, rfl⟩
      · simp only at e; subst e; exact .inr ⟨_, rfl⟩

theorem ends_touch {vs : VariableStore} {x : Str} {id : Option Int} {o : Option SavedData} (h : Safe o) :
    Ends (vs.touch x id o).1 := by
  unfold VariableStore.touch
  cases o with
  | none => cases id <;> first | exact .inl ⟨_, rfl⟩ | exact .inr ⟨_, rfl⟩
  | some sd =>
    cases id with
    | none => exact .inr ⟨_, rfl⟩
    | some i => exact ends_mapErr (ends_touchVariable (h sd rfl) x i) _

theorem ends_touchAll (id : Option Int) : ∀ (l : List Str) {s : Session}, Safe s.db → Ends (touchAll id l s).1
  | [], _, _ => .inl ⟨_, rfl⟩
  | x :: l, s, h => by
    unfold touchAll
    refine ends_andThen ?_ fun a s' hs => ends_touchAll id l ?_
    · unfold touchOne
      cases s.vars with
      | none => exact .inl ⟨_, rfl⟩
      | some vs => exact ends_mapErr (ends_touch (x := x) (id := id) (vs := vs) h) _
    · have := touchOne_db (own := fun _ => True) id x (fun _ _ => trivial) s
      rw [hs] at this
      exact h.rel this

/-! ### Commands -/

theorem ends_reloadLoop : ∀ (l : List Str) (vs : VariableStore) {sd : SavedData} (out : Str) (touched : List Str),
    Reachable sd.db → Ends (reloadLoop l vs sd out touched).1
  | [], _, _, _, _, _ => .inl ⟨_, rfl⟩
  | x :: l, vs, sd, out, touched, hr => by
    have h1 := ends_getVariable hr x
    have h2 := reload_rel (fun _ => True) vs x sd
    unfold reloadLoop
    simp only
    have he : Ends (vs.reload x sd).1 := by
      unfold VariableStore.reload
      rcases hg : sd.getVariable x with ⟨o, sd'⟩
      rw [hg] at h1
      rcases h1 with ⟨a, e⟩ | ⟨a, e⟩
      · simp only at e; subst e
        cases a <;> exact .inl ⟨_, rfl⟩
      · simp only at e; subst e
        exact .inr ⟨_, rfl⟩
    rcases hx : vs.reload x sd with ⟨r, vs', sd'⟩
    rw [hx] at he h2
    rcases he with ⟨a, e⟩ | ⟨a, e⟩
    · simp only at e; subst e
      exact ends_reloadLoop l vs' _ _ (hr.evolves h2.db)
    · simp only at e; subst e
      exact .inr ⟨_, rfl⟩

theorem ends_purgeLoop : ∀ (l : List Str) (vs : VariableStore) {o : Option SavedData}, Safe o →
    Ends (purgeLoop l vs o).1
  | [], _, _, _ => .inl ⟨_, rfl⟩
  | x :: l, vs, o, hs => by
    have h2 := purge_rel (own := fun _ => True) vs x o trivial
    unfold purgeLoop
    have he : Ends (vs.purge x o).1 := by
      unfold VariableStore.purge
      cases o with
      | none => exact .inl ⟨_, rfl⟩
      | some sd => exact ends_mapErr (ends_clearVariable (hs sd rfl) x) _
    rcases hx : vs.purge x o with ⟨r, vs', o'⟩
    rw [hx] at he h2
    rcases he with ⟨a, e⟩ | ⟨a, e⟩
    · simp only at e; subst e
      exact ends_purgeLoop l vs' (hs.rel h2)
    · simp only at e; subst e
      exact .inr ⟨_, rfl⟩

theorem ends_execute (m : Machine) (ce : CommandExecutor) (cmd : Cmd) {arguments : Positioned Str}
    (ha : Ascii arguments.value) {s : Session} (hs : Safe s.db) : Ends (cmd.execute m ce arguments s).1 := by
  cases cmd with
  | help =>
    unfold Cmd.execute executeHelp
    simp only
    split
    · exact .inl ⟨_, rfl⟩
    · split
      · exact .inl ⟨_, rfl⟩
      · exact .inr ⟨_, rfl⟩
  | reloadVar =>
    unfold Cmd.execute executeReloadVar
    simp only
    rcases settled_variableList (arguments := arguments.value) with ⟨ns, h⟩ | ⟨e, h⟩
    · rw [h]
      simp only
      cases hd : s.db with
      | none => exact .inr ⟨_, rfl⟩
      | some sd =>
        simp only
        cases s.vars with
        | none => exact .inr ⟨_, rfl⟩
        | some vs =>
          simp only
          exact ends_reloadLoop _ _ _ _ (hs sd hd)
    · rw [h]; exact .inr ⟨_, rfl⟩
  | purgeVar =>
    unfold Cmd.execute executePurgeVar
    simp only
    rcases settled_variableList (arguments := arguments.value) with ⟨ns, h⟩ | ⟨e, h⟩
    · rw [h]
      simp only
      cases s.vars with
      | none => exact .inr ⟨_, rfl⟩
      | some vs => exact ends_purgeLoop _ _ hs
    · rw [h]; exact .inr ⟨_, rfl⟩
  | histcap =>
    unfold Cmd.execute executeHistcap
    simp only
    rcases hx : (intListArgs arguments.value >>= histcapArgument) with o | e | k | _
    · simp only
      cases hd : s.db with
      | none => exact .inr ⟨_, rfl⟩
      | some sd =>
        have hc := C46_connection sd (hs sd hd)
        cases o with
        | none =>
          simp only
          have := hc.2.2
          rcases hg : sd.getMaxHistorySize with ⟨r, sd'⟩
          rw [hg] at this
          rcases this with ⟨n, _, e⟩ | e
          · simp only at e; subst e; exact .inl ⟨_, rfl⟩
          · simp only at e; subst e; exact .inr ⟨_, rfl⟩
        | some n =>
          simp only
          have hn : 1 ≤ n := by
            cases hi : intListArgs arguments.value with
            | ok ps =>
              rw [hi] at hx
              exact histcapArgument_pos hx
            | err e => rw [hi] at hx; cases hx
            | panic k => rw [hi] at hx; cases hx
            | diverge => rw [hi] at hx; cases hx
          have := hc.2.1 n hn
          rcases hg : sd.setMaxHistorySize n with ⟨r, sd'⟩
          rw [hg] at this
          rcases this with e | e
          · simp only at e; subst e; exact .inl ⟨_, rfl⟩
          · simp only at e; subst e; exact .inr ⟨_, rfl⟩
    · exact .inr ⟨_, rfl⟩
    · have := settled_intListArgs ha settled_histcapArgument
      rw [hx] at this
      rcases this with ⟨_, h⟩ | ⟨_, _, h⟩ <;> cases h
    · have := settled_intListArgs ha settled_histcapArgument
      rw [hx] at this
      rcases this with ⟨_, h⟩ | ⟨_, _, h⟩ <;> cases h
  | fractional => exact (settled_executeBool _ _ _ _).ends
  | upper => exact (settled_executeBool _ _ _ _).ends
  | commas => exact (settled_executeBool _ _ _ _).ends
  | radix =>
    unfold Cmd.execute executeRadix
    simp only
    rcases settled_intListArgs ha settled_radixArgument with ⟨o, h⟩ | ⟨t, p, h⟩
    · rw [h]; cases o <;> exact .inl ⟨_, rfl⟩
    · rw [h]; exact .inr ⟨_, rfl⟩
  | convertToRadix =>
    unfold Cmd.execute executeConvertToRadix
    simp only
    split
    · exact .inl ⟨_, rfl⟩
    · rcases settled_intListArgs ha settled_radixArgument with ⟨o, h⟩ | ⟨t, p, h⟩
      · rw [h]
        cases o
        · simp only
          split <;> exact .inl ⟨_, rfl⟩
        · exact .inl ⟨_, rfl⟩
      · rw [h]; exact .inr ⟨_, rfl⟩
  | precision =>
    unfold Cmd.execute executePrecision
    simp only
    rcases settled_intListArgs ha (settled_precisionArgument s.args.extraPrecision) with ⟨o, h⟩ | ⟨t, p, h⟩
    · rw [h]; cases o <;> exact .inl ⟨_, rfl⟩
    · rw [h]; exact .inr ⟨_, rfl⟩

theorem ends_calculateCommand (m : Machine) (ce : CommandExecutor) (id : Option Int) {name arguments : Positioned Str}
    (ha : Ascii arguments.value) {s : Session} (hs : Safe s.db) :
    Ends (calculateCommand m ce id name arguments s).1 := by
  unfold calculateCommand
  refine ends_andThen ?_ fun a s' hx => ?_
  · unfold CommandExecutor.executeCommand
    split
    · exact ends_execute m ce _ ha hs
    · exact .inr ⟨_, rfl⟩
  · have hs' : Safe s'.db := by
      unfold CommandExecutor.executeCommand at hx
      split at hx
      · have := command_db m ce ‹Cmd› arguments s
        rw [hx] at this
        exact hs.rel this
      · cases hx
    obtain ⟨text, touched⟩ := a
    refine ends_andThen ?_ fun _ _ _ => .inl ⟨_, rfl⟩
    cases s'.vars with
    | none => exact .inl ⟨_, rfl⟩
    | some vs => exact ends_touchAll id touched hs'

/-! ### Expressions -/

theorem ends_displayResult {args : Args} (hv : ValidSettings args) (q : Rat) : Ends (displayResult args q) := by
  cases hf : args.fractional with
  | true => unfold displayResult; rw [hf]; exact .inl ⟨_, rfl⟩
  | false =>
    have h : 2 ≤ outputRadix args ∧ outputRadix args ≤ 16 := by
      unfold outputRadix
      cases hc : args.convertToRadix with
      | none => exact hv.radix
      | some r => exact hv.output r hc
    obtain ⟨s, _, _, h, _⟩ := C30_rounded args hf h.1 h.2 q
    exact .inl ⟨s, h⟩

theorem ends_update {vs : VariableStore} {var : Variable} {id : Option Int} {o : Option SavedData} (hs : Safe o) :
    Ends (vs.update var id o).1 := by
  unfold VariableStore.update
  cases o with
  | none => cases id <;> first | exact .inl ⟨_, rfl⟩ | exact .inr ⟨_, rfl⟩
  | some sd =>
    cases id with
    | none => exact .inr ⟨_, rfl⟩
    | some i => exact ends_mapErr (ends_setVariable (hs sd rfl) var i) _

theorem touchAll_args (id : Option Int) : ∀ (l : List Str) (s : Session), (touchAll id l s).2.args = s.args
  | [], _ => rfl
  | x :: l, s => by
    unfold touchAll
    have h1 : (touchOne id x s).2.args = s.args := by
      unfold touchOne
      cases s.vars <;> rfl
    rcases hx : touchOne id x s with ⟨r, s'⟩
    rw [hx] at h1
    simp only at h1
    unfold St.andThen
    rw [hx]
    cases r with
    | ok a => simp only; rw [touchAll_args id l s']; exact h1
    | err e => exact h1
    | panic k => exact h1
    | diverge => exact h1

/-- The same end as another computation: both end, or both crash alike, or neither ends. -/
def SameEnd {ε α ε' β : Type} (r : Outcome ε α) (r' : Outcome ε' β) : Prop :=
  (Ends r ∧ Ends r') ∨ (∃ k, r = .panic k ∧ r' = .panic k) ∨ (r = .diverge ∧ r' = .diverge)

theorem sameEnd_andThen {σ α β : Type} {x : St σ α} {f : α → St σ β} {s : σ}
    (hf : ∀ a s', x s = (.ok a, s') → Ends (f a s').1) : SameEnd (x.andThen f s).1 (x s).1 := by
  rcases hx : x s with ⟨r, s'⟩
  unfold St.andThen
  rw [hx]
  cases r with
  | ok a => exact .inl ⟨hf a s' hx, .inl ⟨a, rfl⟩⟩
  | err e => exact .inl ⟨.inr ⟨e, rfl⟩, .inr ⟨e, rfl⟩⟩
  | panic k => exact .inr (.inl ⟨k, rfl, rfl⟩)
  | diverge => exact .inr (.inr ⟨rfl, rfl⟩)

theorem SameEnd.trans {ε α ε' β ε'' γ : Type} {r : Outcome ε α} {r' : Outcome ε' β} {r'' : Outcome ε'' γ}
    (h : SameEnd r r') (h' : SameEnd r' r'') : SameEnd r r'' := by
  rcases h with ⟨h1, h2⟩ | ⟨k, h1, h2⟩ | ⟨h1, h2⟩
  · rcases h' with ⟨h3, h4⟩ | ⟨k, h3, h4⟩ | ⟨h3, h4⟩
    · exact .inl ⟨h1, h4⟩
    · exact absurd h3 (ends_ne_panic h2 k)
    · exact absurd h3 (ends_ne_diverge h2)
  · rcases h' with ⟨h3, h4⟩ | ⟨k', h3, h4⟩ | ⟨h3, h4⟩
    · exact absurd h2 (ends_ne_panic h3 k)
    · rw [h2] at h3; cases h3; exact .inr (.inl ⟨k, h1, h4⟩)
    · rw [h2] at h3; cases h3
  · rcases h' with ⟨h3, h4⟩ | ⟨k', h3, h4⟩ | ⟨h3, h4⟩
    · exact absurd h2 (ends_ne_diverge h3)
    · rw [h2] at h3; cases h3
    · exact .inr (.inr ⟨h1, h4⟩)

theorem safe_recordInput {s : Session} (h : Safe s.db) : Safe (recordInput s).2.db := h.rel (recordInput_db s)

theorem execute_safe {m : Machine} {args : Args} {n : Node} {env : Env} (h : Safe env.db) :
    Safe (n.execute m args env).2.db := h.rel (execute_db (fun _ => True) m args n env)

/-- What comes after the evaluation does not crash. -/
theorem executeTree_end (m : Machine) (tree : SyntaxTree) (id : Option Int) {s : Session} (hs : Safe s.db)
    (hv : ValidSettings s.args) :
    SameEnd (((executeTree m tree id).andThen fun result s => (displayResult s.args result, s)) s).1
      (tree.root.execute m s.args ⟨s.vars, s.db⟩).1 := by
  refine SameEnd.trans (r' := (executeTree m tree id s).1) (sameEnd_andThen fun a s' hx => ?_) ?_
  · have := executeTree_args m tree id s
    rw [hx] at this
    simp only at this ⊢
    rw [this.1]
    exact ends_displayResult hv a
  · unfold executeTree SyntaxTree.execute
    have hsafe := execute_safe (m := m) (args := s.args) (n := tree.root) (env := ⟨s.vars, s.db⟩) hs
    refine sameEnd_andThen (x := tree.root.execute m s.args) (s := (⟨s.vars, s.db⟩ : Env)) fun a env' hx => ?_
    rw [hx] at hsafe
    simp only
    split
    · exact .inl ⟨_, rfl⟩
    · split
      · exact .inr ⟨_, rfl⟩
      · rename_i vars hvars
        have := ends_update (vs := vars) (var := ⟨‹Positioned Str›.value, a⟩) (id := id) hsafe
        rcases hx : vars.update ⟨‹Positioned Str›.value, a⟩ id env'.db with ⟨o, vs', db'⟩
        rw [hx] at this ⊢
        rcases this with ⟨u, e⟩ | ⟨u, e⟩
        · simp only at e; subst e; exact .inl ⟨_, rfl⟩
        · simp only at e; subst e; exact .inr ⟨_, rfl⟩

/-- Up to the evaluation nothing crashes, and after it nothing does. -/
theorem calculate_end (m : Machine) (ce : CommandExecutor) {line : Str} {s : Session} (h : Submitted s line) :
    (Ends (calculate m ce line s).1 ∧ ∀ n env, ¬ Evaluating m line s n env) ∨
      ∃ n env, Evaluating m line s n env ∧ Safe env.db ∧
        SameEnd (calculate m ce line s).1 (n.execute m s.args env).1 := by
  have hrec := ends_recordInput h
  have hargs := (recordInput_args s).1
  have hsafe := safe_recordInput (s := s) h.reachable
  rcases hr : recordInput s with ⟨r, s1⟩
  rw [hr] at hrec hargs hsafe
  simp only at hargs hsafe
  rcases hrec with ⟨id, e⟩ | ⟨e', e⟩
  swap
  · simp only at e; subst e
    refine .inl ⟨?_, ?_⟩
    · rw [calculate_eq]
      unfold St.andThen
      rw [hr]
      exact .inr ⟨_, rfl⟩
    · rintro n env ⟨ts, target, id, s1', s2, _, _, _, _, k, _⟩
      rw [hr] at k; cases k
  simp only at e; subst e
  have hcalc : calculate m ce line s = afterRecording m ce line id s1 := by
    rw [calculate_eq, andThen_of_ok hr]
  have huniq : ∀ {n env}, Evaluating m line s n env → ∃ ts target, tokenize line s.args.radix = .ok (.tokens ts) ∧
      Input ts target n ∧ ∃ s2, (if s1.vars.isSome then touchAll id (m.hashOrder (variableNames ts)) s1 else
        (.ok (), s1)) = (.ok (), s2) ∧ env = ⟨s2.vars, s2.db⟩ := by
    rintro n env ⟨ts, target, id', s1', s2, k1, k2, k3, k4, k5, k6, k7⟩
    rw [hr] at k5
    cases k5
    exact ⟨ts, target, (C01_tokens_iff _ h.settings.radix.1 h.settings.radix.2 line ts).2 ⟨k1, k2, k3⟩, k4, s2, k6, k7⟩
  rw [hcalc]
  unfold afterRecording
  rw [hargs]
  rcases htok : tokenize line s.args.radix with p | e | k | _
  · cases p with
    | command name arguments =>
      refine .inl ⟨ends_calculateCommand m ce id (ascii_arguments (named_of_tokenize htok)) hsafe, ?_⟩
      intro n env k
      obtain ⟨ts, _, k, _⟩ := huniq k
      rw [htok] at k; cases k
    | tokens ts =>
      simp only
      have htouch : Ends (if s1.vars.isSome then touchAll id (m.hashOrder (variableNames ts)) s1 else
          ((.ok (), s1) : Outcome Failure Unit × Session)).1 := by
        split
        · exact ends_touchAll id _ hsafe
        · exact .inl ⟨_, rfl⟩
      have htsafe : Safe (if s1.vars.isSome then touchAll id (m.hashOrder (variableNames ts)) s1 else
          ((.ok (), s1) : Outcome Failure Unit × Session)).2.db := by
        split
        · exact hsafe.rel (touchAll_db (own := fun _ => True) id _ (fun _ _ _ _ => trivial) s1)
        · exact hsafe
      have htargs : (if s1.vars.isSome then touchAll id (m.hashOrder (variableNames ts)) s1 else
          ((.ok (), s1) : Outcome Failure Unit × Session)).2.args = s.args := by
        split
        · rw [touchAll_args, hargs]
        · exact hargs
      have heq : (match s1.vars with
          | some _ => touchAll id (m.hashOrder (variableNames ts))
          | none => fun s => (.ok (), s) : Sess Unit) s1 =
          (if s1.vars.isSome then touchAll id (m.hashOrder (variableNames ts)) s1 else (.ok (), s1)) := by
        cases s1.vars <;> rfl
      rcases ht : (if s1.vars.isSome then touchAll id (m.hashOrder (variableNames ts)) s1 else
          ((.ok (), s1) : Outcome Failure Unit × Session)) with ⟨r, s2⟩
      rw [ht] at htouch htsafe htargs heq
      rcases htouch with ⟨⟨⟩, e⟩ | ⟨e', e⟩
      · simp only at e; subst e
        rw [calculateTokens_after heq]
        by_cases hne : ts = []
        · rw [if_pos hne]
          refine .inl ⟨.inl ⟨_, rfl⟩, fun n env k => ?_⟩
          obtain ⟨ts', target, k, k', _⟩ := huniq k
          rw [htok] at k; cases k
          subst hne
          exact input_ne_nil k'
        · rw [if_neg hne]
          rcases C12_total ts with ⟨tree, hn⟩ | ⟨e, hn⟩
          · rw [hn]
            refine .inr ⟨tree.root, ⟨s2.vars, s2.db⟩, ?_, htsafe, ?_⟩
            · obtain ⟨k1, k2, k3⟩ := (C01_tokens_iff _ h.settings.radix.1 h.settings.radix.2 line ts).1 htok
              exact ⟨ts, tree.resultVar, id, s1, s2, k1, k2, k3, (C10_parser_iff_grammar ts tree).1 hn, hr, ht, rfl⟩
            · have := executeTree_end m tree id (s := s2) htsafe (by rw [htargs]; exact h.settings)
              rw [htargs] at this
              exact this
          · rw [hn]
            refine .inl ⟨.inr ⟨_, rfl⟩, fun n env k => ?_⟩
            obtain ⟨ts', target, k, k', _⟩ := huniq k
            rw [htok] at k; cases k
            have := (C10_parser_iff_grammar ts ⟨target, n⟩).2 k'
            rw [hn] at this; cases this
      · simp only at e; subst e
        refine .inl ⟨?_, fun n env k => ?_⟩
        · unfold calculateTokens
          exact ends_andThen (.inr ⟨e', congrArg Prod.fst heq⟩) (fun a s' k => by have := k.symm.trans heq; cases this)
        · obtain ⟨ts', target, k, k', s2', k2, _⟩ := huniq k
          rw [htok] at k; cases k
          rw [ht] at k2; cases k2
  · refine .inl ⟨.inr ⟨_, rfl⟩, fun n env k => ?_⟩
    obtain ⟨ts, _, k, _⟩ := huniq k
    rw [htok] at k; cases k
  · rcases C05_no_crash _ h.settings.radix.1 h.settings.radix.2 line with ⟨_, k⟩ | ⟨_, k⟩ <;> rw [htok] at k <;> cases k
  · rcases C05_no_crash _ h.settings.radix.1 h.settings.radix.2 line with ⟨_, k⟩ | ⟨_, k⟩ <;> rw [htok] at k <;> cases k

/-! ### Lines without risky operations -/

mutual

theorem expr_arithmetic {k ts n} : Expr k ts n → (∀ t ∈ ts, ¬ Risky t.value) → Arithmetic n
  | .signed h, hr => signed_arithmetic h hr
  | .lift h, hr => expr_arithmetic h hr
  | .op (o := o) (p := p) h _ h', hr =>
    .binary (fun e => hr ⟨.binary o, p⟩ (by simp) (by subst e; exact .inl rfl))
      (fun e => hr ⟨.binary o, p⟩ (by simp) (by subst e; exact .inr (.inl rfl)))
      (expr_arithmetic h fun t ht => hr t (by simp [ht])) (expr_arithmetic h' fun t ht => hr t (by simp [ht]))

theorem signed_arithmetic {ts n} : Signed ts n → (∀ t ∈ ts, ¬ Risky t.value) → Arithmetic n
  | .minus h, hr => .unary (by simp) (signed_arithmetic h fun t ht => hr t (by simp [ht]))
  | .atom h, hr => atom_arithmetic h hr

theorem atom_arithmetic {ts n} : Atom ts n → (∀ t ∈ ts, ¬ Risky t.value) → Arithmetic n
  | .number, _ => .number
  | .variable, _ => .variable
  | .paren h, hr => .paren (expr_arithmetic h fun t ht => hr t (by simp [ht]))
  | .unary (o := o) (p := p) h, hr =>
    .unary (fun e => hr ⟨.unary o, p⟩ (by simp) (by subst e; exact .inr (.inr rfl)))
      (signed_arithmetic h fun t ht => hr t (by simp [ht]))
  | .functionBare h _, hr =>
    have ha := signed_arithmetic h fun t ht => hr t (by simp [ht])
    .function fun n hn => by rw [List.mem_singleton.1 hn]; exact ha
  | .functionEmpty, _ => .function fun n hn => by cases hn
  | .function h, hr => .function (arguments_arithmetic h fun t ht => hr t (by simp [ht]))

theorem arguments_arithmetic {ts ns} : Arguments ts ns → (∀ t ∈ ts, ¬ Risky t.value) → ∀ n ∈ ns, Arithmetic n
  | .one h, hr =>
    have ha := expr_arithmetic h hr
    fun n hn => by rw [List.mem_singleton.1 hn]; exact ha
  | .more h h', hr =>
    have ha := expr_arithmetic h fun t ht => hr t (by simp [ht])
    have has := arguments_arithmetic h' (fun t ht => hr t (by simp [ht]))
    fun n hn => (List.mem_cons.1 hn).elim (fun e => e ▸ ha) (has n)

end

theorem input_arithmetic {ts target n} (h : Input ts target n) (hr : ∀ t ∈ ts, ¬ Risky t.value) : Arithmetic n := by
  cases h with
  | expression h => exact expr_arithmetic h hr
  | assignment h => exact expr_arithmetic h fun t ht => hr t (by simp [ht])

theorem safe_varsOk {env : Env} (h : Safe env.db) : ∀ sd, env.db = some sd → VarsOk sd.db :=
  fun sd hd => (h sd hd).varsOk

theorem ends_arithmetic (m : Machine) (args : Args) (h2 : 2 ≤ args.radix) {n : Node} (ha : Arithmetic n) {env : Env}
    (hs : Safe env.db) : Ends (n.execute m args env).1 := by
  obtain ⟨F, r, hne, hr⟩ := C26_expression_terminates m.overflowChecks args h2 n env
  have he := hr ⟨m.overflowChecks, F, m.hashOrder⟩ rfl (Nat.le_refl _)
  have : n.execute m args env = r := by
    rw [← he]
    exact congrFun (C19_settings m ⟨m.overflowChecks, F, m.hashOrder⟩ args args n ha) env
  refine ends_of (fun k => C27_arithmetic_never_crashes m args h2 n ha env (safe_varsOk hs) k) ?_
  rw [this]; exact hne

theorem evaluating_unique {m : Machine} {line : Str} {s : Session} (h : Submitted s line) {n n' : Node}
    {env env' : Env} (h1 : Evaluating m line s n env) (h2 : Evaluating m line s n' env') : n = n' ∧ env = env' := by
  obtain ⟨ts, target, id, s1, s2, a1, a2, a3, a4, a5, a6, rfl⟩ := h1
  obtain ⟨ts', target', id', s1', s2', b1, b2, b3, b4, b5, b6, rfl⟩ := h2
  have k := (C01_tokens_iff _ h.settings.radix.1 h.settings.radix.2 line ts).2 ⟨a1, a2, a3⟩
  have k' := (C01_tokens_iff _ h.settings.radix.1 h.settings.radix.2 line ts').2 ⟨b1, b2, b3⟩
  rw [k] at k'
  cases k'
  have p := (C10_parser_iff_grammar ts ⟨target, n⟩).2 a4
  have p' := (C10_parser_iff_grammar ts ⟨target', n'⟩).2 b4
  rw [p] at p'
  cases p'
  rw [a5] at b5
  cases b5
  rw [a6] at b6
  cases b6
  exact ⟨rfl, rfl⟩

end Bcalc
