import Verif.Proof.Editor3

/-! # Which errors occur -/

namespace Bcalc

open Spec

/-- The outcome is no runtime error but one of the database, and this only if there is a database. -/
def Clean (b : Bool) {α : Type} (r : Outcome Failure α) : Prop :=
  ∀ e, r = .err (.runtime e) → b = true ∧ ∃ d, e = .db d

variable {b : Bool}

theorem Clean.ok {α : Type} (a : α) : Clean b (.ok a : Outcome Failure α) := fun _ h => by cases h
theorem Clean.panic {α : Type} (k : PanicKind) : Clean b (.panic k : Outcome Failure α) := fun _ h => by cases h
theorem Clean.diverge {α : Type} : Clean b (.diverge : Outcome Failure α) := fun _ h => by cases h
theorem Clean.input {α : Type} (t : Str) (p : Option Position) : Clean b (.err (.input t p) : Outcome Failure α) :=
  fun _ h => by cases h
theorem Clean.db {α : Type} (e : DbError) (hb : b = true) : Clean b (.err (.runtime (.db e)) : Outcome Failure α) :=
  fun _ h => by cases h; exact ⟨hb, e, rfl⟩

theorem Clean.err {α β : Type} {e : Failure} (h : Clean b (.err e : Outcome Failure α)) :
    Clean b (.err e : Outcome Failure β) := fun t ht => h t (by injection ht with ht; rw [ht])

theorem Clean.bind {α β : Type} {o : Outcome Failure α} {f : α → Outcome Failure β} (h : Clean b o)
    (hf : ∀ a, o = .ok a → Clean b (f a)) : Clean b (o >>= f) := by
  cases o with
  | ok a => exact hf a rfl
  | err e => exact h.err
  | panic k => exact .panic k
  | diverge => exact .diverge

theorem Clean.andThen {σ α β : Type} {t : St σ α} {f : α → St σ β} {s : σ} (h : Clean b (t s).1)
    (hf : ∀ a s1, t s = (.ok a, s1) → Clean b (f a s1).1) : Clean b (t.andThen f s).1 := by
  unfold St.andThen
  rcases ht : t s with ⟨r, s1⟩
  rw [ht] at h
  cases r with
  | ok a => exact hf a s1 ht
  | err e => exact h.err
  | panic k => exact .panic k
  | diverge => exact .diverge

theorem clean_liftMath {α : Type} (p : Position) (o : Outcome MathError α) : Clean b (liftMath p o) := by
  cases o with
  | ok a => exact .ok a
  | err e => exact .input _ _
  | panic k => exact .panic k
  | diverge => exact .diverge

theorem clean_u8Add (m : Machine) (i j : Nat) : Clean b (u8Add m i j) := by
  unfold u8Add
  split
  · exact .ok _
  · split
    · exact .panic _
    · exact .ok _

theorem clean_applyUnary (m : Machine) (args : Args) (o : UnOp) (p : Position) (a : Rat) :
    Clean b (applyUnary m args o p a) := by
  cases o with
  | squareRoot => exact (clean_u8Add m _ _).bind fun _ _ => clean_liftMath _ _
  | negate => exact .ok _
  | absoluteValue => exact .ok _

theorem clean_applyBinary (m : Machine) (args : Args) (o : BinOp) (p : Position) (x y : Rat) :
    Clean b (applyBinary m args o p x y) := by
  cases o with
  | exponent => exact (clean_u8Add m _ _).bind fun _ _ => clean_liftMath _ _
  | add => exact .ok _
  | subtract => exact .ok _
  | multiply => exact .ok _
  | divide =>
    unfold applyBinary
    simp only
    split
    · exact .input _ _
    · unfold ratDiv
      split
      · exact .panic _
      · exact .ok _
  | modulus =>
    unfold applyBinary ratRem
    simp only
    split
    · exact .panic _
    · split <;> exact .ok _

theorem clean_applyFunction (f : FnName) (p : Position) (vs : List Rat) : Clean b (applyFunction f p vs) := by
  unfold applyFunction
  cases vs with
  | nil => exact .input _ _
  | cons a vs => cases f <;> exact .ok _

theorem clean_execVariable (x : Str) (p : Position) (env : Env) (hb : env.db.isSome = b) :
    Clean b (execVariable x p env).1 := by
  unfold execVariable
  obtain ⟨vars, db⟩ := env
  cases vars with
  | none => exact .input _ _
  | some vs =>
    simp only
    rcases get_cases vs x db with ⟨v, hl, hg⟩ | ⟨hl, rfl, hg⟩ | ⟨sd, hl, rfl, h⟩
    · rw [hg]; exact .ok _
    · rw [hg]; exact .input _ _
    · rcases h with ⟨v, _, hg⟩ | ⟨_, hg⟩ | ⟨e, _, hg⟩ | ⟨k, _, hg⟩ <;> rw [hg]
      · exact .ok _
      · exact .input _ _
      · exact .db _ hb.symm
      · exact .panic _

theorem execute_isSome (m : Machine) (args : Args) {n : Node} {env env1 : Env} {r : Outcome Failure Rat}
    (h : n.execute m args env = (r, env1)) (hb : env.db.isSome = b) : env1.db.isSome = b := by
  have := (execute_db (fun _ => True) m args n env).isSome
  rw [h] at this
  rw [← hb]; exact this

mutual
theorem clean_execute (m : Machine) (args : Args) : ∀ (n : Node) (env : Env), env.db.isSome = b →
    Clean b (n.execute m args env).1
  | .number v p, env, _ => .ok _
  | .variable x p, env, hb => by unfold Node.execute; exact clean_execVariable x p env hb
  | .unary o p n, env, hb => by
    unfold Node.execute
    exact (clean_execute m args n env hb).andThen fun _ _ _ => clean_applyUnary _ _ _ _ _
  | .binary o p l r, env, hb => by
    unfold Node.execute
    exact (clean_execute m args l env hb).andThen fun _ env1 h1 =>
      (clean_execute m args r env1 (execute_isSome m args h1 hb)).andThen fun _ _ _ => clean_applyBinary _ _ _ _ _ _
  | .function f p ns q, env, hb => by
    unfold Node.execute
    exact (clean_executeList m args ns env hb).andThen fun _ _ _ => clean_applyFunction _ _ _
  | .paren p q n, env, hb => by
    unfold Node.execute
    exact clean_execute m args n env hb
theorem clean_executeList (m : Machine) (args : Args) : ∀ (ns : List Node) (env : Env), env.db.isSome = b →
    Clean b (executeList m args ns env).1
  | [], env, _ => by unfold executeList; exact .ok _
  | n :: ns, env, hb => by
    unfold executeList
    exact (clean_execute m args n env hb).andThen fun _ env1 h1 =>
      (clean_executeList m args ns env1 (execute_isSome m args h1 hb)).andThen fun _ _ _ => .ok _
end

theorem clean_executeTree (m : Machine) (tree : SyntaxTree) (id : Option Int) (s : Session)
    (h : id.isSome = s.db.isSome) (hb : s.db.isSome = b) : Clean b (executeTree m tree id s).1 := by
  unfold executeTree
  simp only
  unfold SyntaxTree.execute
  refine (clean_execute m s.args tree.root _ hb).andThen fun v env henv => ?_
  cases hr : tree.resultVar with
  | none => exact .ok _
  | some x =>
    simp only
    obtain ⟨vars, db⟩ := env
    cases vars with
    | none => exact .input _ _
    | some vs =>
      have hdb := (execute_db (fun _ => True) m s.args tree.root ⟨s.vars, s.db⟩).isSome
      rw [henv] at hdb
      simp only at hdb ⊢
      unfold VariableStore.update
      cases db with
      | none =>
        cases id with
        | none => exact .ok _
        | some i =>
          rw [← h] at hdb
          cases hdb
      | some sd =>
        cases id with
        | none => rw [← h] at hdb; cases hdb
        | some i =>
          simp only
          rcases (sd.setVariable ⟨x.value, v⟩ i).1 with _ | _ | _ | _
          · exact .ok _
          · exact .db _ (by rw [← hb, ← h]; rfl)
          · exact .panic _
          · exact .diverge

theorem clean_touchOne (id : Option Int) (x : Str) (s : Session) (h : id.isSome = s.db.isSome)
    (hb : s.db.isSome = b) : Clean b (touchOne id x s).1 := by
  unfold touchOne
  obtain ⟨args, db, inputs, vars⟩ := s
  cases vars with
  | none => exact .ok _
  | some vs =>
    simp only at h ⊢
    unfold VariableStore.touch
    cases db with
    | none =>
      cases id with
      | none => exact .ok _
      | some i => cases h
    | some sd =>
      cases id with
      | none => cases h
      | some i =>
        simp only
        rcases (sd.touchVariable x i).1 with _ | _ | _ | _
        · exact .ok _
        · exact .db _ hb.symm
        · exact .panic _
        · exact .diverge

theorem clean_touchAll (id : Option Int) : ∀ (l : List Str) (s : Session), id.isSome = s.db.isSome →
    s.db.isSome = b → Clean b (touchAll id l s).1
  | [], _, _, _ => .ok _
  | x :: l, s, h, hb => by
    unfold touchAll
    refine (clean_touchOne id x s h hb).andThen fun _ s1 h1 => ?_
    have := (touchOne_db (own := fun _ => True) id x (fun _ _ => trivial) s)
    rw [h1] at this
    exact clean_touchAll id l s1 (by rw [h, OptRel.isSome this]) (by rw [← hb]; exact OptRel.isSome this)

theorem clean_touchVars (id : Option Int) (l : List Str) (o : Option VariableStore) (s : Session)
    (h : id.isSome = s.db.isSome) (hb : s.db.isSome = b) :
    Clean b ((match o with
      | some _ => touchAll id l
      | none => fun s => (.ok (), s) : Sess Unit) s).1 := by
  cases o with
  | none => exact .ok _
  | some vs => exact clean_touchAll id l s h hb

theorem clean_intToStr (n : Int) (r : Nat) : Clean b (intToStrRadix n r) := by
  unfold intToStrRadix
  split
  · exact .ok _
  · exact .panic _

theorem clean_displayResult (args : Args) (q : Rat) : Clean b (displayResult args q) := by
  unfold displayResult
  split
  · exact .ok _
  · unfold makeDecimalString
    simp only
    refine Clean.bind ?_ fun _ _ => (clean_intToStr _ _).bind fun _ _ => ?_
    · split
      · exact .ok _
      · exact (clean_intToStr _ _).bind fun _ _ => .ok _
    · split <;> exact .ok _

theorem clean_calculateTokens (m : Machine) (id : Option Int) (ts : List PTok) (s : Session)
    (h : id.isSome = s.db.isSome) (hb : s.db.isSome = b) : Clean b (calculateTokens m id ts s).1 := by
  unfold calculateTokens
  refine Clean.andThen (clean_touchVars id _ s.vars s h hb) fun _ s1 h1 => ?_
  have hdb := touchVars_db id (m.hashOrder (variableNames ts)) s.vars s
  have hs1 : id.isSome = s1.db.isSome := by
    rw [h, ← (OptRel.isSome hdb)]
    exact congrArg (fun r => r.2.db.isSome) h1
  split
  · exact .ok _
  · refine Clean.andThen ?_ fun tree s2 h2 => ?_
    · unfold St.lift
      rcases SyntaxTree.new ts with _ | e | _ | _
      · exact .ok _
      · exact .input _ _
      · exact .panic _
      · exact .diverge
    · have : s2 = s1 := by
        have := congrArg Prod.snd h2
        exact this.symm
      subst this
      exact (clean_executeTree m tree id s2 hs1 (by rw [← hs1, h, hb])).andThen fun _ _ _ => clean_displayResult _ _

theorem clean_mapString {α : Type} (o : Outcome (Positioned Str) α) : Clean b (o.mapErr Failure.ofString) := by
  rcases o with _ | _ | _ | _
  · exact .ok _
  · exact .input _ _
  · exact .panic _
  · exact .diverge

theorem clean_bool (get : Args → Bool) (set : Args → Bool → Args) (arguments : Positioned Str) (s : Session) :
    Clean b (executeBool get set arguments s).1 := by
  have : Clean b (boolArgument arguments) := by
    unfold boolArgument inputError
    simp only
    split
    · exact .ok _
    · split
      · exact .ok _
      · split
        · exact .ok _
        · exact .input _ _
  unfold executeBool
  rcases hb : boolArgument arguments with ⟨_ | _⟩ | e | k | _
  · exact .ok _
  · exact .ok _
  · rw [hb] at this
    exact this.err
  · exact .panic _
  · exact .diverge

theorem clean_radixArgument : ∀ l : List (Positioned Int), Clean b (radixArgument l)
  | [] => .ok _
  | [i] => by
    change Clean b (if i.value < 2 then _ else if i.value > 16 then _ else _)
    split
    · exact .input _ _
    · split
      · exact .input _ _
      · exact .ok _
  | _ :: _ :: _ => .input _ _

theorem clean_histcapArgument : ∀ l : List (Positioned Int), Clean b (histcapArgument l)
  | [] => .ok _
  | [i] => by
    change Clean b (match validateMaxHistorySize i.value with
      | .error e => .err (.input e (some i.position))
      | .ok () => .ok (some i.value))
    cases validateMaxHistorySize i.value
    · exact .input _ _
    · exact .ok _
  | _ :: _ :: _ => .input _ _

theorem clean_precisionValues (e : Nat) (p : Positioned Int) (q : Option (Positioned Int)) :
    Clean b (precisionValues e p q) := by
  unfold precisionValues inputError
  split
  · exact .input _ _
  · cases q with
    | none =>
      simp only
      split
      · exact .ok _
      · exact .input _ _
    | some q =>
      simp only
      cases toU8 q.value with
      | none => exact .input _ _
      | some w =>
        simp only
        split
        · exact .ok _
        · exact .input _ _

theorem clean_precisionArgument (e : Nat) : ∀ l : List (Positioned Int), Clean b (precisionArgument e l)
  | [] => .ok _
  | [p] => by rw [show precisionArgument e [p] = precisionValues e p none from rfl]; exact clean_precisionValues _ _ _
  | [p, q] => by
    rw [show precisionArgument e [p, q] = precisionValues e p (some q) from rfl]; exact clean_precisionValues _ _ _
  | _ :: _ :: _ :: _ => .input _ _

theorem clean_reloadLoop : ∀ (l : List Str) (vs : VariableStore) (sd : SavedData) (out : Str)
    (touched : List Str), b = true → Clean b (reloadLoop l vs sd out touched).1
  | [], vs, sd, out, touched, _ => .ok _
  | x :: l, vs, sd, out, touched, hb => by
    unfold reloadLoop VariableStore.reload
    rcases hg : sd.getVariable x with ⟨o, sd'⟩
    rcases o with ⟨_ | _⟩ | _ | _ | _
    · exact clean_reloadLoop l _ _ _ _ hb
    · exact clean_reloadLoop l _ _ _ _ hb
    · exact .db _ hb
    · exact .panic _
    · exact .diverge

theorem clean_purgeLoop : ∀ (l : List Str) (vs : VariableStore) (db : Option SavedData),
    db.isSome = b → Clean b (purgeLoop l vs db).1
  | [], vs, db, _ => .ok _
  | x :: l, vs, db, hb => by
    unfold purgeLoop VariableStore.purge
    cases db with
    | none => exact clean_purgeLoop l _ _ hb
    | some sd =>
      simp only
      rcases (sd.clearVariable x).1 with _ | _ | _ | _
      · exact clean_purgeLoop l _ _ hb
      · exact .db _ hb.symm
      · exact .panic _
      · exact .diverge

theorem clean_command (m : Machine) (ce : CommandExecutor) (cmd : Cmd) (arguments : Positioned Str)
    (s : Session) (hb : s.db.isSome = b) : Clean b (cmd.execute m ce arguments s).1 := by
  unfold Cmd.execute
  cases cmd with
  | help =>
    simp only
    unfold executeHelp
    simp only
    split
    · exact .ok _
    · split
      · exact .ok _
      · exact .input _ _
  | reloadVar =>
    simp only
    unfold executeReloadVar
    rcases tokenizeVariableList arguments.value with ts | _ | _ | _
    · obtain ⟨args, db, inputs, vars⟩ := s
      cases db with
      | none => exact .input _ _
      | some sd =>
        cases vars with
        | none => exact .input _ _
        | some vs => exact clean_reloadLoop _ _ _ _ _ hb.symm
    · exact .input _ _
    · exact .panic _
    · exact .diverge
  | purgeVar =>
    simp only
    unfold executePurgeVar
    rcases tokenizeVariableList arguments.value with ts | _ | _ | _
    · obtain ⟨args, db, inputs, vars⟩ := s
      cases vars with
      | none => exact .input _ _
      | some vs => exact clean_purgeLoop _ _ _ hb
    · exact .input _ _
    · exact .panic _
    · exact .diverge
  | histcap =>
    simp only
    unfold executeHistcap
    have hc : Clean b (intListArgs arguments.value >>= histcapArgument) :=
      (clean_mapString _).bind fun _ _ => clean_histcapArgument _
    rcases hx : (intListArgs arguments.value >>= histcapArgument) with i | _ | _ | _
    · simp only
      obtain ⟨args, db, inputs, vars⟩ := s
      cases db with
      | none => exact .input _ _
      | some sd =>
        cases i with
        | none =>
          simp only
          rcases sd.getMaxHistorySize with ⟨_ | _ | _ | _, sd'⟩
          · exact .ok _
          · exact .db _ hb.symm
          · exact .panic _
          · exact .diverge
        | some n =>
          simp only
          rcases sd.setMaxHistorySize n with ⟨_ | _ | _ | _, sd'⟩
          · exact .ok _
          · exact .db _ hb.symm
          · exact .panic _
          · exact .diverge
    · rw [hx] at hc; exact hc.err
    · exact .panic _
    · exact .diverge
  | fractional => exact clean_bool _ _ _ _
  | upper => exact clean_bool _ _ _ _
  | commas => exact clean_bool _ _ _ _
  | radix =>
    simp only
    unfold executeRadix
    have hc : Clean b (intListArgs arguments.value >>= radixArgument) :=
      (clean_mapString _).bind fun _ _ => clean_radixArgument _
    rcases hx : (intListArgs arguments.value >>= radixArgument) with ⟨_ | _⟩ | _ | _ | _
    · exact .ok _
    · exact .ok _
    · rw [hx] at hc; exact hc.err
    · exact .panic _
    · exact .diverge
  | convertToRadix =>
    simp only
    unfold executeConvertToRadix
    split
    · exact .ok _
    · have hc : Clean b (intListArgs arguments.value >>= radixArgument) :=
        (clean_mapString _).bind fun _ _ => clean_radixArgument _
      rcases hx : (intListArgs arguments.value >>= radixArgument) with ⟨_ | _⟩ | _ | _ | _
      · simp only
        split <;> exact .ok _
      · exact .ok _
      · rw [hx] at hc; exact hc.err
      · exact .panic _
      · exact .diverge
  | precision =>
    simp only
    unfold executePrecision
    have hc : Clean b (intListArgs arguments.value >>= precisionArgument s.args.extraPrecision) :=
      (clean_mapString _).bind fun _ _ => clean_precisionArgument _ _
    rcases hx : (intListArgs arguments.value >>= precisionArgument s.args.extraPrecision)
      with ⟨_ | ⟨_, _⟩⟩ | _ | _ | _
    · exact .ok _
    · exact .ok _
    · rw [hx] at hc; exact hc.err
    · exact .panic _
    · exact .diverge

theorem clean_calculateCommand (m : Machine) (ce : CommandExecutor) (id : Option Int)
    (name arguments : Positioned Str) (s : Session) (h : id.isSome = s.db.isSome)
    (hb : s.db.isSome = b) : Clean b (calculateCommand m ce id name arguments s).1 := by
  have hdb := executeCommand_db m ce id name arguments s
  unfold calculateCommand
  refine Clean.andThen ?_ fun r s1 h1 => ?_
  · unfold CommandExecutor.executeCommand
    cases ce.resolve name.value with
    | none => exact .input _ _
    | some cmd => exact clean_command m ce cmd arguments s hb
  · rw [h1] at hdb
    exact Clean.andThen (clean_touchVars id _ s1.vars s1 (by rw [h]; exact (OptRel.isSome hdb).symm)
      (by rw [← hb]; exact OptRel.isSome hdb))
      fun _ _ _ => .ok _

/-- After recording, there is a number for the input just if there is a database. -/
theorem recordInput_isSome {s s1 : Session} {id : Option Int} (hi : s.inputs.isSome = true ∨ s.db = none)
    (h : recordInput s = (.ok id, s1)) : id.isSome = s1.db.isSome := by
  obtain ⟨args, db, inputs, vars⟩ := s
  unfold recordInput at h
  cases inputs with
  | none =>
    rcases hi with hi | hi
    · cases hi
    · simp only at hi
      subst hi
      cases h
      rfl
  | some hist =>
    simp only at h
    unfold InputHistory.inputFinished at h
    rcases hc : (hist.currentLine : Outcome RuntimeErr Str) with text | e | k | _ <;> rw [hc] at h <;>
      simp only [Outcome.mapErr, Prod.mk.injEq, reduceCtorEq, false_and] at h
    cases db with
    | none =>
      simp only [Outcome.ok.injEq] at h
      rw [← h.1, ← h.2]; rfl
    | some sd =>
      simp only at h
      rw [vecIndex_last] at h
      simp only at h
      rcases hx : sd.addToInputHistory text with ⟨o, sd'⟩
      rw [hx] at h
      rcases o with i | e | k | _ <;> simp only [reduceCtorEq, false_and, Outcome.ok.injEq] at h
      rw [← h.1, ← h.2]; rfl

theorem recordInput_clean {s : Session} {h : InputHistory} {line : Str} (hi : s.inputs = some h)
    (hc : (h.currentLine : Outcome RuntimeErr Str) = .ok line) (hb : s.db.isSome = b) : Clean b (recordInput s).1 := by
  unfold recordInput
  rw [hi]
  simp only
  unfold InputHistory.inputFinished
  rw [hc]
  simp only
  rcases hd : s.db with _ | sd
  · exact .ok _
  · rw [hd] at hb
    simp only
    rw [vecIndex_last]
    simp only
    rcases hx : sd.addToInputHistory line with ⟨o, sd'⟩
    rcases o with i | e | k | _
    · exact .ok _
    · exact .db _ hb.symm
    · exact .panic _
    · exact .diverge

theorem calculate_clean (m : Machine) (ce : CommandExecutor) (line : Str) {s : Session}
    (hrec : Clean b (recordInput s).1) (hi : s.inputs.isSome = true ∨ s.db = none)
    (hb : s.db.isSome = b) : Clean b (calculate m ce line s).1 := by
  rw [calculate_eq]
  refine hrec.andThen fun id s1 h1 => ?_
  have hid := recordInput_isSome hi h1
  have hb1 : s1.db.isSome = b := by
    have := OptRel.isSome (recordInput_db s)
    rw [h1] at this
    rw [← hb]; exact this
  unfold afterRecording
  rcases tokenize line s1.args.radix with t | _ | _ | _
  · cases t with
    | tokens ts => exact clean_calculateTokens m id ts s1 hid hb1
    | command name arguments => exact clean_calculateCommand m ce id name arguments s1 hid hb1
  · exact .input _ _
  · exact .panic _
  · exact .diverge

end Bcalc
