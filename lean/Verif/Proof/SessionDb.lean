import Verif.Spec.Session
import Verif.Proof.Eval2

/-! # What the parts of `calculate` do to the database -/

namespace Bcalc
open Spec

/-! ## Evolution of the database -/

theorem Spec.Evolves.refl (kind : DbOp → Prop) (db : Db) : Evolves kind db db := ⟨[], by simp, rfl⟩

theorem Spec.Evolves.trans {kind : DbOp → Prop} {a b c : Db} (h : Evolves kind a b) (h' : Evolves kind b c) :
    Evolves kind a c := by
  obtain ⟨o, h1, rfl⟩ := h
  obtain ⟨o', h1', rfl⟩ := h'
  refine ⟨o ++ o', ?_, ?_⟩
  · intro op hop
    rcases List.mem_append.1 hop with h | h
    · exact h1 op h
    · exact h1' op h
  · unfold after; rw [List.foldl_append]

theorem Spec.Evolves.mono {k k' : DbOp → Prop} (hk : ∀ op, k op → k' op) {a b : Db} (h : Evolves k a b) :
    Evolves k' a b := by
  obtain ⟨o, h1, h2⟩ := h
  exact ⟨o, fun op hop => hk op (h1 op hop), h2⟩

theorem Spec.Evolves.one {kind : DbOp → Prop} {op : DbOp} (h : kind op) (db : Db) :
    Evolves kind db (op.apply db) := ⟨[op], by simpa using h, rfl⟩

theorem Spec.Evolves.keeps {kind : DbOp → Prop} {P : Db → Prop}
    (hP : ∀ op db, kind op → P db → P (op.apply db)) {a b : Db} (h : Evolves kind a b) (ha : P a) :
    P b := by
  obtain ⟨ops, h1, rfl⟩ := h
  induction ops generalizing a with
  | nil => exact ha
  | cons op ops ih =>
    exact ih (hP op a (h1 op (by simp)) ha) fun op' h' => h1 op' (by simp [h'])

/-- The operations of others, of operations marked as own or not. -/
def foreign (seg : List (Bool × DbOp)) : List DbOp := (seg.filter fun p => !p.1).map (·.2)

theorem foreign_append (a b : List (Bool × DbOp)) : foreign (a ++ b) = foreign a ++ foreign b := by
  simp [foreign]

/-- The operations in their order, own ones among those of others: those of others are the first so many of the
schedule, and what is committed are states on the way. -/
def Merges (own : DbOp → Prop) (sd sd' : SavedData) (k : Nat) (seg : List (Bool × DbOp)) : Prop :=
  sd'.env = sd.env.drop k ∧ foreign seg = (sd.env.take k).flatMap (·.others) ∧ (∀ p ∈ seg, p.1 = true → own p.2) ∧
  sd'.db = after (seg.map (·.2)) sd.db ∧
  ∃ new, sd'.commits = sd.commits ++ new ∧
    ∀ c ∈ new, ∃ pre post, seg = pre ++ post ∧ c = after (pre.map (·.2)) sd.db

theorem after_append (a b : List DbOp) (db : Db) : after (a ++ b) db = after b (after a db) := by
  unfold after; rw [List.foldl_append]

theorem Merges.trans {own : DbOp → Prop} {a b c : SavedData} {k k' : Nat} {s s' : List (Bool × DbOp)}
    (h : Merges own a b k s) (h' : Merges own b c k' s') : Merges own a c (k + k') (s ++ s') := by
  obtain ⟨h1, h2, h3, h4, n, h5, h6⟩ := h
  obtain ⟨h1', h2', h3', h4', n', h5', h6'⟩ := h'
  refine ⟨by rw [h1', h1, List.drop_drop], ?_, ?_, ?_, n ++ n', by rw [h5', h5, List.append_assoc], ?_⟩
  · rw [foreign_append, h2, h2', h1, List.take_add, List.flatMap_append]
  · intro p hp
    rcases List.mem_append.1 hp with h | h
    · exact h3 p h
    · exact h3' p h
  · rw [h4', h4, List.map_append, after_append]
  · intro d hd
    rcases List.mem_append.1 hd with hd | hd
    · obtain ⟨p, q, rfl, he⟩ := h6 d hd
      exact ⟨p, q ++ s', by simp, he⟩
    · obtain ⟨p, q, rfl, he⟩ := h6' d hd
      exact ⟨s ++ p, q, by simp, by rw [he, h4, List.map_append, after_append]⟩

/-- What a piece of a session does to its connection: it goes on in the schedule, operations of others
on the schedule and own ones of the kind happen, and what is committed are states on the way. -/
structure SdRel (own : DbOp → Prop) (sd sd' : SavedData) : Prop where
  env : ∃ k, sd'.env = sd.env.drop k
  db : Evolves (fun op => Scheduled sd op ∨ own op) sd.db sd'.db
  commits : ∃ new, sd'.commits = sd.commits ++ new ∧
    ∀ c ∈ new, Evolves (fun op => Scheduled sd op ∨ own op) sd.db c ∧
      Evolves (fun op => Scheduled sd op ∨ own op) c sd'.db
  position : sd'.position = sd.position
  last : sd.env = [] → sd.commits.getLast? = some sd.db → sd'.commits.getLast? = some sd'.db
  merges : ∃ k seg, Merges own sd sd' k seg

theorem SdRel.refl (own : DbOp → Prop) (sd : SavedData) : SdRel own sd sd :=
  ⟨⟨0, rfl⟩, Evolves.refl _ _, ⟨[], by simp⟩, rfl, fun _ h => h,
    ⟨0, [], rfl, rfl, by simp, rfl, [], by simp, by simp⟩⟩

theorem SdRel.scheduled {own : DbOp → Prop} {a b : SavedData} (h : SdRel own a b) {op : DbOp}
    (ho : Scheduled b op) : Scheduled a op := by
  obtain ⟨k, hk⟩ := h.env
  obtain ⟨e, he, hop⟩ := ho
  rw [hk] at he
  exact ⟨e, List.mem_of_mem_drop he, hop⟩

theorem SdRel.trans {own : DbOp → Prop} {a b c : SavedData} (h : SdRel own a b) (h' : SdRel own b c) :
    SdRel own a c := by
  have hm : ∀ op, Scheduled b op ∨ own op → Scheduled a op ∨ own op := by
    rintro op (ho | ho)
    · exact .inl (h.scheduled ho)
    · exact .inr ho
  refine ⟨?_, h.db.trans (h'.db.mono hm), ?_, h'.position.trans h.position,
    fun he hl => h'.last (by obtain ⟨k, hk⟩ := h.env; rw [hk, he]; simp) (h.last he hl), ?_⟩
  · obtain ⟨k, hk⟩ := h.env
    obtain ⟨k', hk'⟩ := h'.env
    exact ⟨k + k', by rw [hk', hk, List.drop_drop]⟩
  · obtain ⟨n, hn, hn'⟩ := h.commits
    obtain ⟨n', hm1, hm2⟩ := h'.commits
    refine ⟨n ++ n', by rw [hm1, hn, List.append_assoc], ?_⟩
    intro c hc
    rcases List.mem_append.1 hc with hc | hc
    · exact ⟨(hn' c hc).1, (hn' c hc).2.trans (h'.db.mono hm)⟩
    · exact ⟨h.db.trans ((hm2 c hc).1.mono hm), (hm2 c hc).2.mono hm⟩
  · obtain ⟨k, s, hs⟩ := h.merges
    obtain ⟨k', s', hs'⟩ := h'.merges
    exact ⟨_, _, hs.trans hs'⟩

theorem SdRel.mono {o o' : DbOp → Prop} (ho : ∀ op, o op → o' op) {a b : SavedData} (h : SdRel o a b) :
    SdRel o' a b := by
  have hm : ∀ op, Scheduled a op ∨ o op → Scheduled a op ∨ o' op := fun op h =>
    h.imp id (ho op)
  refine ⟨h.env, h.db.mono hm, ?_, h.position, h.last, ?_⟩
  · obtain ⟨n, hn, hn'⟩ := h.commits
    exact ⟨n, hn, fun c hc => ⟨(hn' c hc).1.mono hm, (hn' c hc).2.mono hm⟩⟩
  · obtain ⟨k, s, h1, h2, h3, h4⟩ := h.merges
    exact ⟨k, s, h1, h2, fun p hp hb => ho _ (h3 p hp hb), h4⟩

theorem nextEnv_scheduled {sd : SavedData} {op : DbOp} (h : op ∈ sd.nextEnv.others) :
    Scheduled sd op := by
  unfold SavedData.nextEnv at h
  cases he : sd.env with
  | nil => rw [he] at h; simp at h
  | cons e rest => rw [he] at h; exact ⟨e, by rw [he]; simp, by simpa using h⟩

theorem seen_evolves (own : DbOp → Prop) (sd : SavedData) :
    Evolves (fun op => Scheduled sd op ∨ own op) sd.db sd.seen :=
  ⟨sd.nextEnv.others, fun _ h => .inl (nextEnv_scheduled h), rfl⟩

theorem foreign_others (l : List DbOp) : foreign (l.map fun op => (false, op)) = l := by
  simp [foreign, List.filter_map, Function.comp_def]

theorem take_others (sd : SavedData) : (sd.env.take 1).flatMap (·.others) = sd.nextEnv.others := by
  unfold SavedData.nextEnv
  cases sd.env <;> simp

/-- Running a transaction that only reads or is an operation of the kind. -/
theorem run_rel {α : Type} {own : DbOp → Prop} {tx : Tx α}
    (h : tx.ReadOnly ∨ ∃ op, own op ∧ ∀ db, op.apply db = tx.commit db) (sd : SavedData) :
    SdRel own sd (sd.run tx).2 := by
  have htail : ∃ k, sd.env.tail = sd.env.drop k := ⟨1, by simp⟩
  have hs := seen_evolves own sd
  have hfail : SdRel own sd { sd with env := sd.env.tail, db := sd.seen } :=
    ⟨htail, hs, ⟨[], by simp⟩, rfl, fun he hl => by
      have : sd.seen = sd.db := by unfold SavedData.seen SavedData.nextEnv; rw [he]; rfl
      simp only [this]; exact hl,
      ⟨1, sd.nextEnv.others.map fun op => (false, op), by simp, by rw [foreign_others, take_others], by simp,
        by simp [SavedData.seen, after, Function.comp_def], [], by simp, by simp⟩⟩
  rcases run_cases sd tx with ⟨_, hr⟩ | ⟨_, hr⟩
  · rw [hr]; exact hfail
  · rw [hr]
    rcases htx : tx sd.seen with ⟨a, db'⟩ | _ | _ | _
    · have : Evolves (fun op => Scheduled sd op ∨ own op) sd.db db' := by
        rcases h with h | ⟨op, ho, hop⟩
        · rw [h _ _ _ htx]; exact hs
        · have he : db' = op.apply sd.seen := by
            rw [hop]; unfold Tx.commit; rw [htx]
          rw [he]
          exact hs.trans (Evolves.one (.inr ho) _)
      refine ⟨htail, this, ⟨[db'], rfl, by simpa using ⟨this, Evolves.refl _ _⟩⟩, rfl,
        fun _ _ => List.getLast?_concat, ?_⟩
      rcases h with h | ⟨op, ho, hop⟩
      · have hdb : db' = after sd.nextEnv.others sd.db := h _ _ _ htx
        exact ⟨1, sd.nextEnv.others.map fun op => (false, op), by simp, by rw [foreign_others, take_others], by simp,
          by simpa [Function.comp_def] using hdb, [db'], rfl, fun c hc => ⟨_, [], (List.append_nil _).symm, by
            rw [List.mem_singleton.1 hc]; simpa [Function.comp_def] using hdb⟩⟩
      · have hdb : db' = after (sd.nextEnv.others ++ [op]) sd.db := by
          rw [after_append]
          show db' = op.apply sd.seen
          rw [hop]; unfold Tx.commit; rw [htx]
        exact ⟨1, (sd.nextEnv.others.map fun op => (false, op)) ++ [(true, op)], by simp, by
            rw [foreign_append, foreign_others, take_others]; simp [foreign], by simp [ho],
          by simpa [Function.comp_def] using hdb, [db'], rfl, fun c hc => ⟨_, [], (List.append_nil _).symm, by
            rw [List.mem_singleton.1 hc]; simpa [Function.comp_def] using hdb⟩⟩
    · exact hfail
    · exact hfail
    · exact hfail

/-! ## The operations of a session -/

theorem setVariable_rel {own : DbOp → Prop} (sd : SavedData) (var : Variable) (id : Int)
    (h : own (.setVar var id)) : SdRel own sd (sd.setVariable var id).2 :=
  run_rel (.inr ⟨_, h, fun _ => rfl⟩) sd

theorem touchVariable_rel {own : DbOp → Prop} (sd : SavedData) (x : Str) (id : Int)
    (h : own (.touch x id)) : SdRel own sd (sd.touchVariable x id).2 :=
  run_rel (.inr ⟨_, h, fun _ => rfl⟩) sd

theorem clearVariable_rel {own : DbOp → Prop} (sd : SavedData) (x : Str)
    (h : own (.clear x)) : SdRel own sd (sd.clearVariable x).2 :=
  run_rel (.inr ⟨_, h, fun _ => rfl⟩) sd

theorem getVariable_rel (own : DbOp → Prop) (sd : SavedData) (x : Str) :
    SdRel own sd (sd.getVariable x).2 :=
  run_rel (.inl (readOnly_getVariable x)) sd

theorem add_rel {own : DbOp → Prop} (sd : SavedData) (input : Str) (h : own (.add input)) :
    SdRel own sd (sd.addToInputHistory input).2 :=
  run_rel (.inr ⟨_, h, fun _ => rfl⟩) sd

theorem getMax_rel (own : DbOp → Prop) (sd : SavedData) : SdRel own sd sd.getMaxHistorySize.2 :=
  run_rel (.inl (readOnly_selectMeta _)) sd

theorem setMax_rel {own : DbOp → Prop} (sd : SavedData) (n : Int) (h : own (.setCap n)) :
    SdRel own sd (sd.setMaxHistorySize n).2 := by
  unfold SavedData.setMaxHistorySize
  cases hv : validateMaxHistorySize n with
  | error e => exact SdRel.refl _ _
  | ok u =>
    refine run_rel (.inr ⟨_, h, fun db => ?_⟩) sd
    unfold DbOp.apply
    simp only [hv]

/-- The relation on optional connections. -/
def OptRel (own : DbOp → Prop) : Option SavedData → Option SavedData → Prop
  | none, none => True
  | some a, some b => SdRel own a b
  | _, _ => False

theorem OptRel.refl (own : DbOp → Prop) (o : Option SavedData) : OptRel own o o := by
  cases o
  · trivial
  · exact SdRel.refl _ _

theorem OptRel.trans {own : DbOp → Prop} {a b c : Option SavedData} (h : OptRel own a b)
    (h' : OptRel own b c) : OptRel own a c := by
  cases a <;> cases b <;> cases c <;> first | trivial | exact h.elim | exact h'.elim | exact SdRel.trans h h'

theorem OptRel.mono {o o' : DbOp → Prop} (ho : ∀ op, o op → o' op) {a b : Option SavedData}
    (h : OptRel o a b) : OptRel o' a b := by
  cases a <;> cases b <;> first | trivial | exact h.elim | exact SdRel.mono ho h

theorem update_rel {own : DbOp → Prop} (vs : VariableStore) (var : Variable) (id : Option Int)
    (db : Option SavedData) (h : ∀ i, id = some i → own (.setVar var i)) :
    OptRel own db (vs.update var id db).2.2 := by
  unfold VariableStore.update
  cases db with
  | none => cases id <;> trivial
  | some sd =>
    cases id with
    | none => exact SdRel.refl _ _
    | some i => exact setVariable_rel sd var i (h i rfl)

theorem touch_rel {own : DbOp → Prop} (vs : VariableStore) (x : Str) (id : Option Int)
    (db : Option SavedData) (h : ∀ i, id = some i → own (.touch x i)) :
    OptRel own db (vs.touch x id db).2.2 := by
  unfold VariableStore.touch
  cases db with
  | none => cases id <;> trivial
  | some sd =>
    cases id with
    | none => exact SdRel.refl _ _
    | some i => exact touchVariable_rel sd x i (h i rfl)

theorem touch_vars (vs : VariableStore) (x : Str) (id : Option Int)
    (db : Option SavedData) : (vs.touch x id db).2.1 = vs := by
  unfold VariableStore.touch
  cases db <;> cases id <;> rfl

theorem reload_rel (own : DbOp → Prop) (vs : VariableStore) (x : Str) (sd : SavedData) :
    SdRel own sd (vs.reload x sd).2.2 := by
  have := getVariable_rel own sd x
  unfold VariableStore.reload
  rcases hg : sd.getVariable x with ⟨o, sd'⟩
  rw [hg] at this
  rcases o with ⟨_ | _⟩ | _ | _ | _ <;> exact this

theorem get_rel (own : DbOp → Prop) (vs : VariableStore) (x : Str) (db : Option SavedData) :
    OptRel own db (vs.get x db).2.2 := by
  unfold VariableStore.get
  cases vs.lookup x with
  | some v => exact OptRel.refl _ _
  | none =>
    cases db with
    | none => trivial
    | some sd => exact reload_rel own vs x sd

theorem purge_rel {own : DbOp → Prop} (vs : VariableStore) (x : Str)
    (db : Option SavedData) (h : own (.clear x)) : OptRel own db (vs.purge x db).2.2 := by
  unfold VariableStore.purge
  cases db with
  | none => trivial
  | some sd => exact clearVariable_rel sd x h

/-! ## Evaluation -/

/-- The relation on the state of an evaluation. -/
def EnvRel (own : DbOp → Prop) (env env' : Env) : Prop := OptRel own env.db env'.db

theorem execVariable_db (own : DbOp → Prop) (x : Str) (p : Position) :
    (execVariable x p).Rel (EnvRel own) := by
  intro env
  unfold execVariable EnvRel
  obtain ⟨vars, db⟩ := env
  cases vars with
  | none => exact OptRel.refl _ _
  | some vs =>
    have := get_rel own vs x db
    simp only
    rcases hg : vs.get x db with ⟨r, vs', db'⟩
    rw [hg] at this
    rcases r with ⟨_ | _⟩ | _ | _ | _ <;> exact this

theorem execute_db (own : DbOp → Prop) (m : Machine) (args : Args) (n : Node) (env : Env) :
    OptRel own env.db (n.execute m args env).2.db :=
  execute_rel (R := EnvRel own) (fun _ => OptRel.refl _ _) (fun _ _ _ => OptRel.trans)
    (execVariable_db own) m args n env

/-- Own operations of running a syntax tree: storing the assigned variable. -/
def TreeOp (tree : SyntaxTree) (id : Option Int) (op : DbOp) : Prop :=
  ∃ x v i, tree.resultVar = some x ∧ id = some i ∧ op = .setVar ⟨x.value, v⟩ i

theorem treeExecute_db (m : Machine) (args : Args) (tree : SyntaxTree) (id : Option Int) (env : Env) :
    OptRel (TreeOp tree id) env.db (tree.execute m args id env).2.db := by
  unfold SyntaxTree.execute
  refine St.Rel.andThen (R := EnvRel (TreeOp tree id)) (fun _ _ _ => OptRel.trans)
    (fun env => execute_db _ m args tree.root env) (fun v env => ?_) env
  unfold EnvRel
  cases hr : tree.resultVar with
  | none => exact OptRel.refl _ _
  | some x =>
    obtain ⟨vars, db⟩ := env
    cases vars with
    | none => exact OptRel.refl _ _
    | some vs =>
      have := update_rel (own := TreeOp tree id) vs ⟨x.value, v⟩ id db
        (fun i hi => ⟨x, v, i, hr, hi, rfl⟩)
      simp only
      rcases hu : vs.update ⟨x.value, v⟩ id db with ⟨r, vs', db'⟩
      rw [hu] at this
      cases r <;> exact this

/-! ## Sessions -/

/-- The relation on sessions. -/
def SessRel (own : DbOp → Prop) (s s' : Session) : Prop := OptRel own s.db s'.db

theorem SessRel.refl (own : DbOp → Prop) (s : Session) : SessRel own s s := OptRel.refl _ _

/-- Own operations of recording an input. -/
def AddOp (inputs : Option InputHistory) (op : DbOp) : Prop :=
  ∃ h line, inputs = some h ∧ (h.currentLine : Outcome RuntimeErr Str) = .ok line ∧ op = .add line

theorem vecIndex_last {ε α : Type} (l : List α) (a : α) :
    ((usizeSub (l ++ [a]).length 1 >>= fun i => vecIndex (l ++ [a]) i) : Outcome ε α) = .ok a := by
  unfold usizeSub vecIndex
  simp

theorem recordInput_db (s : Session) : SessRel (AddOp s.inputs) s (recordInput s).2 := by
  unfold recordInput
  cases hi : s.inputs with
  | none => exact SessRel.refl _ _
  | some h =>
    simp only
    unfold InputHistory.inputFinished
    cases hc : (h.currentLine : Outcome RuntimeErr Str) with
    | ok line =>
      simp only
      cases hd : s.db with
      | none => unfold SessRel; rw [hd]; trivial
      | some sd =>
        simp only [vecIndex_last]
        have := add_rel (own := AddOp (some h)) sd line ⟨h, line, rfl, hc, rfl⟩
        rcases ha : sd.addToInputHistory line with ⟨r, sd'⟩
        rw [ha] at this
        unfold SessRel
        rw [hd]
        cases r <;> exact this
    | err e => exact SessRel.refl _ _
    | panic k => exact SessRel.refl _ _
    | diverge => exact SessRel.refl _ _

theorem touchOne_db {own : DbOp → Prop} (id : Option Int) (x : Str)
    (h : ∀ i, id = some i → own (.touch x i)) : (touchOne id x).Rel (SessRel own) := by
  intro s
  unfold touchOne SessRel
  cases hv : s.vars with
  | none => exact OptRel.refl _ _
  | some vs => exact touch_rel vs x id s.db h

theorem touchAll_db {own : DbOp → Prop} (id : Option Int) (l : List Str)
    (h : ∀ x ∈ l, ∀ i, id = some i → own (.touch x i)) : (touchAll id l).Rel (SessRel own) := by
  induction l with
  | nil => exact fun s => SessRel.refl _ _
  | cons x l ih =>
    unfold touchAll
    exact St.Rel.andThen (R := SessRel own) (fun _ _ _ => OptRel.trans)
      (touchOne_db id x (h x (by simp))) fun _ => ih fun y hy => h y (by simp [hy])

/-- Own operations of an expression, after recording. -/
def TokensOp (m : Machine) (id : Option Int) (tokens : List PTok) (op : DbOp) : Prop :=
  (∃ x ∈ m.hashOrder (variableNames tokens), ∃ i, id = some i ∧ op = .touch x i) ∨
  (∃ tree, SyntaxTree.new tokens = .ok tree ∧ TreeOp tree id op)

theorem calculateTokens_db (m : Machine) (id : Option Int) (tokens : List PTok) :
    (calculateTokens m id tokens).Rel (SessRel (TokensOp m id tokens)) := by
  intro s
  unfold calculateTokens
  refine St.Rel.andThen (R := SessRel (TokensOp m id tokens)) (fun _ _ _ => OptRel.trans) ?_ (fun _ => ?_) s
  · cases s.vars with
    | none => exact fun s => SessRel.refl _ _
    | some vs => exact touchAll_db id _ fun x hx i hi => .inl ⟨x, hx, i, hi, rfl⟩
  · split
    · exact fun s => SessRel.refl _ _
    · intro s
      cases hn : SyntaxTree.new tokens with
      | ok tree =>
        change SessRel _ s ((executeTree m tree id).andThen
          (fun result s => (displayResult s.args result, s)) s).2
        refine St.Rel.andThen (R := SessRel (TokensOp m id tokens)) (fun _ _ _ => OptRel.trans)
          (fun s => ?_) (fun _ s => SessRel.refl _ s) s
        unfold executeTree SessRel
        have := treeExecute_db m s.args tree id ⟨s.vars, s.db⟩
        rcases he : tree.execute m s.args id ⟨s.vars, s.db⟩ with ⟨r, env⟩
        rw [he] at this
        exact this.mono fun op h => .inr ⟨tree, hn, h⟩
      | err e => exact SessRel.refl _ s
      | panic k => exact SessRel.refl _ s
      | diverge => exact SessRel.refl _ s

theorem reloadLoop_db (own : DbOp → Prop) : ∀ (l : List Str) (vs : VariableStore) (sd : SavedData)
    (out : Str) (touched : List Str), SdRel own sd (reloadLoop l vs sd out touched).2.2
  | [], vs, sd, out, touched => SdRel.refl _ _
  | x :: l, vs, sd, out, touched => by
    unfold reloadLoop
    have := reload_rel own vs x sd
    rcases hr : vs.reload x sd with ⟨r, vs', sd'⟩
    rw [hr] at this
    cases r with
    | ok r => exact this.trans (reloadLoop_db own l vs' sd' _ _)
    | err e => exact this
    | panic k => exact this
    | diverge => exact this

theorem purgeLoop_db {own : DbOp → Prop} : ∀ (l : List Str) (vs : VariableStore)
    (db : Option SavedData), (∀ x ∈ l, own (.clear x)) → OptRel own db (purgeLoop l vs db).2.2
  | [], vs, db, _ => OptRel.refl _ _
  | x :: l, vs, db, h => by
    unfold purgeLoop
    have := purge_rel vs x db (h x (by simp))
    rcases hr : vs.purge x db with ⟨r, vs', db'⟩
    rw [hr] at this
    cases r with
    | ok r => exact this.trans (purgeLoop_db l vs' db' fun y hy => h y (by simp [hy]))
    | err e => exact this
    | panic k => exact this
    | diverge => exact this

/-- Own operations of a command, after recording. -/
def CmdOp (m : Machine) (cmd : Cmd) (arguments : Positioned Str) (op : DbOp) : Prop :=
  (cmd = .purgeVar ∧ ∃ ts, tokenizeVariableList arguments.value = .ok ts ∧
    ∃ x ∈ m.hashOrder (ts.map (·.value)), op = .clear x) ∨
  (cmd = .histcap ∧ ∃ n, op = .setCap n)

theorem bool_db {own : DbOp → Prop} (get : Args → Bool) (set : Args → Bool → Args)
    (arguments : Positioned Str) : (executeBool get set arguments).Rel (SessRel own) := by
  intro s
  unfold executeBool
  rcases boolArgument arguments with ⟨_ | _⟩ | _ | _ | _ <;> exact OptRel.refl _ _

theorem command_db (m : Machine) (ce : CommandExecutor) (cmd : Cmd) (arguments : Positioned Str) :
    (cmd.execute m ce arguments).Rel (SessRel (CmdOp m cmd arguments)) := by
  intro s
  unfold Cmd.execute
  cases cmd with
  | help => exact OptRel.refl _ _
  | reloadVar =>
    simp only
    unfold executeReloadVar
    cases tokenizeVariableList arguments.value with
    | ok ts =>
      cases hd : s.db with
      | none => unfold SessRel; rw [hd]; trivial
      | some sd =>
        cases hv : s.vars with
        | none => exact OptRel.refl _ _
        | some vs =>
          unfold SessRel; rw [hd]
          exact reloadLoop_db _ _ vs sd [] []
    | err e => exact OptRel.refl _ _
    | panic k => exact OptRel.refl _ _
    | diverge => exact OptRel.refl _ _
  | purgeVar =>
    simp only
    unfold executePurgeVar
    cases ht : tokenizeVariableList arguments.value with
    | ok ts =>
      cases hv : s.vars with
      | none => exact OptRel.refl _ _
      | some vs =>
        exact purgeLoop_db _ vs s.db fun x hx => .inl ⟨rfl, ts, ht, x, hx, rfl⟩
    | err e => exact OptRel.refl _ _
    | panic k => exact OptRel.refl _ _
    | diverge => exact OptRel.refl _ _
  | histcap =>
    simp only
    unfold executeHistcap
    cases intListArgs arguments.value >>= histcapArgument with
    | ok r =>
      cases hd : s.db with
      | none => unfold SessRel; rw [hd]; trivial
      | some sd =>
        unfold SessRel; rw [hd]
        cases r with
        | none =>
          simp only
          have := getMax_rel (CmdOp m .histcap arguments) sd
          rcases hr : sd.getMaxHistorySize with ⟨o, sd'⟩
          rw [hr] at this
          cases o <;> exact this
        | some n =>
          simp only
          have := setMax_rel (own := CmdOp m .histcap arguments) sd n (.inr ⟨rfl, n, rfl⟩)
          rcases hr : sd.setMaxHistorySize n with ⟨o, sd'⟩
          rw [hr] at this
          cases o <;> exact this
    | err e => exact OptRel.refl _ _
    | panic k => exact OptRel.refl _ _
    | diverge => exact OptRel.refl _ _
  | fractional => exact bool_db _ _ arguments s
  | upper => exact bool_db _ _ arguments s
  | commas => exact bool_db _ _ arguments s
  | radix =>
    simp only
    unfold executeRadix
    rcases (intListArgs arguments.value >>= radixArgument) with ⟨_ | _⟩ | _ | _ | _ <;>
      exact OptRel.refl _ _
  | convertToRadix =>
    simp only
    unfold executeConvertToRadix
    split
    · exact OptRel.refl _ _
    · rcases (intListArgs arguments.value >>= radixArgument) with ⟨_ | _⟩ | _ | _ | _
      · simp only; split <;> exact OptRel.refl _ _
      all_goals exact OptRel.refl _ _
  | precision =>
    simp only
    unfold executePrecision
    rcases (intListArgs arguments.value >>= precisionArgument s.args.extraPrecision) with
      ⟨_ | _⟩ | _ | _ | _ <;> exact OptRel.refl _ _

/-- Own operations of a command line, after recording: those of the command, and touching. -/
def CommandOp (m : Machine) (ce : CommandExecutor) (id : Option Int) (name arguments : Positioned Str)
    (op : DbOp) : Prop :=
  (∃ cmd, ce.resolve name.value = some cmd ∧ CmdOp m cmd arguments op) ∨
  (∃ x i, id = some i ∧ (ce.resolve name.value = some .reloadVar ∧
    ∃ ts, tokenizeVariableList arguments.value = .ok ts ∧ x ∈ m.hashOrder (ts.map (·.value))) ∧ op = .touch x i)

/-- /reloadvar reports to have used what it was asked for. -/
theorem reloadLoop_touched : ∀ (l : List Str) (vs : VariableStore) (sd : SavedData) (out : Str) (touched : List Str)
    {out' : Str} {touched' : List Str} {vs' : VariableStore} {sd' : SavedData},
    reloadLoop l vs sd out touched = (.ok (out', touched'), vs', sd') → touched' = touched ++ l
  | [], vs, sd, out, touched, out', touched', vs', sd', h => by
    unfold reloadLoop at h
    simp only [Prod.mk.injEq, Outcome.ok.injEq] at h
    rw [← h.1.2, List.append_nil]
  | name :: l, vs, sd, out, touched, out', touched', vs', sd', h => by
    unfold reloadLoop at h
    simp only at h
    revert h
    rcases vs.reload name sd with ⟨_ | _ | _ | _, vs1, sd1⟩ <;> intro h
    · have := reloadLoop_touched l _ _ _ _ h
      rw [this, List.append_assoc, List.singleton_append]
    all_goals simp at h

theorem reload_touched {m : Machine} {arguments : Positioned Str} {s s' : Session} {out : Str} {touched : List Str}
    (h : executeReloadVar m arguments s = (.ok (out, touched), s')) :
    ∃ ts, tokenizeVariableList arguments.value = .ok ts ∧ touched = m.hashOrder (ts.map (·.value)) := by
  unfold executeReloadVar at h
  cases ht : tokenizeVariableList arguments.value with
  | ok ts =>
    refine ⟨ts, rfl, ?_⟩
    rw [ht] at h
    simp only at h
    cases hd : s.db with
    | none => rw [hd] at h; simp at h
    | some sd =>
      cases hv : s.vars with
      | none => rw [hd, hv] at h; simp at h
      | some vs =>
        rw [hd, hv] at h
        simp only at h
        rcases hl : reloadLoop (m.hashOrder (ts.map (·.value))) vs sd [] [] with ⟨r, vs', sd'⟩
        rw [hl] at h
        simp only [Prod.mk.injEq] at h
        rw [h.1] at hl
        have := reloadLoop_touched _ _ _ _ _ hl
        simpa using this
  | _ => rw [ht] at h; simp at h

theorem msg_touched {cmd : Cmd} (h : cmd ≠ .reloadVar) (m : Machine) (ce : CommandExecutor)
    (arguments : Positioned Str) (s : Session) {out : Str} {touched : List Str} {s' : Session}
    (hx : cmd.execute m ce arguments s = (.ok (out, touched), s')) : touched = [] := by
  have hmsg : ∀ {a : Str} {out : Str} {touched : List Str}, msg a = (out, touched) → touched = [] := by
    intro a out touched h
    unfold msg at h
    exact (Prod.mk.inj h).2.symm
  have hb : ∀ (get : Args → Bool) (set : Args → Bool → Args),
      executeBool get set arguments s = (.ok (out, touched), s') → touched = [] := by
    intro get set hx
    unfold executeBool at hx
    revert hx
    rcases boolArgument arguments with ⟨_ | _⟩ | _ | _ | _ <;> intro hx <;>
      simp only [Prod.mk.injEq, Outcome.ok.injEq, reduceCtorEq, false_and] at hx <;>
      exact hmsg hx.1
  have hp : ∀ (l : List Str) (vs : VariableStore) (db : Option SavedData) vs' db',
      purgeLoop l vs db = (.ok (out, touched), vs', db') → touched = [] := by
    intro l
    induction l with
    | nil =>
      intro vs db vs' db' h
      unfold purgeLoop at h
      simp only [Prod.mk.injEq, Outcome.ok.injEq] at h
      exact hmsg h.1
    | cons x l ih =>
      intro vs db vs' db' h
      unfold purgeLoop at h
      rcases hq : vs.purge x db with ⟨_ | _ | _ | _, vs1, db1⟩
      · rw [hq] at h; exact ih _ _ _ _ h
      all_goals rw [hq] at h; simp at h
  unfold Cmd.execute at hx
  cases cmd with
  | help =>
    simp only [executeHelp] at hx
    split at hx
    · simp only [Prod.mk.injEq, Outcome.ok.injEq] at hx; exact hmsg hx.1
    · split at hx
      · simp only [Prod.mk.injEq, Outcome.ok.injEq] at hx; exact hmsg hx.1
      · simp at hx
  | reloadVar => exact absurd rfl h
  | purgeVar =>
    simp only [executePurgeVar] at hx
    cases ht : tokenizeVariableList arguments.value with
    | ok ts =>
      rw [ht] at hx
      cases hv : s.vars with
      | none => rw [hv] at hx; simp at hx
      | some vs =>
        rw [hv] at hx
        simp only at hx
        rcases hq : purgeLoop (m.hashOrder (ts.map (·.value))) vs s.db with ⟨r, vs', db'⟩
        rw [hq] at hx
        simp only [Prod.mk.injEq] at hx
        rw [hx.1] at hq
        exact hp _ _ _ _ _ hq
    | _ => rw [ht] at hx; simp at hx
  | histcap =>
    simp only [executeHistcap] at hx
    cases ht : (intListArgs arguments.value >>= histcapArgument) with
    | ok r =>
      rw [ht] at hx
      cases hd : s.db with
      | none => rw [hd] at hx; simp at hx
      | some sd =>
        rw [hd] at hx
        cases r with
        | none =>
          simp only at hx
          revert hx
          rcases sd.getMaxHistorySize with ⟨_ | _ | _ | _, sd'⟩ <;> intro hx <;>
            simp only [Prod.mk.injEq, Outcome.ok.injEq, reduceCtorEq, false_and] at hx
          exact hmsg hx.1
        | some n =>
          simp only at hx
          revert hx
          rcases sd.setMaxHistorySize n with ⟨_ | _ | _ | _, sd'⟩ <;> intro hx <;>
            simp only [Prod.mk.injEq, Outcome.ok.injEq, reduceCtorEq, false_and] at hx
          exact hmsg hx.1
    | _ => rw [ht] at hx; simp at hx
  | fractional => exact hb _ _ hx
  | upper => exact hb _ _ hx
  | commas => exact hb _ _ hx
  | radix =>
    simp only [executeRadix] at hx
    revert hx
    rcases (intListArgs arguments.value >>= radixArgument) with ⟨_ | _⟩ | _ | _ | _ <;> intro hx <;>
      simp only [Prod.mk.injEq, Outcome.ok.injEq, reduceCtorEq, false_and] at hx <;>
      exact hmsg hx.1
  | convertToRadix =>
    simp only [executeConvertToRadix] at hx
    split at hx
    · simp only [Prod.mk.injEq, Outcome.ok.injEq] at hx; exact hmsg hx.1
    · revert hx
      rcases (intListArgs arguments.value >>= radixArgument) with ⟨_ | _⟩ | _ | _ | _ <;> intro hx
      · simp only at hx
        split at hx <;> (simp only [Prod.mk.injEq, Outcome.ok.injEq] at hx; exact hmsg hx.1)
      · simp only [Prod.mk.injEq, Outcome.ok.injEq] at hx; exact hmsg hx.1
      all_goals simp at hx
  | precision =>
    simp only [executePrecision] at hx
    revert hx
    rcases (intListArgs arguments.value >>= precisionArgument s.args.extraPrecision) with
      ⟨_ | _⟩ | _ | _ | _ <;> intro hx <;>
      simp only [Prod.mk.injEq, Outcome.ok.injEq, reduceCtorEq, false_and] at hx <;>
      exact hmsg hx.1

theorem executeCommand_db (m : Machine) (ce : CommandExecutor) (id : Option Int)
    (name arguments : Positioned Str) :
    (ce.executeCommand m name arguments).Rel (SessRel (CommandOp m ce id name arguments)) := by
  intro s
  unfold CommandExecutor.executeCommand
  cases hr : ce.resolve name.value with
  | none => exact SessRel.refl _ _
  | some cmd =>
    exact (command_db m ce cmd arguments s).mono fun op h => .inl ⟨cmd, hr, h⟩

theorem calculateCommand_db (m : Machine) (ce : CommandExecutor) (id : Option Int)
    (name arguments : Positioned Str) :
    (calculateCommand m ce id name arguments).Rel (SessRel (CommandOp m ce id name arguments)) := by
  intro s
  unfold calculateCommand
  have h1 := executeCommand_db m ce id name arguments s
  rcases hx : ce.executeCommand m name arguments s with ⟨r, s1⟩
  rw [hx] at h1
  unfold St.andThen
  rw [hx]
  cases r with
  | ok r =>
    obtain ⟨out, touched⟩ := r
    refine h1.trans ?_
    simp only
    have ht : touched = [] ∨ (ce.resolve name.value = some .reloadVar ∧
        ∃ ts, tokenizeVariableList arguments.value = .ok ts ∧ touched = m.hashOrder (ts.map (·.value))) := by
      unfold CommandExecutor.executeCommand at hx
      cases hr : ce.resolve name.value with
      | none => rw [hr] at hx; simp at hx
      | some cmd =>
        rw [hr] at hx
        by_cases hc : cmd = .reloadVar
        · right
          subst hc
          exact ⟨rfl, reload_touched hx⟩
        · exact .inl (msg_touched hc m ce arguments s hx)
    have hall : (touchAll id touched).Rel (SessRel (CommandOp m ce id name arguments)) := by
      apply touchAll_db
      intro x hx i hi
      rcases ht with ht | ht
      · rw [ht] at hx; simp at hx
      · obtain ⟨ht, ts, h3, h4⟩ := ht
        exact .inr ⟨x, i, hi, ⟨ht, ts, h3, by rw [← h4]; exact hx⟩, rfl⟩
    cases s1.vars with
    | none => exact SessRel.refl _ _
    | some vs =>
      have := hall s1
      simp only
      rcases hq : touchAll id touched s1 with ⟨_ | _ | _ | _, s2⟩ <;> rw [hq] at this <;> exact this
  | err e => exact h1
  | panic k => exact h1
  | diverge => exact h1

/-- Own operations of an input line. -/
def LineOp (m : Machine) (ce : CommandExecutor) (line : Str) (s : Session) (op : DbOp) : Prop :=
  AddOp s.inputs op ∨ ∃ id,
    (∃ ts, tokenize line s.args.radix = .ok (.tokens ts) ∧ TokensOp m id ts op) ∨
    (∃ name arguments, tokenize line s.args.radix = .ok (.command name arguments) ∧
      CommandOp m ce id name arguments op)

theorem recordInput_args (s : Session) : (recordInput s).2.args = s.args ∧
    (recordInput s).2.vars = s.vars := by
  unfold recordInput
  cases s.inputs with
  | none => exact ⟨rfl, rfl⟩
  | some h => exact ⟨rfl, rfl⟩

/-- The part of `calculate` after recording. -/
def afterRecording (m : Machine) (ce : CommandExecutor) (line : Str) (id : Option Int) : Sess Str :=
  fun s =>
  match tokenize line s.args.radix with
  | .err e => (.err (Failure.ofParse e), s)
  | .panic k => (.panic k, s)
  | .diverge => (.diverge, s)
  | .ok (.tokens tokens) => calculateTokens m id tokens s
  | .ok (.command name arguments) => calculateCommand m ce id name arguments s

theorem calculate_eq (m : Machine) (ce : CommandExecutor) (line : Str) :
    calculate m ce line = recordInput.andThen (afterRecording m ce line) := rfl

theorem calculate_db (m : Machine) (ce : CommandExecutor) (line : Str) (s : Session) :
    SessRel (LineOp m ce line s) s (calculate m ce line s).2 := by
  have h1 := recordInput_db s
  have ha := (recordInput_args s).1
  rw [calculate_eq]
  rcases hr : recordInput s with ⟨r, s1⟩
  rw [hr] at h1 ha
  have h1' : SessRel (LineOp m ce line s) s s1 := h1.mono fun op h => .inl h
  unfold St.andThen
  rw [hr]
  simp only at ha
  cases r with
  | ok id =>
    refine h1'.trans ?_
    simp only
    unfold afterRecording
    rw [ha]
    cases ht : tokenize line s.args.radix with
    | ok t =>
      cases t with
      | tokens ts =>
        exact (calculateTokens_db m id ts s1).mono fun op h => .inr ⟨id, .inl ⟨ts, ht, h⟩⟩
      | command name arguments =>
        exact (calculateCommand_db m ce id name arguments s1).mono fun op h =>
          .inr ⟨id, .inr ⟨name, arguments, ht, h⟩⟩
    | err e => exact SessRel.refl _ _
    | panic k => exact SessRel.refl _ _
    | diverge => exact SessRel.refl _ _
  | err e => exact h1'
  | panic k => exact h1'
  | diverge => exact h1'

end Bcalc
