import Verif.Props.Program
import Verif.Props.Calculator
import Verif.Props.Streams
import Verif.Props.CommandLine
import Verif.Spec.Whole

/-!
# From the command line to the screen: C111
-/

namespace Bcalc
open Spec

/-- What is exchanged in a watched run are the lines that are entered and the outputs of the steps. -/
theorem watched_log {m : Machine} {ce : CommandExecutor} {errorText : RuntimeErr → Str} {e e' : Editor} {s : Screen}
    {events : List (Event × TermInfo)} {log : List (Str × Str)} (h : Watched m ce errorText e s events e' log) :
    Awaits m ce e → ∃ outs, runEvents m ce e events = .ok (outs, e') ∧ log.map (·.1) = enteredLines m ce e events ∧
      log.map (·.2) = (outs.filterMap (·.output)).map (saidFor errorText) := by
  induction h with
  | over => intro _; exact ⟨[], rfl, rfl, rfl⟩
  | @event e s line ev t as a e1 line' rest e2 log h1 h2 h3 h4 h5 h6 _ ih =>
    intro ha
    have hr := stepTrace_result m ce errorText e ev t
    rw [h3] at hr
    cases hst : step m ce e ev t with
    | err x => rw [hst] at hr; cases hr
    | panic x => rw [hst] at hr; cases hr
    | diverge => rw [hst] at hr; cases hr
    | ok r =>
      obtain ⟨out, e1'⟩ := r
      rw [hst] at hr
      simp only [stepResult, Outcome.ok.injEq, Prod.mk.injEq] at hr
      obtain ⟨hq, rfl⟩ := hr
      obtain ⟨outs, g1, g2, g3⟩ := ih (.event ha hst hq.symm)
      obtain ⟨⟨line0, ho⟩, hc⟩ := ha.ok
      have hrun : runEvents m ce e ((ev, t) :: rest) = .ok (out :: outs, e2) := by
        unfold runEvents
        rw [hst]
        simp only [Outcome.bind_ok]
        rw [← hq, g1]
        rfl
      refine ⟨out :: outs, hrun, ?_, ?_⟩
      all_goals
        cases hen : isEnter ev with
        | false =>
          obtain ⟨g4, _⟩ := step_other ho hc hen hst
          obtain ⟨d, o, q⟩ := out
          simp only at g4
          subst g4
          first
          | rw [enteredLines_other hen hst, ← hq]
            simpa [exchange] using g2
          | simpa [exchange] using g3
        | true =>
          obtain ⟨mods, rfl⟩ := isEnter_iff hen
          obtain rfl := ho.shows.unique h1
          have hE := step_enter_ok ho hst
          obtain ⟨d, d', sh, r, rfl, _, _, _⟩ := hE.out
          first
          | rw [enteredLines_enter h1 hst]
            simpa [exchange] using g2
          | simpa [exchange] using g3

theorem converses_replies {E : Evaluator} {c c' : Calculator} {talk : List (Str × Outcome Failure Str)}
    (h : Converses E c talk c') :
    ∀ p ∈ talk, (∃ text, p.2 = .ok text) ∨ ∃ text q, p.2 = .err (.input text q) := by
  induction h with
  | done => simp
  | line he _ ih =>
    intro p hp
    rcases List.mem_cons.1 hp with rfl | hp
    · cases he <;> first | exact .inl ⟨_, rfl⟩ | exact .inr ⟨_, _, rfl⟩
    · exact ih p hp

theorem asShown_eq {errorText : RuntimeErr → Str} : ∀ {talk : List (Str × Outcome Failure Str)} {log : List (Str × Str)}
    {outs : List Shown}, (∀ p ∈ talk, (∃ text, p.2 = .ok text) ∨ ∃ text q, p.2 = .err (.input text q)) →
    log.map (·.1) = talk.map (·.1) → log.map (·.2) = outs.map (saidFor errorText) →
    talk.map (shown ·.2) = outs.map .ok → log = asShown talk
  | [], log, outs, _, h1, _, _ => by
    simp only [List.map_nil, List.map_eq_nil_iff] at h1
    rw [h1]; rfl
  | (line, r) :: talk, [], outs, _, h1, _, _ => by simp at h1
  | (line, r) :: talk, (l, t) :: log, [], _, _, h2, _ => by simp at h2
  | (line, r) :: talk, (l, t) :: log, o :: outs, h, h1, h2, h3 => by
    simp only [List.map_cons, List.cons.injEq] at h1 h2 h3
    have ih := asShown_eq (fun p hp => h p (List.mem_cons_of_mem _ hp)) h1.2 h2.2 h3.2
    unfold asShown at ih ⊢
    rw [List.map_cons, ← ih, h1.1, h2.1]
    congr 2
    have h3 := h3.1
    rcases h _ (List.mem_cons_self ..) with ⟨text, hr⟩ | ⟨text, q, hr⟩
    · simp only at hr
      subst hr
      simp only [shown, Outcome.ok.injEq] at h3
      rw [← h3]; rfl
    · simp only at hr
      subst hr
      simp only [shown, Outcome.ok.injEq] at h3
      rw [← h3]; rfl

/-- The session that the program starts is the calculator at its start. -/
theorem launched_starts {m : Machine} {args : Args} {opened : Outcome DbError (Option SavedData)} {db : Option SavedData}
    {t : TermInfo} {d : Drawing} {e : Editor} {c : Calculator} (ho : args.noDb = false → opened = .ok db)
    (hst : Editor.start m args db t = .ok (d, e)) (h : Launched args opened c) : StartsAs e.session c := by
  unfold Editor.start at hst
  have hd := draw_ok hst
  rw [hd]
  refine ⟨h.settings.symm, rfl, fun x => (h.values x).symm, ?_⟩
  rcases h.saved with ⟨h1, h2⟩ | ⟨h1, h2, h3⟩ | ⟨sd, ops, h1, h2, h3, h4, h5⟩
  · left
    refine ⟨?_, h2⟩
    show (if args.noDb then none else db) = none
    rw [h1]; rfl
  · left
    refine ⟨?_, h3⟩
    show (if args.noDb then none else db) = none
    have := ho h1
    rw [h2] at this
    cases this
    rw [h1]; rfl
  · right
    refine ⟨sd, ops, ?_, h3, h4, h5⟩
    show (if args.noDb then none else db) = some sd
    have := ho h1
    rw [h2] at this
    cases this
    rw [h1]; rfl

theorem program_talk {m : Machine} {ce : CommandExecutor} {E : Evaluator}
    (hE : ∀ (e e' : Editor) (_ : Awaits m ce e) (c : Calculator) (_ : StartsAs e.session c) (_ : ValidSettings e.args)
      (evs : List (Event × TermInfo)) (outs : List StepOut) (_ : runEvents m ce e evs = .ok (outs, e')),
      ∃ talk c', talk.map (·.1) = enteredLines m ce e evs ∧ talk.map (shown ·.2) = (outs.filterMap (·.output)).map .ok ∧
        Converses E c talk c' ∧ Resembles e'.session c')
    {errorText : RuntimeErr → Str} {args : Args}
    {opened : Outcome DbError (Option SavedData)} {s0 : Screen} {events : List (Event × TermInfo)} {e : Editor}
    {log : List (Str × Str)} {c : Calculator} (h : ProgramWatched m ce errorText args opened s0 events e log)
    (hc : Launched args opened c) (hv : ValidSettings args) :
    ∃ talk c', log = asShown talk ∧ Converses E c talk c' ∧ Resembles e.session c' := by
  obtain ⟨db, d, e0, ho, hn, hst, hw⟩ := h
  have ha : Awaits m ce e0 := .start hst
  obtain ⟨outs, h1, h2, h3⟩ := watched_log hw ha
  have hargs : e0.args = args := by
    have hst' := hst
    unfold Editor.start at hst'
    rw [draw_ok hst']
  obtain ⟨talk, c', h4, h5, h6, h7⟩ := hE e0 e ha c (launched_starts ho hst hc) (by rw [hargs]; exact hv) events outs h1
  exact ⟨talk, c', asShown_eq (converses_replies h6) (h2.trans h4.symm) h3 h5, h6, h7⟩

theorem means_settings {ss : List GivenOption} {args : Args} {line : Option Str} (h : Means ss args line)
    (h1 : args.convertToRadix ≠ some 1) (hp : args.precision + args.extraPrecision ≤ 255) : ValidSettings args := by
  obtain ⟨v1, v2, v3, v4, v5⟩ := means_valid h
  refine ⟨⟨v1, v2⟩, fun r hr => ?_, by omega⟩
  have hr' := v3 r hr
  have : r ≠ 1 := by rintro rfl; exact h1 hr
  omega

/-- The program on the normal screen, from the command line on.  It is interactive, with the settings that the options
mean.  Whatever is typed: the screen has, from the row on which the program was started, a conversation with the calculator
on one page, its lines as they were entered, and below each the reply; then the line that is being edited.  If the
user then quits, all of it stays there, the exit status is 0, and the saved data are those of the calculator. -/
theorem C111_normal_screen (m : Machine) (hm : HashOk m) : ∃ E : Evaluator, ∀ (ce : CommandExecutor)
    (_ : CommandExecutor.new = .ok ce) (errorText : RuntimeErr → Str) (argv : List Str) (ss : List GivenOption)
    (args : Args) (_ : Written argv ss) (_ : Means ss args none) (_ : args.alternateScreen = false)
    (_ : args.convertToRadix ≠ some 1) (_ : args.precision + args.extraPrecision ≤ 255)
    (opened : Outcome DbError (Option SavedData)) (c : Calculator) (_ : Launched args opened c)
    (s0 : Screen) (_ : s0.Ok) (_ : 6 ≤ s0.width) (_ : s0.width < 65536) (_ : s0.BlankFrom (s0.row + 1))
    (events : List (Event × TermInfo)) (e : Editor) (log : List (Str × Str)) (line : Str)
    (_ : ProgramWatched m ce errorText args opened s0 events e log) (_ : Shows e line),
    startProgram argv = .interactive args ∧
    ∃ talk c', Converses E c talk c' ∧ Resembles e.session c' ∧
      (let run := mainInteractive m ce errorText args opened false false none s0.reports events
       let s := s0.run run.1
       run.2 = .waiting ∧ s0.SameAbove s s0.row ∧ s.RowsAre s0.row (transcript s0.width (asShown talk)) ∧
       s.row = s0.row + (transcript s0.width (asShown talk)).length ∧
       (∃ row offset, EditRow s0.width line offset e.cursorPos row s.col ∧ s.RowIs s.row row) ∧
       s.BlankFrom (s.row + 1)) ∧
      ∀ ev t, (ev = .key (.char 'c') .control ∨ ev = .key (.char 'd') .control ∨ ev = .key (.char 'z') .control) →
        let run := mainInteractive m ce errorText args opened false false none s0.reports (events ++ [(ev, t)])
        let s := s0.run run.1
        exitStatus run.2 = some 0 ∧ s0.SameAbove s s0.row ∧ s.RowsAre s0.row (transcript s0.width (asShown talk)) ∧
        s.row = s0.row + (transcript s0.width (asShown talk)).length + 1 ∧ s.BlankFrom s.row := by
  obtain ⟨E, hE⟩ := C106_keyboard m hm
  refine ⟨E, fun ce hce errorText argv ss args hw hme ha h1 hp opened c hc s0 hok h6 h16 hb events e log line h hs => ?_⟩
  obtain ⟨talk, c', h2, h3, h4⟩ := program_talk (hE ce hce) h hc (means_settings hme h1 hp)
  subst h2
  refine ⟨(C95_command_line argv args).2.2 ⟨ss, hw, hme⟩, talk, c', h3, h4,
    C83_program m ce hce errorText args opened s0 events e _ line h hs ha hok h6 h16 hb, fun ev t hev => ?_⟩
  obtain ⟨q1, q2, q3, q4, _, q6⟩ :=
    C83_program_quit m ce hce errorText args opened s0 events e _ line ev t h hs hev ha hok h6 h16 hb
  exact ⟨by rw [q1]; rfl, q2, q3, q4, q6⟩

/-- The program on the alternate screen, from the command line on: as long as there is a row left for the prompt the
screen has, from the first row on, a conversation with the calculator on one page; if the line that is being edited fits
below, it is shown there. -/
theorem C111_alternate_screen (m : Machine) (hm : HashOk m) : ∃ E : Evaluator, ∀ (ce : CommandExecutor)
    (_ : CommandExecutor.new = .ok ce) (errorText : RuntimeErr → Str) (argv : List Str) (ss : List GivenOption)
    (args : Args) (_ : Written argv ss) (_ : Means ss args none) (_ : args.alternateScreen = true)
    (_ : args.convertToRadix ≠ some 1) (_ : args.precision + args.extraPrecision ≤ 255)
    (opened : Outcome DbError (Option SavedData)) (c : Calculator) (_ : Launched args opened c)
    (s0 : Screen) (_ : s0.Ok) (_ : s0.col = 0)
    (events : List (Event × TermInfo)) (e : Editor) (log : List (Str × Str)) (line : Str)
    (_ : ProgramWatched m ce errorText args opened s0 events e log) (_ : Shows e line),
    startProgram argv = .interactive args ∧
    ∃ talk c', Converses E c talk c' ∧ Resembles e.session c' ∧
      let run := mainInteractive m ce errorText args opened false false none s0.reports events
      let s := s0.run run.1
      run.2 = .waiting ∧
      (s0.row + (transcript s0.width (asShown talk)).length < s0.top + s0.height →
        s0.SameAbove s s0.row ∧ s.top = s0.top ∧ s.RowsAre s0.row (transcript s0.width (asShown talk)) ∧
        (s0.row + (transcript s0.width (asShown talk) ++ inputRows s0.width line).length ≤ s0.top + s0.height →
          s.RowsAre s0.row (transcript s0.width (asShown talk) ++ inputRows s0.width line) ∧
          s.BlankFrom (s0.row + (transcript s0.width (asShown talk) ++ inputRows s0.width line).length))) := by
  obtain ⟨E, hE⟩ := C106_keyboard m hm
  refine ⟨E, fun ce hce errorText argv ss args hw hme ha h1 hp opened c hc s0 hok hcol events e log line h hs => ?_⟩
  obtain ⟨talk, c', h2, h3, h4⟩ := program_talk (hE ce hce) h hc (means_settings hme h1 hp)
  subst h2
  exact ⟨(C95_command_line argv args).2.2 ⟨ss, hw, hme⟩, talk, c', h3, h4, (program_waits h).1,
    fun hroom => (C84_program m ce hce errorText args opened s0 events e _ line h hs ha hok hcol hroom).2⟩

theorem openDb_env {db : Db} {sd : SavedData} (h : SavedData.openDb db [] = .ok sd) : sd.env = [] := by
  unfold SavedData.openDb at h
  rw [run_quiet rfl] at h
  split at h
  · rename_i front sd1 h1
    cases h
    cases hx : openTx ({ db := db, position := none, env := [], commits := [] } : SavedData).db with
    | ok r => rw [hx] at h1; cases h1; rfl
    | err x => rw [hx] at h1; cases h1
    | panic x => rw [hx] at h1; cases h1
    | diverge => rw [hx] at h1; cases h1
  all_goals cases h

/-- Every start of the program is the start of such a calculator: without saved data if they are not wanted or there is no
place for them; else with those of all the sessions so far (or none yet, if there is no file), which opening leaves as they
are. -/
theorem C111_launched (args : Args) :
    (∀ opened, args.noDb = true ∨ opened = .ok none → Launched args opened ⟨args, fun _ => none, none⟩) ∧
    (args.noDb = false → ∀ ops, ∃ sd, SavedData.openDb (after ops newDb) [] = .ok sd ∧
      Launched args (.ok (some sd)) ⟨args, fun _ => none, some (storeAfter ops)⟩) ∧
    (args.noDb = false → ∃ sd, SavedData.openDb ⟨[], [], [], []⟩ [] = .ok sd ∧
      Launched args (.ok (some sd)) ⟨args, fun _ => none, some .fresh⟩) := by
  refine ⟨fun opened h => ?_, fun hn ops => ?_, fun hn => ?_⟩
  · cases hn : args.noDb with
    | true => exact ⟨rfl, fun _ => rfl, .inl ⟨hn, rfl⟩⟩
    | false =>
      rcases h with h | h
      · rw [hn] at h; cases h
      · exact ⟨rfl, fun _ => rfl, .inr (.inl ⟨hn, h, rfl⟩)⟩
  · obtain ⟨_, sd, h1, h2⟩ := C52_existing (after ops newDb) ⟨ops, rfl⟩
    exact ⟨sd, h1, rfl, fun _ => rfl, .inr (.inr ⟨sd, ops, hn, rfl, openDb_env h1, h2, rfl⟩)⟩
  · obtain ⟨sd, h1, h2, _⟩ := C52_fresh
    exact ⟨sd, h1, rfl, fun _ => rfl, .inr (.inr ⟨sd, [], hn, rfl, openDb_env h1, h2, rfl⟩)⟩

/-- After any keys the database is one that sessions have left behind, and still nobody else uses it. -/
theorem keyboard_leaves {m : Machine} (hm : HashOk m) {ce : CommandExecutor} (hce : CommandExecutor.new = .ok ce)
    {e e' : Editor} (ha : Awaits m ce e) {c : Calculator} (hb : StartsAs e.session c) (hv : ValidSettings e.args)
    {evs : List (Event × TermInfo)} {outs : List StepOut} (hr : runEvents m ce e evs = .ok (outs, e')) :
    ∀ sd, e'.db = some sd → Reachable sd.db ∧ sd.env = [] := by
  obtain rfl := new_eq_table hce
  obtain ⟨s', h1, h2⟩ := C103_session m table e e' ha hb.follows.undisturbed.quiet evs outs hr
  obtain ⟨talk, h3, h4, h5⟩ := converse_dialogue _ rfl h1
  have hok : ∀ p ∈ talk, (∀ k, p.2 ≠ .panic k) ∧ p.2 ≠ .diverge := by
    intro p hp
    have : shown p.2 ∈ talk.map (shown ·.2) := List.mem_map.2 ⟨p, hp, rfl⟩
    rw [h5] at this
    obtain ⟨a, _, ha⟩ := List.mem_map.1 this
    constructor
    · intro k hk; rw [hk] at ha; cases ha
    · intro hk; rw [hk] at ha; cases ha
  obtain ⟨c', h6, h7⟩ := sim_dialogue hm h3 hb.follows hv hok
  intro sd hd
  have hs : e'.session.db = some sd := hd
  have hsv := h2.saved
  have hft := h2.future
  rw [hs] at hsv hft
  cases hs' : s'.db with
  | none => rw [hs'] at hsv; cases hsv
  | some sd' =>
    rw [hs'] at hsv hft
    simp only [Option.map_some, Option.some.injEq] at hsv hft
    have hu := h7.undisturbed
    exact ⟨hsv ▸ hu.reachable sd' hs', hft ▸ hu.quiet sd' hs'⟩

/-- The next start of the program on the database that the session leaves behind is again the start of such a calculator:
one with the history, the capacity and the variables that the calculator of the session has saved in the end. -/
theorem C111_next (m : Machine) (hm : HashOk m) (ce : CommandExecutor) (hce : CommandExecutor.new = .ok ce)
    (errorText : RuntimeErr → Str) (args : Args) (hv : ValidSettings args)
    (opened : Outcome DbError (Option SavedData)) (c c' : Calculator) (hc : Launched args opened c)
    (s0 : Screen) (events : List (Event × TermInfo)) (e : Editor) (log : List (Str × Str))
    (h : ProgramWatched m ce errorText args opened s0 events e log) (sd : SavedData) (hd : e.db = some sd)
    (hres : Resembles e.session c') (args' : Args) (hn : args'.noDb = false) :
    ∃ sd' c2 st st', SavedData.openDb sd.db [] = .ok sd' ∧ Launched args' (.ok (some sd')) c2 ∧ c2.saved = some st' ∧ c'.saved = some st ∧
      st'.history = st.history ∧ st'.cap = st.cap ∧
      ∀ x q, (∃ i, st'.vars x = some (q, i)) ↔ ∃ i, st.vars x = some (q, i) := by
  obtain ⟨db, d, e0, ho, hn', hst, hw⟩ := h
  have ha : Awaits m ce e0 := .start hst
  obtain ⟨outs, h1, _, _⟩ := watched_log hw ha
  have hargs : e0.args = args := by
    have hst' := hst
    unfold Editor.start at hst'
    rw [draw_ok hst']
  obtain ⟨⟨ops, hops⟩, _⟩ := keyboard_leaves hm hce ha (launched_starts ho hst hc) (by rw [hargs]; exact hv) h1 sd hd
  cases hsv : c'.saved with
  | none => have := hres.none.2 hsv; rw [show e.session.db = some sd from hd] at this; cases this
  | some st =>
    obtain ⟨g1, g2, g3⟩ := hres.saved sd st hd hsv
    obtain ⟨_, sd', hop, hdb⟩ := C52_existing sd.db ⟨ops, hops⟩
    have hq : sd'.env = [] := openDb_env hop
    have hL : Launched args' (.ok (some sd')) ⟨args', fun _ => none, some (storeAfter ops)⟩ :=
      ⟨rfl, fun _ => rfl, .inr (.inr ⟨sd', ops, hn, rfl, hq, hdb.trans hops, rfl⟩)⟩
    refine ⟨sd', _, st, storeAfter ops, hop, hL, rfl, rfl, ?_⟩
    have hrep : Rep (storeAfter ops) (after ops newDb) := rep_after ops
    rw [← hops] at hrep
    refine ⟨?_, ?_, fun x q => ?_⟩
    · rw [← g1]; exact hrep.historyOf.symm
    · have h3 : lookupKey metaMaxHistorySize sd.db.metaInt = some ((storeAfter ops).cap : Int) := hrep.wf.hcap
      have h4 : lookupKey metaMaxHistorySize sd.db.metaInt = some (st.cap : Int) := g2
      rw [h3] at h4
      simpa using h4
    · rw [← g3]; exact (hrep.stored x q).symm

/-! ## Examples -/

/-- The program without saved data. -/
def exAlone (alternate : Bool) : Args := { Args.default with noDb := true, alternateScreen := alternate }

theorem exAlone_launched (alternate : Bool) (opened : Outcome DbError (Option SavedData)) :
    Launched (exAlone alternate) opened ⟨exAlone alternate, fun _ => none, none⟩ :=
  ⟨rfl, fun _ => rfl, .inl ⟨rfl, rfl⟩⟩

/-- The hypotheses of C111_normal_screen are met: `--no-db` on the command line; 1+2 is entered, 3 is the reply, and the
next line is begun. -/
example : HashOk exForward ∧ Written ["--no-db".toList] [(.noDb, none)] ∧ Means [(.noDb, none)] (exAlone false) none ∧
    (∃ e, ProgramWatched exForward table (fun _ => []) (exAlone false) (.err .environment) (exBlank 12 5 2)
      (exUnasked "1+2" ++ [(.key .enter .none, ⟨0, 4, 12⟩)] ++ exUnasked "4") e [("1+2".toList, "3".toList)] ∧
      Shows e "4".toList) ∧ asShown [("1+2".toList, .ok "3".toList)] = [("1+2".toList, "3".toList)] := by
  refine ⟨fun _ => List.Perm.refl _, Written.flag (o := .noDb) (by simp [Valued]) .nil, ?_,
    exProgram_meets (by decide +kernel), rfl⟩
  constructor <;> simp [NumberIs, Args.default, exAlone]

/-- The hypotheses of C111_alternate_screen are met: with `-a` in addition. -/
example : Written ["--no-db".toList, "-a".toList] [(.noDb, none), (.alternateScreen, none)] ∧
    Means [(.noDb, none), (.alternateScreen, none)] (exAlone true) none ∧
    (∃ e, ProgramWatched exForward table (fun _ => []) (exAlone true) (.err .environment) (exBlank 9 4 0)
      (exUnasked "1+2" ++ [(.key .enter .none, ⟨0, 2, 9⟩)] ++ exUnasked "4") e [("1+2".toList, "3".toList)] ∧
      Shows e "4".toList) := by
  refine ⟨?_, ?_, exProgram_meets (by decide +kernel)⟩
  · exact Written.flag (o := .noDb) (by simp [Valued])
      (Written.group (Group.flag .alternateScreen (by simp [Valued])) .nil)
  · constructor <;> simp [NumberIs, Args.default, exAlone]

/-- A database that has been used: the calculator begins with what is saved there. -/
example : Launched .default (.ok (some ⟨after [.add "$x = 2/3".toList, .setVar ⟨"$x".toList, 2 / 3⟩ 1] newDb, none, [], []⟩))
    ⟨.default, fun _ => none, some (storeAfter [.add "$x = 2/3".toList, .setVar ⟨"$x".toList, 2 / 3⟩ 1])⟩ :=
  ⟨rfl, fun _ => rfl, .inr (.inr ⟨_, _, rfl, rfl, rfl, rfl, rfl⟩)⟩

end Bcalc
