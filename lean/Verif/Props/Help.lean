import Verif.Spec.Help
import Verif.Proof.Commands3
import Verif.Props.Answer
import Verif.Props.Refusal

/-! # C79: commands do what help says -/

namespace Bcalc
open Spec

/-- In a session that nobody disturbs, a command with nothing to object to is carried out. -/
theorem C79_carried_out (m : Machine) (ce : CommandExecutor) (hce : CommandExecutor.new = .ok ce) (line : Str)
    (s : Session) (h : Ready s line) (cmd : Cmd) (arguments : Str) (hl : IsCommand line cmd arguments)
    (hno : ∀ t p, ¬ Objection s line arguments cmd t p) : ∃ text, (calculate m ce line s).1 = .ok text := by
  obtain ⟨id, s1, hrec, hid, _⟩ := ready_records h
  have := settled_calculate m hl hrec hid
  rw [← new_eq_table hce] at this
  rcases this with h | ⟨t, p, h⟩
  · exact h
  · exact absurd ((C76_complaint_iff m ce hce line s s1 id hrec cmd arguments hl t p).1 h) (hno t p)

/-- The same for a single command on the command line. -/
theorem C79_carried_out_one_shot (m : Machine) (args : Args) (line : Str) (cmd : Cmd) (arguments : Str)
    (hl : IsCommand line cmd arguments) (hno : ∀ t p, ¬ Objection ⟨args, none, none, none⟩ line arguments cmd t p) :
    ∃ text, (calculate m table line ⟨args, none, none, none⟩).1 = .ok text := by
  have hrec : recordInput ⟨args, none, none, none⟩ = (.ok none, ⟨args, none, none, none⟩) := rfl
  rcases settled_calculate m hl hrec rfl with h | ⟨t, p, h⟩
  · exact h
  · exact absurd ((C76_complaint_iff m table new_table line _ _ none hrec cmd arguments hl t p).1 h) (hno t p)

theorem recordInput_lacking {s s1 : Session} {id : Option Int} (hrec : recordInput s = (.ok id, s1)) (cmd : Cmd) :
    Lacking s1 cmd ↔ Lacking s cmd := by
  have hv := (recordInput_args s).2
  have hd := OptRel.isSome (recordInput_db s)
  rw [hrec] at hv hd
  simp only at hv hd
  have hd' : s1.db = none ↔ s.db = none := by
    cases h : s1.db <;> cases h' : s.db <;> simp_all
  unfold Lacking
  cases cmd <;> simp only [hv, hd']

/-- A command that lacks what it works with is never carried out, whatever its arguments. -/
theorem C79_lacking (m : Machine) (ce : CommandExecutor) (hce : CommandExecutor.new = .ok ce) (line : Str)
    (s : Session) (cmd : Cmd) (arguments : Str) (hl : IsCommand line cmd arguments) (h : Lacking s cmd) (text : Str) :
    (calculate m ce line s).1 ≠ .ok text := by
  rw [new_eq_table hce]
  intro hk
  obtain ⟨name, p, q, ht, hres⟩ := (isCommand_iff s.args.radix).1 hl
  rcases hc : calculate m table line s with ⟨r, s'⟩
  rw [hc] at hk
  simp only at hk
  subst hk
  obtain ⟨id, s1, s2, touched, hrec, hv, ha, hx, _⟩ := calculate_command_ok hc ht hres
  have hlack := (recordInput_lacking hrec cmd).2 h
  cases cmd <;> try exact hlack.elim
  · unfold Cmd.execute executeReloadVar at hx
    simp only at hx
    split at hx
    · cases hx
    · cases hx
    · cases hx
    · rcases hlack with hd | hd
      · rw [hd] at hx; cases hx
      · rw [hd] at hx
        split at hx <;> cases hx
  · unfold Cmd.execute executePurgeVar at hx
    simp only at hx
    have hd : s1.vars = none := hlack
    split at hx
    · cases hx
    · cases hx
    · cases hx
    · rw [hd] at hx; cases hx
  · unfold Cmd.execute executeHistcap at hx
    simp only at hx
    have hd : s1.db = none := hlack
    split at hx
    · cases hx
    · cases hx
    · cases hx
    · rw [hd] at hx; cases hx

/-! ### Nothing to object to -/

theorem blanks_lex {radix pos : Nat} {text : Str} {ts : List PTok} (hl : Lexes radix pos text ts)
    (h : ∀ c ∈ text, Blank c) : ts = [] := by
  induction text generalizing pos with
  | nil =>
    generalize he : ([] : Str) = text at hl
    cases hl with
    | done => rfl
    | blank => cases he
    | symbol => cases he
    | word h1 => simp at he; exact absurd he.1 h1
  | cons c cs ih => exact ih ((lexes_blank_iff (h c (by simp))).1 hl) fun c hc => h c (by simp [hc])

theorem blanks_noCommand {text : Str} (h : ∀ c ∈ text, Blank c) : ¬ CommandLine text := by
  rintro ⟨pre, rest, rfl, _⟩
  have := h '/' (by simp)
  unfold Blank at this
  revert this; decide

theorem blanks_slashed {text name : Str} {p : Position} (h : ∀ c ∈ text, Blank c) : ¬ SlashedAt text name p := by
  rintro ⟨pre, tail, rfl, _⟩
  have := h '/' (by simp)
  unfold Blank at this
  revert this; decide

theorem blanks_word {text w : Str} {radix start : Nat} (h : ∀ c ∈ text, Blank c) :
    ¬ FirstBadWord radix text w start := by
  rintro ⟨pre, rest, ts, rfl, _, hne, hw, _⟩
  obtain ⟨c, cs, rfl⟩ := List.exists_cons_of_ne_nil hne
  have hb := h c (by simp)
  have hc := hw c (by simp)
  exact hc.1 hb

theorem blanks_afterSign {ts : List PTok} (h : AfterSign [] ts) : ts = [] := by
  rcases h with h | ⟨q, h⟩
  · exact h.symm
  · cases h

theorem blanks_noIntegers {text t : Str} {p : Position} (h : ∀ c ∈ text, Blank c) : ¬ NoIntegers text t p := by
  intro k
  cases k with
  | slash k => exact blanks_slashed h k
  | word _ k => exact blanks_word h k
  | token _ hl k =>
    have := blanks_lex hl h
    subst this
    cases k with
    | later k => cases blanks_afterSign k
    | fraction k => cases blanks_afterSign k
    | big k => cases blanks_afterSign k
    | other k => cases blanks_afterSign k

theorem blanks_noNames {text t : Str} {p : Position} (h : ∀ c ∈ text, Blank c) : ¬ NoNames text t p := by
  intro k
  cases k with
  | slash k => exact blanks_slashed h k
  | word _ k => exact blanks_word h k
  | token _ hl k =>
    have := blanks_lex hl h
    subst this
    obtain ⟨ts1, t, ts2, k, _⟩ := k
    simp at k

theorem blanks_integersAt {text : Str} {ps : List (Positioned Int)} (h : ∀ c ∈ text, Blank c)
    (k : IntegersAt text ps) : ps = [] := by
  obtain ⟨_, ts, hl, k⟩ := k
  have := blanks_lex hl h
  subst this
  cases k
  rfl

theorem blanks_topic {text topic : Str} {start : Nat} (h : ∀ c ∈ text, Blank c) : ¬ Topic text topic start := by
  rintro ⟨pre, post, rfl, _, _, hne, h1, _⟩
  obtain ⟨c, cs, rfl⟩ := List.exists_cons_of_ne_nil hne
  exact h1 c cs rfl (h c (by simp))

/-- There is nothing to object to in a command without arguments that has what it works with. -/
theorem noArgument_objection {s : Session} {line arguments : Str} {cmd : Cmd} (h : NoArgument arguments cmd)
    (hav : ¬ Lacking s cmd) (t : Str) (p : Option Position) : ¬ Objection s line arguments cmd t p := by
  have hb : ¬ Switch cmd → ∀ c ∈ arguments, Blank c := by
    intro hs
    cases cmd <;> first | exact h | exact absurd (by unfold Switch; simp) hs
  have hs : Switch cmd → ∀ c ∈ arguments, Space c := by
    rintro (rfl | rfl | rfl) <;> exact h
  intro k
  cases k with
  | help k _ => exact blanks_topic (hb (by unfold Switch; simp)) k
  | switch k k1 => exact k1 (hs k)
  | integers k _ k1 =>
    exact blanks_noIntegers (hb (by rintro (rfl | rfl | rfl) <;> cases k)) k1
  | tooMany k k1 =>
    have := blanks_integersAt (hb (by rintro (rfl | rfl | rfl) <;> cases k)) k1
    cases this
  | small k k1 =>
    have := blanks_integersAt (hb (by rcases k with rfl | rfl <;> unfold Switch <;> simp)) k1
    cases this
  | large k k1 =>
    have := blanks_integersAt (hb (by rcases k with rfl | rfl <;> unfold Switch <;> simp)) k1
    cases this
  | precision k1 => cases blanks_integersAt (hb (by unfold Switch; simp)) k1
  | extra k1 => cases blanks_integersAt (hb (by unfold Switch; simp)) k1
  | sum k1 => cases blanks_integersAt (hb (by unfold Switch; simp)) k1
  | sums k1 => cases blanks_integersAt (hb (by unfold Switch; simp)) k1
  | capacity k1 => cases blanks_integersAt (hb (by unfold Switch; simp)) k1
  | noCapacity k => exact hav k
  | names k k1 => exact blanks_noNames (hb (by rcases k with rfl | rfl <;> unfold Switch <;> simp)) k1
  | noStore k => exact hav k
  | noDatabase k => exact hav (.inl k)
  | noReload _ k => exact hav (.inr k)

/-- A command that has what it works with can be carried out: without arguments it always is. -/
theorem C79_available (m : Machine) (ce : CommandExecutor) (hce : CommandExecutor.new = .ok ce) (line : Str)
    (s : Session) (h : Ready s line) (cmd : Cmd) (arguments : Str) (hl : IsCommand line cmd arguments)
    (hno : NoArgument arguments cmd) (hav : ¬ Lacking s cmd) : ∃ text, (calculate m ce line s).1 = .ok text :=
  C79_carried_out m ce hce line s h cmd arguments hl (noArgument_objection hno hav)

/-- The same for a single command on the command line. -/
theorem C79_available_one_shot (m : Machine) (args : Args) (line : Str) (cmd : Cmd) (arguments : Str)
    (hl : IsCommand line cmd arguments) (hno : NoArgument arguments cmd)
    (hav : ¬ Lacking ⟨args, none, none, none⟩ cmd) :
    ∃ text, (calculate m table line ⟨args, none, none, none⟩).1 = .ok text :=
  C79_carried_out_one_shot m args line cmd arguments hl (noArgument_objection hno hav)

/-! ### The list of commands -/

/-- The commands in alphabetical order. -/
def helpOrder : List Cmd :=
  [.commas, .convertToRadix, .fractional, .help, .histcap, .precision, .purgeVar, .radix, .reloadVar, .upper]

/-- The entries of the list. -/
def helpEntries (s : Session) : List (Str × Str) := helpOrder.map fun c => ((fullName c).toList, c.shortHelp s)

theorem name_fullName (c : Cmd) : c.name = (fullName c).toList := by cases c <;> rfl

theorem help_order : sortNames (table.commandMap.map (·.1)) = helpOrder.map Cmd.name := by decide +kernel

theorem help_width : (helpOrder.map Cmd.name).foldl (fun acc c => max acc c.length) 0 = 14 := by decide +kernel

theorem help_row : ∀ c ∈ helpOrder, assocGet c.name table.commandMap = some c ∧ c.name.length ≤ 14 := by decide +kernel

theorem help_list {arguments : Str} (h : ∀ c ∈ arguments, Blank c) (q : Position) (s : Session) :
    executeHelp table ⟨arguments, q⟩ s = .ok (msg ("Available commands:".toList ++
      ((helpEntries s).map fun e => "\n  ".toList ++ e.1 ++ List.replicate (15 - e.1.length) ' ' ++ e.2).flatten)) := by
  unfold executeHelp
  simp only
  rw [if_pos (trim_blank h q), help_order, help_width]
  unfold helpEntries
  rw [List.map_map, List.map_map]
  congr 4

theorem marked_of {b : Bool} {text : String} (h : ¬ MarkedUnavailable text.toList) :
    MarkedUnavailable (unavailablePrefix b text) ↔ b = true := by
  unfold MarkedUnavailable at *
  unfold unavailablePrefix
  cases b
  · rw [if_neg (by decide), List.nil_append]
    exact iff_of_false h (by decide)
  · rw [if_pos rfl]
    exact iff_of_true (List.prefix_append _ _) rfl

theorem unmarked : (∀ text ∈ ["Gives help with commands", "Reloads variable(s) from the disk", "Unsets variable(s)",
    "Get/Set the on-disk history capacity", "Retrieves or sets fractional display setting",
    "Retrieves or sets the current radix", "Retrieves or sets the current output radix",
    "Retrieves or sets upper display setting", "Retrieves or sets comma display setting",
    "Retrieves or sets the current precision"], ¬ "(unavailable) ".toList <+: text.toList) := by
  decide +kernel

theorem shortHelp_marked (c : Cmd) (s : Session) : MarkedUnavailable (c.shortHelp s) ↔ Lacking s c := by
  have hb : ∀ {α : Type} (o : Option α), o.isNone = true ↔ o = none := fun o => by cases o <;> simp
  cases c with
  | reloadVar =>
    refine (marked_of (unmarked _ (by simp))).trans ?_
    rw [Bool.or_eq_true, hb, hb]; rfl
  | purgeVar => exact (marked_of (unmarked _ (by simp))).trans (hb _)
  | histcap => exact (marked_of (unmarked _ (by simp))).trans (hb _)
  | help => exact iff_of_false (unmarked "Gives help with commands" (by simp)) id
  | fractional => exact iff_of_false (unmarked "Retrieves or sets fractional display setting" (by simp)) id
  | radix => exact iff_of_false (unmarked "Retrieves or sets the current radix" (by simp)) id
  | convertToRadix => exact iff_of_false (unmarked "Retrieves or sets the current output radix" (by simp)) id
  | upper => exact iff_of_false (unmarked "Retrieves or sets upper display setting" (by simp)) id
  | commas => exact iff_of_false (unmarked "Retrieves or sets comma display setting" (by simp)) id
  | precision => exact iff_of_false (unmarked "Retrieves or sets the current precision" (by simp)) id

theorem help_all (c : Cmd) : c ∈ helpOrder := by cases c <;> decide

theorem name_inj : ∀ c ∈ helpOrder, ∀ c' ∈ helpOrder, (fullName c).toList = (fullName c').toList → c = c' := by
  decide +kernel

theorem name_line : ∀ c ∈ helpOrder, '\n' ∉ (fullName c).toList := by decide +kernel

theorem shortHelp_line (c : Cmd) (s : Session) : '\n' ∉ c.shortHelp s := by
  have hp : ∀ {b : Bool} {text : String}, '\n' ∉ text.toList → '\n' ∉ unavailablePrefix b text := by
    intro b text h k
    unfold unavailablePrefix at k
    rcases List.mem_append.1 k with k | k
    · cases b
      · cases k
      · rw [if_pos rfl] at k; revert k; decide +kernel
    · exact h k
  cases c with
  | reloadVar => exact hp (by decide +kernel)
  | purgeVar => exact hp (by decide +kernel)
  | histcap => exact hp (by decide +kernel)
  | help => exact hp (b := false) (text := "Gives help with commands") (by decide +kernel)
  | fractional => exact hp (b := false) (text := "Retrieves or sets fractional display setting") (by decide +kernel)
  | radix => exact hp (b := false) (text := "Retrieves or sets the current radix") (by decide +kernel)
  | convertToRadix => exact hp (b := false) (text := "Retrieves or sets the current output radix") (by decide +kernel)
  | upper => exact hp (b := false) (text := "Retrieves or sets upper display setting") (by decide +kernel)
  | commas => exact hp (b := false) (text := "Retrieves or sets comma display setting") (by decide +kernel)
  | precision => exact hp (b := false) (text := "Retrieves or sets the current precision") (by decide +kernel)

/-- `/help` alone lists every command once, in alphabetical order, and marks as unavailable exactly the commands
that lack what they work with. -/
theorem C79_listing (m : Machine) (ce : CommandExecutor) (hce : CommandExecutor.new = .ok ce) (line : Str)
    (s s1 : Session) (id : Option Int) (hrec : recordInput s = (.ok id, s1)) (arguments : Str)
    (hl : IsCommand line .help arguments) (hb : NoArgument arguments .help) :
    ∃ text entries, calculate m ce line s = (.ok text, s1) ∧ Listing text entries ∧
      entries.Pairwise (fun a b => a.1 < b.1) ∧
      (∀ name, (∃ description, (name, description) ∈ entries) ↔ ∃ cmd, name = (fullName cmd).toList) ∧
      ∀ cmd description, ((fullName cmd).toList, description) ∈ entries →
        (MarkedUnavailable description ↔ Lacking s cmd) := by
  rw [new_eq_table hce]
  obtain ⟨name, pn, q, ht, hres⟩ := (isCommand_iff s.args.radix).1 hl
  have hx := calculate_command (m := m) hrec ht hres (by decide)
  have hh : Cmd.help.execute m table ⟨arguments, q⟩ s1 = (executeHelp table ⟨arguments, q⟩ s1, s1) := rfl
  rw [hh, help_list hb q s1] at hx
  refine ⟨_, helpEntries s1, hx, ⟨15, ?_, ?_, rfl⟩, ?_, ?_, ?_⟩
  · intro e he
    obtain ⟨c, hc, rfl⟩ := List.mem_map.1 he
    have := (help_row c hc).2
    rw [name_fullName] at this
    simp only; omega
  · intro e he
    obtain ⟨c, hc, rfl⟩ := List.mem_map.1 he
    exact ⟨name_line c hc, shortHelp_line c s1⟩
  · unfold helpEntries
    rw [List.pairwise_map]
    simp only
    decide +kernel
  · intro n
    constructor
    · rintro ⟨d, hd⟩
      obtain ⟨c, hc, he⟩ := List.mem_map.1 hd
      exact ⟨c, (congrArg Prod.fst he).symm⟩
    · rintro ⟨c, rfl⟩
      exact ⟨_, List.mem_map.2 ⟨c, help_all c, rfl⟩⟩
  · intro c d hd
    obtain ⟨c', hc, he⟩ := List.mem_map.1 hd
    rw [Prod.mk.injEq] at he
    have h1 := name_inj _ (help_all _) _ (help_all _) he.1
    subst h1
    rw [← he.2, ← recordInput_lacking hrec]
    exact shortHelp_marked _ _

/-! ### Help with a command -/

/-- The fixed part of the help text. -/
def helpText : Cmd → Str
  | .help => helpHelpText
  | .reloadVar => reloadVarHelpText
  | .purgeVar => purgeVarHelpText
  | .histcap => histcapHelpText
  | .fractional => fractionalHelpText
  | .radix => radixHelpText
  | .convertToRadix => convertToRadixHelpText
  | .upper => upperHelpText
  | .commas => commasHelpText
  | .precision => precisionHelpText

theorem chars_append {x y a b : Str} (h : x = a) (k : y = b) : x ++ y = a ++ b := by rw [h, k]

theorem chars_lit (l : List Char) : (String.ofList l).toList = l := String.toList_ofList

theorem not_infix {x y a b : Str} (h : x = a) (k : y = b) (hn : ¬ a <:+: b) : ¬ x <:+: y := by
  rw [h, k]; exact hn

theorem helpText_says (c : Cmd) : ¬ SaysUnavailable (helpText c) := by
  unfold SaysUnavailable helpText
  cases c <;> simp only
  all_goals
    apply not_infix (chars_lit _)
    · first
        | unfold helpHelpText | unfold reloadVarHelpText | unfold purgeVarHelpText | unfold histcapHelpText
        | unfold fractionalHelpText | unfold radixHelpText | unfold convertToRadixHelpText | unfold upperHelpText
        | unfold commasHelpText | unfold precisionHelpText
      simp only [String.toList_append]
      repeat' first | exact chars_lit _ | apply chars_append
    · decide +kernel

theorem helpText_usage (c : Cmd) : ("Usage: /" ++ fullName c).toList <+: helpText c := by
  unfold helpText
  cases c <;> simp only [fullName]
  all_goals
    first
      | unfold helpHelpText | unfold reloadVarHelpText | unfold purgeVarHelpText | unfold histcapHelpText
      | unfold fractionalHelpText | unfold radixHelpText | unfold convertToRadixHelpText | unfold upperHelpText
      | unfold commasHelpText | unfold precisionHelpText
    simp only [String.toList_append, List.append_assoc]
    rw [← String.toList_append]
    refine List.IsPrefix.trans ?_ (List.prefix_append _ _)
    decide +kernel

theorem infix_two {pat p1 p2 rest : Str} (h : pat <:+: p1 ++ p2) : pat <:+: p1 ++ (p2 ++ rest) := by
  rw [← List.append_assoc]
  exact h.trans (List.prefix_append _ _).isInfix

theorem helpText_alias (n : String) (c : Cmd) (h : (n, c) ∈ commandNames) (hn : n ≠ fullName c) :
    ("\nAlias: /" ++ n ++ "\n").toList <:+: helpText c := by
  have : ∀ e ∈ commandNames, e.1 ≠ fullName e.2 →
      e ∈ [("h", Cmd.help), ("f", .fractional), ("r", .radix), ("comma", .commas), ("p", .precision)] := by
    decide +kernel
  have := this _ h hn
  simp only [List.mem_cons, List.not_mem_nil, or_false, Prod.mk.injEq] at this
  rcases this with ⟨rfl, rfl⟩ | ⟨rfl, rfl⟩ | ⟨rfl, rfl⟩ | ⟨rfl, rfl⟩ | ⟨rfl, rfl⟩ <;> unfold helpText <;> simp only
  · unfold helpHelpText
    rw [String.toList_append, String.toList_append, String.toList_append, String.toList_append]
    simp only [List.append_assoc]
    refine List.IsInfix.trans ?_ (List.prefix_append _ _).isInfix
    decide +kernel
  · unfold fractionalHelpText
    iterate 7 rw [String.toList_append]
    simp only [List.append_assoc]
    exact infix_two (by decide +kernel)
  · unfold radixHelpText
    iterate 5 rw [String.toList_append]
    simp only [List.append_assoc]
    exact infix_two (by decide +kernel)
  · unfold commasHelpText
    iterate 7 rw [String.toList_append]
    simp only [List.append_assoc]
    exact infix_two (by decide +kernel)
  · unfold precisionHelpText
    iterate 10 rw [String.toList_append]
    simp only [List.append_assoc]
    exact infix_two (by decide +kernel)

theorem longHelp_eq (c : Cmd) (s : Session) :
    (¬ Lacking s c ∧ c.longHelp s = helpText c) ∨
      Lacking s c ∧ ∃ post, c.longHelp s =
        helpText c ++ ("\n\n".toList ++ ("This command is currently unavailable".toList ++ post)) := by
  have hlit : "\n\nThis command is currently unavailable because ".toList =
      "\n\n".toList ++ ("This command is currently unavailable".toList ++ " because ".toList) := by decide +kernel
  have hlit1 : ("\n\nThis command is currently unavailable because the variable store is " ++
      "unavailable.").toList = "\n\n".toList ++ ("This command is currently unavailable".toList ++
        " because the variable store is unavailable.".toList) := by decide +kernel
  have hlit2 : ("\n\nThis command is currently unavailable because the on-disk database is " ++
      "unavailable.").toList = "\n\n".toList ++ ("This command is currently unavailable".toList ++
        " because the on-disk database is unavailable.".toList) := by decide +kernel
  have hb : ∀ {α : Type} (o : Option α), o.isNone = true ↔ o = none := fun o => by cases o <;> simp
  cases c with
  | reloadVar =>
    have he : (s.db.isNone || s.vars.isNone) = true ↔ Lacking s .reloadVar := by
      rw [Bool.or_eq_true, hb, hb]; rfl
    unfold Cmd.longHelp
    simp only
    by_cases hl : Lacking s .reloadVar
    · rw [if_pos (he.2 hl), hlit]
      simp only [List.append_assoc]
      exact .inr ⟨hl, _, rfl⟩
    · rw [if_neg fun h => hl (he.1 h), List.append_nil]
      exact .inl ⟨hl, rfl⟩
  | purgeVar =>
    have he : s.vars.isNone = true ↔ Lacking s .purgeVar := hb _
    unfold Cmd.longHelp
    simp only
    by_cases hl : Lacking s .purgeVar
    · rw [if_pos (he.2 hl), hlit1]
      exact .inr ⟨hl, _, rfl⟩
    · rw [if_neg fun h => hl (he.1 h), List.append_nil]
      exact .inl ⟨hl, rfl⟩
  | histcap =>
    have he : s.db.isNone = true ↔ Lacking s .histcap := hb _
    unfold Cmd.longHelp
    simp only
    by_cases hl : Lacking s .histcap
    · rw [if_pos (he.2 hl), hlit2]
      exact .inr ⟨hl, _, rfl⟩
    · rw [if_neg fun h => hl (he.1 h), List.append_nil]
      exact .inl ⟨hl, rfl⟩
  | _ => exact .inl ⟨id, rfl⟩

/-- `/help` with the name of a command tells how to use that command, under which other names it goes, and that
it is unavailable exactly if it lacks what it works with. -/
theorem C79_topic (m : Machine) (ce : CommandExecutor) (hce : CommandExecutor.new = .ok ce) (line : Str)
    (s s1 : Session) (id : Option Int) (hrec : recordInput s = (.ok id, s1)) (arguments : Str)
    (hl : IsCommand line .help arguments) (name : String) (cmd : Cmd) (hn : (name, cmd) ∈ commandNames) (start : Nat)
    (ht : Topic arguments name.toList start) :
    ∃ text, calculate m ce line s = (.ok text, s1) ∧
      ("Usage: /" ++ fullName cmd).toList <+: text ∧
      (∀ other, (other, cmd) ∈ commandNames → other ≠ fullName cmd →
        ("\nAlias: /" ++ other ++ "\n").toList <:+: text) ∧
      (SaysUnavailable text ↔ Lacking s cmd) := by
  rw [new_eq_table hce]
  obtain ⟨n, pn, q, htok, hres⟩ := (isCommand_iff s.args.radix).1 hl
  have hx := calculate_command (m := m) hrec htok hres (by decide)
  have hh : Cmd.help.execute m table ⟨arguments, q⟩ s1 = (executeHelp table ⟨arguments, q⟩ s1, s1) := rfl
  have hne : name.toList ≠ [] := by obtain ⟨_, _, _, _, _, hne, _⟩ := ht; exact hne
  have hr : table.resolve name.toList = some cmd := (C66_names table new_table _ cmd).2 ⟨name, hn, rfl⟩
  have he : executeHelp table ⟨arguments, q⟩ s1 = .ok (msg (cmd.longHelp s1)) := by
    have : executeHelp table ⟨arguments, q⟩ s1 = match table.resolve name.toList with
        | some cmd => .ok (msg (cmd.longHelp s1))
        | none => .err (noSuchCommand ⟨name.toList, ⟨q.start + start, name.toList.length⟩⟩) := by
      unfold executeHelp
      simp only
      rw [trim_topic ht q]
      simp only
      rw [if_neg hne]
      rfl
    rw [this, hr]
  rw [hh, he] at hx
  refine ⟨_, hx, ?_⟩
  rw [← recordInput_lacking hrec]
  simp only [msg]
  rcases longHelp_eq cmd s1 with ⟨h1, h2⟩ | ⟨h1, post, h2⟩ <;> rw [h2]
  · exact ⟨helpText_usage cmd, fun o => helpText_alias o cmd, iff_of_false (helpText_says cmd) h1⟩
  · refine ⟨(helpText_usage cmd).trans (List.prefix_append _ _),
      fun o h k => (helpText_alias o cmd h k).trans (List.prefix_append _ _).isInfix, iff_of_true ?_ h1⟩
    unfold SaysUnavailable
    exact ⟨helpText cmd ++ "\n\n".toList, post, by simp only [List.append_assoc]⟩

/-! ### Examples -/

/-- In a session with a database `/histcap` is carried out, and in one without it is not. -/
example : IsCommand "/histcap ".toList .histcap "".toList ∧ NoArgument "".toList .histcap ∧
    Ready (exTyped "/histcap ") "/histcap ".toList ∧ ¬ Lacking (exTyped "/histcap ") .histcap ∧
    (∃ text, (calculate (exMachine true) table "/histcap ".toList (exTyped "/histcap ")).1 = .ok text) ∧
    Lacking (exPlain "/histcap ") .histcap ∧
    ∀ text, (calculate (exMachine true) table "/histcap ".toList (exPlain "/histcap ")).1 ≠ .ok text := by
  have hc : IsCommand "/histcap ".toList .histcap "".toList :=
    exIsCommand (name := "histcap") [] ' ' (by decide) (by decide) (by decide) (by decide) (by decide) (by decide)
  have hn : NoArgument "".toList .histcap := by intro c h; cases h
  have hr := exTyped_ready "/histcap "
  have hl : ¬ Lacking (exTyped "/histcap ") .histcap := by intro h; cases h
  exact ⟨hc, hn, hr, hl, C79_available _ _ new_table _ _ hr _ _ hc hn hl, rfl,
    C79_lacking _ _ new_table _ _ _ _ hc rfl⟩

/-- Without a database, `/help histcap` says that the command is unavailable; `/help r` tells about `/radix`. -/
example : (∃ text s1, calculate (exMachine true) table "/help  histcap".toList (exPlain "/help  histcap") =
      (.ok text, s1) ∧ "Usage: /histcap".toList <+: text ∧ SaysUnavailable text) ∧
    ∃ text s1, calculate (exMachine true) table "/help  r".toList (exPlain "/help  r") = (.ok text, s1) ∧
      "Usage: /radix".toList <+: text ∧ "\nAlias: /r\n".toList <:+: text ∧ ¬ SaysUnavailable text := by
  have hc : IsCommand "/help  histcap".toList .help " histcap".toList :=
    exIsCommand (name := "help") [] ' ' (by decide) (by decide) (by decide) (by decide) (by decide) (by decide)
  have hc' : IsCommand "/help  r".toList .help " r".toList :=
    exIsCommand (name := "help") [] ' ' (by decide) (by decide) (by decide) (by decide) (by decide) (by decide)
  have hb : ∀ c ∈ " ".toList, Blank c := by
    intro c hc
    rw [← isAsciiWs_iff]
    revert c; decide
  have ht : Topic " histcap".toList "histcap".toList 1 := by
    refine ⟨" ".toList, [], by decide, hb, (by intro c h; cases h), by decide, ?_, ?_, rfl⟩
    · intro c cs e
      have : c = 'h' := by cases e; rfl
      rw [← isAsciiWs_iff, this]; decide
    · intro c cs e
      have : c = 'p' := by
        have := congrArg List.getLast? e
        simp at this
        exact this.symm
      rw [← isAsciiWs_iff, this]; decide
  have ht' : Topic " r".toList "r".toList 1 := by
    refine ⟨" ".toList, [], by decide, hb, (by intro c h; cases h), by decide, ?_, ?_, rfl⟩
    · intro c cs e
      have : c = 'r' := by cases e; rfl
      rw [← isAsciiWs_iff, this]; decide
    · intro c cs e
      have : c = 'r' := by
        have := congrArg List.getLast? e
        simp at this
        exact this.symm
      rw [← isAsciiWs_iff, this]; decide
  obtain ⟨id, s1, hrec, _⟩ := ready_records (exPlain_ready "/help  histcap")
  obtain ⟨id', s1', hrec', _⟩ := ready_records (exPlain_ready "/help  r")
  obtain ⟨text, h1, h2, _, h4⟩ := C79_topic (exMachine true) table new_table _ _ _ _ hrec _ hc "histcap" .histcap
    (by decide) _ ht
  obtain ⟨text', h1', h2', h3', h4'⟩ := C79_topic (exMachine true) table new_table _ _ _ _ hrec' _ hc' "r" .radix
    (by decide) _ ht'
  exact ⟨⟨text, s1, h1, h2, h4.2 rfl⟩, text', s1', h1', h2', h3' "r" (by decide) (by decide), fun k => (h4'.1 k).elim⟩

/-- `/h` on the command line: `/purgevar` is marked as unavailable. -/
example : ∃ text entries, calculate (exMachine true) table "/h".toList ⟨.default, none, none, none⟩ =
      (.ok text, ⟨.default, none, none, none⟩) ∧ Listing text entries ∧
    ∃ description, ("purgevar".toList, description) ∈ entries ∧ MarkedUnavailable description := by
  have hc : IsCommand "/h".toList .help [] := ⟨"h", by decide, by
    intro c h
    have : ∀ c ∈ "/h".toList, c.toNat < 128 := by decide
    exact this c h, [], [], by decide, (by intro c h; cases h), by
      intro c h
      rw [← isAsciiWs_iff]
      revert c; decide, .inl ⟨rfl, rfl⟩⟩
  obtain ⟨text, entries, h1, h2, _, h4, h5⟩ := C79_listing (exMachine true) table new_table "/h".toList
    ⟨.default, none, none, none⟩ _ none rfl [] hc (by intro c h; cases h)
  obtain ⟨d, hd⟩ := (h4 "purgevar".toList).2 ⟨.purgeVar, rfl⟩
  exact ⟨text, entries, h1, h2, d, hd, (h5 .purgeVar d hd).2 rfl⟩

end Bcalc
