import Verif.Proof.Growth
import Verif.Props.Size

/-! # C110: how large numbers get, powers and roots included -/

namespace Bcalc
open Spec

/-! ## C110 Powers and roots have a size that can be told beforehand -/

/-- The numerator and the denominator of a power: with a whole exponent their digits are multiplied by it; a root of
degree `d` multiplies them by `d` in each iteration, of which there are as many as in C97. -/
theorem C110_power (m : Machine) (args : Args) (hv : ValidSettings args) (p : Position) (n n' : Node)
    (env env1 env2 env3 : Env) (b e v : Rat) (B : Nat) (hb : AtMost B b)
    (h : n.execute m args env = (.ok b, env1)) (h' : n'.execute m args env1 = (.ok e, env2))
    (hx : (Node.binary .exponent p n n').execute m args env = (.ok v, env3)) :
    AtMost (if e.den = 1 then B ^ e.num.natAbs
      else (e.den * B ^ e.num.natAbs) ^ (2 * e.den ^ iterations args e)) v := by
  unfold Node.execute at hx
  rw [andThen_of_ok h, andThen_of_ok h'] at hx
  simp only [St.lift, Prod.mk.injEq] at hx
  exact power_size hv hb hx.1

/-- A square root has at most 4096 times as many digits as twice the number, however many digits are asked for. -/
theorem C110_square_root (m : Machine) (args : Args) (hv : ValidSettings args) (p : Position) (n : Node)
    (env env1 env2 : Env) (b v : Rat) (B : Nat) (hb : AtMost B b) (h : n.execute m args env = (.ok b, env1))
    (hx : (Node.unary .squareRoot p n).execute m args env = (.ok v, env2)) : AtMost ((2 * B) ^ 4096) v := by
  unfold Node.execute at hx
  rw [andThen_of_ok h] at hx
  simp only [St.lift, Prod.mk.injEq] at hx
  have := power_size hv hb hx.1
  rwa [powerSize_half] at this

/-- The value of any expression, if the values of the variables it comes to are at most `B`, and the exponents it comes
to are known. -/
theorem C110_expression (m : Machine) (args : Args) (hv : ValidSettings args) (n : Node) (env env' : Env) (v : Rat)
    (B : Nat) (exponents : Node → Rat)
    (hvar : ∀ x p env1 q env2, Reaches m args n env (.variable x p) env1 →
      (Node.variable x p).execute m args env1 = (.ok q, env2) → AtMost B q)
    (hexp : ∀ p a b env1 env2 x e env3, Reaches m args n env (.binary .exponent p a b) env1 →
      a.execute m args env1 = (.ok x, env2) → b.execute m args env2 = (.ok e, env3) → e = exponents b)
    (h : n.execute m args env = (.ok v, env')) : AtMost (sizeWithin args B exponents n) v :=
  execute_size m args hv B exponents n ⟨hvar, hexp⟩ h

theorem noExponent_parts {ts : List PTok} {target : Option (Positioned Str)} {n : Node} (hi : Input ts target n)
    (hn : NoExponents ts) : ∀ p a b, ¬ Part (.binary .exponent p a b) n := by
  intro p a b hp
  cases hi with
  | expression h =>
    obtain ⟨q, hq⟩ := (expr_part h hp).1 p a b rfl
    exact hn _ hq rfl
  | assignment h =>
    obtain ⟨q, hq⟩ := (expr_part h hp).1 p a b rfl
    exact hn ⟨.binary .exponent, q⟩ (by simp [hq]) rfl

/-- A line without `^`: with each `sqrt` the number of digits of the value, and of the values on the way, may become
4096 times as large, and otherwise it is as in C100. -/
theorem C110_square_roots (m : Machine) (args : Args) (hv : ValidSettings args) (line : Str) (ts : List PTok)
    (hl : Lexes args.radix 0 line ts) (target : Option (Positioned Str)) (n : Node) (hi : Input ts target n)
    (hn : NoExponents ts) (B : Nat) (hB : 1 ≤ B) (env : Env)
    (hvar : ∀ x p env1 q env2, Reaches m args n env (.variable x p) env1 →
      (Node.variable x p).execute m args env1 = (.ok q, env2) → AtMost B q)
    (s : Node) (env1 env2 : Env) (hs : Reaches m args n env s env1) (v : Rat)
    (h : s.execute m args env1 = (.ok v, env2)) :
    AtMost ((B ^ uses ts * args.radix ^ line.length) ^ 4096 ^ roots ts) v := by
  have hparts := noExponent_parts hi hn
  have htrans : ∀ t env'', Reaches m args s env1 t env'' → Reaches m args n env t env'' := by
    intro t env'' ht
    clear h hvar hparts hi hl
    induction hs with
    | here => exact ht
    | paren _ ih => exact .paren (ih ht)
    | unary _ ih => exact .unary (ih ht)
    | left _ ih => exact .left (ih ht)
    | right h1 _ ih => exact .right h1 (ih ht)
    | argument h1 _ ih => exact .argument h1 (ih ht)
  have h1 := C110_expression m args hv s env1 env2 v B (fun _ => 0)
    (fun x p env3 q env4 hr => hvar x p env3 q env4 (htrans _ _ hr))
    (fun p a b _ _ _ _ _ hr => absurd (reaches_part (htrans _ _ hr)) (hparts p a b)) h
  refine h1.mono ((size_part hB (reaches_part hs) hparts).trans ?_)
  have h2 : sizeWithin args B (fun _ => 0) n ≤ rootsWeight B ts := by
    cases hi with
    | expression h => exact expr_size hB h hn
    | assignment h =>
      exact (expr_size hB h (noExponents_tail (noExponents_tail hn))).trans
        ((rootsWeight_tail hB _ _).trans (rootsWeight_tail hB _ _))
  exact h2.trans (Nat.pow_le_pow_left (lexes_roots hv.radix.1 hl) _)

/-- How long the answer to a line without `^` and without variables (but perhaps an assignment) can be. -/
theorem C110_answer (m : Machine) (ce : CommandExecutor) (line : Str) (s s' : Session) (text : Str)
    (hv : ValidSettings s.args) (hc : ¬ CommandLine line) (ts : List PTok) (hl : Lexes s.args.radix 0 line ts)
    (target : Option (Positioned Str)) (n : Node) (hi : Input ts target n) (hn : NoExponents ts)
    (hx : ∀ x p, ¬ Part (.variable x p) n) (h : calculate m ce line s = (.ok text, s')) :
    text.length ≤ 8 * (line.length * 4096 ^ roots ts) + s.args.precision + 4 := by
  have htok : tokenize line s.args.radix = .ok (.tokens ts) := by
    refine (C01_tokens_iff _ hv.radix.1 hv.radix.2 line ts).2 ⟨?_, hc, hl⟩
    rcases tokenize_spec hv.radix.1 hv.radix.2 line with ⟨i, _, _, e⟩ | ⟨ha, _⟩ | ⟨ha, _⟩
    · rw [calculate_eq] at h
      obtain ⟨id, s1, h1, h⟩ := andThen_ok h
      obtain ⟨ha, _⟩ := recordInput_args s
      rw [h1] at ha
      simp only at ha
      unfold afterRecording at h
      rw [ha, e] at h
      cases h
    · exact ha
    · exact ha
  have hne : ts ≠ [] := by
    rintro rfl
    have := C100_nodes s.args.radix [] [] .done target n hi
    cases n <;> simp [nodes] at this
  obtain ⟨id, s1, s2, tree, v, h1, h2, h3, h4, h5, h6, h7, h8⟩ := calculate_tokens_ok h htok hne
  obtain ⟨env, hx'⟩ := executeTree_root h7
  rw [h5] at hx'
  have htree := (C10_parser_iff_grammar ts ⟨target, n⟩).2 hi
  rw [h6] at htree
  cases htree
  have hmost := C110_square_roots m s.args hv line ts hl target n hi hn 1 (le_refl 1) _
    (fun x p _ q _ hr => absurd (reaches_part hr) (hx x p)) n _ env .here v hx'
  rw [one_pow, Nat.one_mul, ← pow_mul] at hmost
  exact display_length hv h8 (hmost.mono (Nat.pow_le_pow_left hv.radix.2 _))

/-! ### Examples -/

/-- With the settings the program starts with, the square root of two is a fraction with twenty-five digits above and
below; `C110_square_root` says that they are at most `4 ^ 4096`. -/
example : (Node.unary .squareRoot ⟨0, 4⟩ (.number 2 ⟨4, 1⟩)).execute (exMachine true) .default (exEnv []) =
      (.ok (1572584048032918633353217 / 1111984844349868137938112), exEnv []) ∧
    AtMost 2 (2 : Rat) ∧ ¬ AtMost (10 ^ 24) (1572584048032918633353217 / 1111984844349868137938112 : Rat) ∧
    AtMost (4 ^ 4096) (1572584048032918633353217 / 1111984844349868137938112 : Rat) := by
  have h : (Node.unary .squareRoot ⟨0, 4⟩ (.number 2 ⟨4, 1⟩)).execute (exMachine true) .default (exEnv []) =
      (.ok (1572584048032918633353217 / 1111984844349868137938112), exEnv []) := by decide +kernel
  have h2 : AtMost 2 (2 : Rat) := ⟨by decide +kernel, by decide +kernel⟩
  refine ⟨h, h2, fun hc => absurd hc.1 (by decide +kernel), ?_⟩
  exact C110_square_root (exMachine true) .default ⟨by decide, (by intro r h; cases h), by decide⟩ _ (.number 2 ⟨4, 1⟩)
    _ (exEnv []) _ 2 _ 2 h2 rfl h

/-- Whole powers: the bound for `1.5^-3`, which is 8/27, is 27. -/
example : (Node.binary .exponent ⟨3, 1⟩ (.number (3 / 2) ⟨0, 3⟩) (.number (-3) ⟨4, 2⟩)).execute (exMachine true) .default
      (exEnv []) = (.ok (8 / 27), exEnv []) ∧ AtMost 3 (3 / 2) ∧
    powerSize .default (-3) 3 = 27 ∧ AtMost 27 (8 / 27) ∧ ¬ AtMost 26 (8 / 27) :=
  ⟨by decide +kernel, ⟨by decide +kernel, by decide +kernel⟩, by decide +kernel, ⟨by decide +kernel, by decide +kernel⟩,
    fun h => absurd h.2 (by decide +kernel)⟩

def exRootTokens : List PTok :=
  [⟨.unary .squareRoot, ⟨0, 4⟩⟩, ⟨.number 2, ⟨5, 1⟩⟩, ⟨.binary .divide, ⟨6, 1⟩⟩, ⟨.number 3, ⟨7, 1⟩⟩]

def exRootNode : Node :=
  .binary .divide ⟨6, 1⟩ (.unary .squareRoot ⟨0, 4⟩ (.number 2 ⟨5, 1⟩)) (.number 3 ⟨7, 1⟩)

/-- What the theorems about lines ask for, of `sqrt 2/3`. -/
example : Lexes 10 0 "sqrt 2/3".toList exRootTokens ∧ Input exRootTokens none exRootNode ∧ NoExponents exRootTokens ∧
    roots exRootTokens = 1 ∧ uses exRootTokens = 0 ∧ (∀ x p, ¬ Part (.variable x p) exRootNode) ∧
    sizeWithin .default 1 (fun _ => 0) exRootNode = 4 ^ 4096 * 3 ∧
    oneShot (exMachine true) .default "sqrt 2/3".toList = .ok (.result "0.47140".toList) := by
  refine ⟨?_, ?_, ?_, by decide, by decide, ?_, ?_, by decide +kernel⟩
  · exact ((C01_tokens_iff 10 (by omega) (by omega) "sqrt 2/3".toList exRootTokens).1 (by decide +kernel)).2.2
  · exact .expression (.lift (.op (ts := [⟨.unary .squareRoot, ⟨0, 4⟩⟩, ⟨.number 2, ⟨5, 1⟩⟩])
      (.lift (.lift (.lift (.signed (.atom (.unary (.atom .number))))))) rfl (.lift (.lift (.signed (.atom .number))))))
  · intro t ht
    simp only [exRootTokens, List.mem_cons, List.not_mem_nil, or_false] at ht
    rcases ht with rfl | rfl | rfl | rfl <;> simp
  · intro x p h
    cases h with
    | left h => cases h with
      | unary h => cases h
    | right h => cases h
  · unfold exRootNode
    simp only [sizeWithin, powerSize_half]
    have h2 : max (2 : Rat).num.natAbs (2 : Rat).den = 2 := by decide +kernel
    have h3 : max (3 : Rat).num.natAbs (3 : Rat).den = 3 := by decide +kernel
    rw [h2, h3]

end Bcalc
