import Verif.Proof.Pure
import Verif.Spec.Laws

/-! # Replacing a variable by a parenthesised expression -/

namespace Bcalc
open Spec

theorem unplaced_bind {α β : Type} {a b : Outcome Failure α} {f g : α → Outcome Failure β} (h : unplaced a = unplaced b)
    (hf : ∀ v, unplaced (f v) = unplaced (g v)) : unplaced (a >>= f) = unplaced (b >>= g) := by
  cases a <;> cases b <;> simp only [unplaced, Outcome.mapErr, Outcome.ok.injEq, Outcome.err.injEq, Outcome.panic.injEq,
    reduceCtorEq] at h
  · subst h; exact hf _
  · show unplaced (.err _) = unplaced (.err _)
    unfold unplaced
    simp only [Outcome.mapErr, Outcome.err.injEq]
    exact h
  · subst h; rfl
  · rfl

theorem unplaced_math {α : Type} (p p' : Position) (o : Outcome MathError α) :
    unplaced (liftMath p o) = unplaced (liftMath p' o) := by
  cases o <;> rfl

theorem unplaced_unary (m : Machine) (args : Args) (o : UnOp) (p p' : Position) (v : Rat) :
    unplaced (applyUnary m args o p v) = unplaced (applyUnary m args o p' v) := by
  cases o with
  | squareRoot => exact unplaced_bind rfl fun c => unplaced_math _ _ _
  | negate => rfl
  | absoluteValue => rfl

theorem unplaced_binary (m : Machine) (args : Args) (o : BinOp) (p p' : Position) (a b : Rat) :
    unplaced (applyBinary m args o p a b) = unplaced (applyBinary m args o p' a b) := by
  cases o with
  | exponent => exact unplaced_bind rfl fun c => unplaced_math _ _ _
  | divide =>
    unfold applyBinary
    simp only
    split <;> rfl
  | _ => rfl

theorem unplaced_function (f : FnName) (p p' : Position) (vs : List Rat) :
    unplaced (applyFunction f p vs) = unplaced (applyFunction f p' vs) := by
  cases vs <;> cases f <;> rfl

/-- The tokens `us` are the tokens `ts` at other places, some variables `x` being replaced by the tokens `as` in
parentheses (if that is allowed). -/
inductive Swap (allowed : Prop) (x : Str) (as : List Token) : List PTok → List PTok → Prop
  | nil : Swap allowed x as [] []
  | same {t p p' ts us} : Swap allowed x as ts us → Swap allowed x as (⟨t, p⟩ :: ts) (⟨t, p'⟩ :: us)
  | swap {p p1 p2 vs ts us} : allowed → vs.map (·.value) = as → Swap allowed x as ts us →
      Swap allowed x as (⟨.variable x, p⟩ :: ts) (⟨.openParen, p1⟩ :: (vs ++ ⟨.closeParen, p2⟩ :: us))

theorem Swap.append {allowed : Prop} {x : Str} {as : List Token} : ∀ {a b us : List PTok}, Swap allowed x as (a ++ b) us →
    ∃ u v, us = u ++ v ∧ Swap allowed x as a u ∧ Swap allowed x as b v
  | [], b, us, h => ⟨[], us, rfl, .nil, h⟩
  | t :: a, b, us, h => by
    cases h with
    | same h =>
      obtain ⟨u, v, rfl, h1, h2⟩ := Swap.append h
      exact ⟨_ :: u, v, rfl, .same h1, h2⟩
    | @swap _ p1 p2 vs _ _ hall hv h =>
      obtain ⟨u, v, rfl, h1, h2⟩ := Swap.append h
      refine ⟨⟨.openParen, p1⟩ :: (vs ++ ⟨.closeParen, p2⟩ :: u), v, ?_, .swap hall hv h1, h2⟩
      rw [List.cons_append, List.append_assoc, List.cons_append]

/-- A token that is not a variable is kept. -/
theorem Swap.cons {allowed : Prop} {x : Str} {as : List Token} {t : Token} {p : Position} {ts us : List PTok}
    (h : Swap allowed x as (⟨t, p⟩ :: ts) us) (ht : ∀ y, t ≠ .variable y) :
    ∃ p' vs, us = ⟨t, p'⟩ :: vs ∧ Swap allowed x as ts vs := by
  cases h with
  | same h => exact ⟨_, _, rfl, h⟩
  | swap => exact absurd rfl (ht x)

theorem Swap.single {allowed : Prop} {x : Str} {as : List Token} {t : Token} {p : Position} {us : List PTok}
    (h : Swap allowed x as [⟨t, p⟩] us) (ht : ∀ y, t ≠ .variable y) : ∃ p', us = [⟨t, p'⟩] := by
  obtain ⟨p', vs, rfl, h'⟩ := h.cons ht
  cases h'
  exact ⟨p', rfl⟩

theorem Swap.refl {allowed : Prop} {x : Str} {as : List Token} : ∀ {ts us : List PTok},
    us.map (·.value) = ts.map (·.value) → Swap allowed x as ts us
  | [], us, h => by
    cases us with
    | nil => exact .nil
    | cons u us => simp at h
  | ⟨t, p⟩ :: ts, us, h => by
    cases us with
    | nil => simp at h
    | cons u us =>
      obtain ⟨u, p'⟩ := u
      simp only [List.map_cons, List.cons.injEq] at h
      obtain ⟨rfl, h⟩ := h
      exact .same (Swap.refl h)

theorem Swap.prefix {allowed : Prop} {x : Str} {as : List Token} : ∀ {a a' : List PTok}, Swap allowed x as a a' →
    ∀ {b b' : List PTok}, Swap allowed x as b b' → Swap allowed x as (a ++ b) (a' ++ b')
  | _, _, .nil, _, _, h => h
  | _, _, .same h', _, _, h => .same (h'.prefix h)
  | _, _, .swap hall hv h', _, _, h => by
    rw [List.cons_append, List.cons_append, List.append_assoc, List.cons_append]
    exact .swap hall hv (h'.prefix h)

/-- The value of the node, without the places of errors, is that of the other. -/
def Evens (m : Machine) (args : Args) (store : Bool) (ρ : Valuation) (n n' : Node) : Prop :=
  unplaced (n.pure m args store ρ) = unplaced (n'.pure m args store ρ)

/-- A signed operand that begins with a variable is the variable. -/
theorem signed_variable {x : Str} {p : Position} {ts : List PTok} {n : Node} (h : Signed (⟨.variable x, p⟩ :: ts) n) :
    ts = [] ∧ n = .variable x p := by
  generalize hts : (⟨.variable x, p⟩ :: ts : List PTok) = l at h
  cases h with
  | minus h => simp at hts
  | atom h =>
    cases h with
    | «variable» => simp at hts; obtain ⟨⟨rfl, rfl⟩, rfl⟩ := hts; exact ⟨rfl, rfl⟩
    | _ => simp at hts

section
set_option linter.unusedSectionVars false
variable {allowed : Prop} {x : Str} {as : List Token} {m : Machine} {args : Args} {store : Bool} {ρ : Valuation}
  (hA : allowed → ∃ q, ρ x = some q ∧ ∀ us : List PTok, us.map (·.value) = as →
    ∃ n, Expr 4 us n ∧ n.pure m args store ρ = .ok q)

include hA
mutual
theorem swap_expr : ∀ {k : Nat} {ts : List PTok} {n : Node}, Expr k ts n → ∀ {us : List PTok}, Swap allowed x as ts us →
    ∃ n', Expr k us n' ∧ Evens m args store ρ n n'
  | _, _, _, .signed h, us, hs => by
    obtain ⟨n', h1, h2⟩ := swap_signed h hs
    exact ⟨n', .signed h1, h2⟩
  | _, _, _, .lift h, us, hs => by
    obtain ⟨n', h1, h2⟩ := swap_expr h hs
    exact ⟨n', .lift h1, h2⟩
  | _, _, _, .op (o := o) (p := p) ha hl hb, us, hs => by
    obtain ⟨u, v, rfl, h1, h2⟩ := Swap.append hs
    obtain ⟨p', w, rfl, h3⟩ := h2.cons (by intro y h; cases h)
    obtain ⟨a', ha', hae⟩ := swap_expr ha h1
    obtain ⟨b', hb', hbe⟩ := swap_expr hb h3
    refine ⟨_, .op ha' hl hb', ?_⟩
    unfold Evens Node.pure
    exact unplaced_bind hae fun a => unplaced_bind hbe fun b => unplaced_binary m args o _ _ a b

theorem swap_signed : ∀ {ts : List PTok} {n : Node}, Signed ts n → ∀ {us : List PTok}, Swap allowed x as ts us →
    ∃ n', Signed us n' ∧ Evens m args store ρ n n'
  | _, _, .minus h, us, hs => by
    obtain ⟨p', w, rfl, h3⟩ := hs.cons (by intro y h; cases h)
    obtain ⟨n', h1, h2⟩ := swap_signed h h3
    refine ⟨_, .minus h1, ?_⟩
    unfold Evens Node.pure
    exact unplaced_bind h2 fun a => rfl
  | _, _, .atom h, us, hs => by
    obtain ⟨n', h1, h2⟩ := swap_atom h hs
    exact ⟨n', .atom h1, h2⟩

theorem swap_atom : ∀ {ts : List PTok} {n : Node}, Atom ts n → ∀ {us : List PTok}, Swap allowed x as ts us →
    ∃ n', Atom us n' ∧ Evens m args store ρ n n'
  | _, _, .number, us, hs => by
    obtain ⟨p', rfl⟩ := hs.single (by intro y h; cases h)
    exact ⟨_, .number, rfl⟩
  | _, _, .variable (x := y), us, hs => by
    cases hs with
    | same h =>
      cases h
      refine ⟨_, .variable, ?_⟩
      unfold Evens Node.pure pureVariable
      cases ρ y <;> rfl
    | swap hall hv h =>
      cases h
      obtain ⟨q, hq, hn⟩ := hA hall
      obtain ⟨n, hn, hp⟩ := hn _ hv
      refine ⟨_, .paren hn, ?_⟩
      unfold Evens Node.pure pureVariable
      rw [hq, hp]
  | _, _, .paren h, us, hs => by
    obtain ⟨p', w, rfl, h3⟩ := hs.cons (by intro y h; cases h)
    obtain ⟨u, v, rfl, h1, h2⟩ := Swap.append h3
    obtain ⟨p2, rfl⟩ := h2.single (by intro y h; cases h)
    obtain ⟨n', h1, h2⟩ := swap_expr h h1
    refine ⟨_, .paren h1, ?_⟩
    unfold Evens Node.pure
    exact h2
  | _, _, .unary (o := o) h, us, hs => by
    obtain ⟨p', w, rfl, h3⟩ := hs.cons (by intro y h; cases h)
    obtain ⟨n', h1, h2⟩ := swap_signed h h3
    refine ⟨_, .unary h1, ?_⟩
    unfold Evens Node.pure
    exact unplaced_bind h2 fun a => unplaced_unary m args o _ _ a
  | _, _, .functionBare (f := f) h hno, us, hs => by
    obtain ⟨p', w, rfl, h3⟩ := hs.cons (by intro y h; cases h)
    have key : ∀ n n', Evens m args store ρ n n' → ∀ p q p' q',
        Evens m args store ρ (.function f p [n] q) (.function f p' [n'] q') := by
      intro n n' h p q p' q'
      unfold Evens Node.pure
      refine unplaced_bind ?_ fun vs => unplaced_function f _ _ vs
      unfold pureList
      exact unplaced_bind h fun v => rfl
    by_cases hopen : StartsWithOpen w
    · obtain ⟨p1, w', rfl⟩ := hopen
      cases h3 with
      | same h3 => exact absurd ⟨_, _, rfl⟩ hno
      | swap hall hv h3 =>
        obtain ⟨rfl, rfl⟩ := signed_variable h
        cases h3
        obtain ⟨q, hq, hn⟩ := hA hall
        obtain ⟨n, hn, hp⟩ := hn _ hv
        refine ⟨_, .function (.one hn), key _ _ ?_ _ _ _ _⟩
        unfold Evens
        rw [hp]
        unfold Node.pure pureVariable
        rw [hq]
    · obtain ⟨n', h1, h2⟩ := swap_signed h h3
      exact ⟨_, .functionBare h1 hopen, key _ _ h2 _ _ _ _⟩
  | _, _, .functionEmpty, us, hs => by
    obtain ⟨p', w, rfl, h3⟩ := hs.cons (by intro y h; cases h)
    obtain ⟨p1, w', rfl, h4⟩ := Swap.cons (t := .openParen) h3 (by intro y h; cases h)
    obtain ⟨p2, rfl⟩ := h4.single (by intro y h; cases h)
    exact ⟨_, .functionEmpty, unplaced_function _ _ _ []⟩
  | _, _, .function (f := f) h, us, hs => by
    obtain ⟨p', w, rfl, h3⟩ := hs.cons (by intro y h; cases h)
    obtain ⟨p1, w', rfl, h4⟩ := Swap.cons (t := .openParen) h3 (by intro y h; cases h)
    obtain ⟨u, v, rfl, h1, h2⟩ := Swap.append h4
    obtain ⟨p2, rfl⟩ := h2.single (by intro y h; cases h)
    obtain ⟨ns', h1, h2⟩ := swap_arguments h h1
    refine ⟨_, .function h1, ?_⟩
    unfold Evens Node.pure
    exact unplaced_bind h2 fun vs => unplaced_function f _ _ vs

theorem swap_arguments : ∀ {ts : List PTok} {ns : List Node}, Arguments ts ns → ∀ {us : List PTok}, Swap allowed x as ts us →
    ∃ ns', Arguments us ns' ∧ unplaced (pureList m args store ρ ns) = unplaced (pureList m args store ρ ns')
  | _, _, .one h, us, hs => by
    obtain ⟨n', h1, h2⟩ := swap_expr h hs
    refine ⟨_, .one h1, ?_⟩
    unfold pureList
    exact unplaced_bind h2 fun v => rfl
  | _, _, .more h h', us, hs => by
    obtain ⟨u, v, rfl, h1, h2⟩ := Swap.append hs
    obtain ⟨p', w, rfl, h3⟩ := h2.cons (by intro y h; cases h)
    obtain ⟨a', ha', hae⟩ := swap_expr h h1
    obtain ⟨b', hb', hbe⟩ := swap_arguments h' h3
    refine ⟨_, .more ha' hb', ?_⟩
    unfold pureList
    exact unplaced_bind hae fun v => unplaced_bind hbe fun vs => rfl
end
end

/-- The same tokens at other places. -/
theorem moved_expr (m : Machine) (args : Args) (store : Bool) (ρ : Valuation) {k : Nat} {ts us : List PTok} {n : Node}
    (h : Expr k ts n) (hu : us.map (·.value) = ts.map (·.value)) : ∃ n', Expr k us n' ∧ Evens m args store ρ n n' :=
  swap_expr (allowed := False) (x := []) (as := []) (fun h => h.elim) h (Swap.refl hu)

theorem unplaced_ok {α : Type} {o : Outcome Failure α} {v : α} (h : unplaced (.ok v) = unplaced o) : o = .ok v := by
  cases o <;> simp only [unplaced, Outcome.mapErr, Outcome.ok.injEq, reduceCtorEq] at h
  rw [h]

end Bcalc
