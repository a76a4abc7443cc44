import Verif.Consts.Model

/-
What a named constant should be worth, said without passes or rounds.
-/

namespace Ulam.Consts

/-- `Worth P t v`: the expression `t` is worth `v`.  The name of a constant is worth
what its expression is worth, as stored in the declared type of the constant. -/
inductive Worth {O V : Type} (P : Prog O V) : Tree O V → V → Prop where
  | lit (v : V) : Worth P (.lit v) v
  | ident {n : Nat} {t : Tree O V} {w v : V} :
      P.body n = some t → Worth P t w → P.sem.store n w = some v → Worth P (.ident n) v
  | cnst {n : Nat} {c : Option V} {v : V} : Worth P (.ident n) v → Worth P (.cnst n c) v
  | un {o : O} {a : Tree O V} {x v : V} :
      Worth P a x → P.sem.un o x = some v → Worth P (.un o a) v
  | bin {o : O} {a b : Tree O V} {x y v : V} :
      Worth P a x → Worth P b y → P.sem.bin o x y = some v → Worth P (.bin o a b) v
  | yes {c a b : Tree O V} {x v : V} :
      Worth P c x → P.sem.truth x = true → Worth P a v → Worth P (.cond c a b) v
  | no {c a b : Tree O V} {x v : V} :
      Worth P c x → P.sem.truth x = false → Worth P b v → Worth P (.cond c a b) v

/-- Constant `n` is worth `v`. -/
def Means {O V : Type} (P : Prog O V) (n : Nat) (v : V) : Prop := Worth P (.ident n) v

/-- The expression mentions constant `m`, anywhere. -/
def Mentions {O V : Type} (m : Nat) : Tree O V → Prop
  | .lit _ => False
  | .ident n => n = m
  | .cnst n _ => n = m
  | .un _ a => Mentions m a
  | .bin _ a b => Mentions m a ∨ Mentions m b
  | .cond c a b => Mentions m c ∨ Mentions m a ∨ Mentions m b

/-- The source form of an expression: no value has been put in yet. -/
def Fresh {O V : Type} : Tree O V → Prop
  | .lit _ => True
  | .ident _ => True
  | .cnst _ c => c = none
  | .un _ a => Fresh a
  | .bin _ a b => Fresh a ∧ Fresh b
  | .cond c a b => Fresh c ∧ Fresh a ∧ Fresh b

/-- A program as parsed: every listed constant has an expression in source form,
and every constant with an expression is listed once. -/
structure Parsed {O V : Type} (P : Prog O V) : Prop where
  fresh : ∀ n t, P.body n = some t → Fresh t
  listed : ∀ n, (P.body n).isSome ↔ n ∈ P.classes ++ P.locals
  once : (P.classes ++ P.locals).Nodup

/-- A plan for the evaluation of an expression: `vals` are the values of the
constants, `avail r m` that constant `m` can be used in pass `r`.
`Plan … r t v`: in pass `r` the expression is worth `v`; a plain name needs a
pass before, each `?:` one pass more than its parts; operators are defined on
all operands, also in the branch not taken. -/
def Plan {O V : Type} (P : Prog O V) (vals : Nat → V) (avail : Nat → Nat → Prop) :
    Nat → Tree O V → V → Prop
  | _, .lit w, v => v = w
  | r, .ident m, v => 0 < r ∧ (P.body m).isSome ∧ avail r m ∧ v = vals m
  | r, .cnst m _, v => (P.body m).isSome ∧ avail r m ∧ v = vals m
  | r, .un o a, v => ∃ x, Plan P vals avail r a x ∧ P.sem.un o x = some v
  | r, .bin o a b, v => ∃ x y, Plan P vals avail r a x ∧ Plan P vals avail r b y ∧ P.sem.bin o x y = some v
  | 0, .cond _ _ _, _ => False
  | r + 1, .cond c a b, v => ∃ x y z, Plan P vals avail r c x ∧ Plan P vals avail r a y ∧
      Plan P vals avail r b z ∧ v = (if P.sem.truth x then y else z)

/-- The order in which pass `r` meets the constants. -/
def order {O V : Type} (P : Prog O V) (r : Nat) : List Nat :=
  if r = 0 then P.classes ++ P.locals else P.locals ++ P.classes

/-- `m` comes before `n` in the list. -/
def Before (l : List Nat) (m n : Nat) : Prop := ∃ a b, l = a ++ n :: b ∧ m ∈ a

/-- The constants have the values `vals`, and constant `n` can be folded in pass
`rank n` at the latest: those it refers to were folded in an earlier pass, or
come earlier in the same pass. -/
def Scheduled {O V : Type} (P : Prog O V) (vals : Nat → V) (rank : Nat → Nat) : Prop :=
  ∀ n t, P.body n = some t →
    ∃ w, Plan P vals (fun r m => rank m < r ∨ (rank m = r ∧ Before (order P r) m n)) (rank n) t w ∧
      P.sem.store n w = some (vals n)

/-- How deep `?:` nest in an expression. -/
def conds {O V : Type} : Tree O V → Nat
  | .lit _ => 0
  | .ident _ => 0
  | .cnst _ _ => 0
  | .un _ a => conds a
  | .bin _ a b => max (conds a) (conds b)
  | .cond c a b => max (conds c) (max (conds a) (conds b)) + 1

/-- Every part of the expression is worth something, also a branch not taken. -/
def Total {O V : Type} (P : Prog O V) : Tree O V → Prop
  | .lit _ => True
  | .ident n => ∃ v, Means P n v
  | .cnst n _ => ∃ v, Means P n v
  | .un o a => Total P a ∧ ∃ v, Worth P (.un o a) v
  | .bin o a b => Total P a ∧ Total P b ∧ ∃ v, Worth P (.bin o a b) v
  | .cond c a b => Total P c ∧ Total P a ∧ Total P b

end Ulam.Consts
