import Verif.Order.Model
/-!
# When the order does not matter (specification for C70)

Which variables an expression may touch and which it may change, read off its text, and what it means that the operands
of an operator do not interfere. `right` is the meaning of an expression whose operators take the right operand first.
-/
namespace Ulam.Order.Spec
open Ulam.Order

/-- Variables functions may touch and change. -/
structure Foot where
  use : Nat → List Nat
  wr : Nat → List Nat

/-- The functions keep to it: outside `wr` nothing changes, and only `use` matters. -/
def Keeps (E : Env) (F : Foot) : Prop :=
  ∀ f vs m m', (∀ x ∈ F.use f ++ F.wr f, m x = m' x) →
    (E.fn f vs m = none ∧ E.fn f vs m' = none) ∨
    ∃ v m1 m1', E.fn f vs m = some (v, m1) ∧ E.fn f vs m' = some (v, m1') ∧
      (∀ x ∈ F.use f ++ F.wr f, m1 x = m1' x) ∧ ∀ x, x ∉ F.wr f → m1 x = m x ∧ m1' x = m' x

mutual
/-- Variables a place's subscripts touch. -/
def usePlace (F : Foot) : Place → List Nat
  | .var _ => []
  | .item _ i => use F i
/-- Variables an expression may touch. -/
def use (F : Foot) : Expr → List Nat
  | .const _ => []
  | .read p => target p :: usePlace F p
  | .un _ e => use F e
  | .bin _ l r => use F l ++ use F r
  | .and l r => use F l ++ use F r
  | .or l r => use F l ++ use F r
  | .cond c a b => use F c ++ (use F a ++ use F b)
  | .assign p e => target p :: (usePlace F p ++ use F e)
  | .upd _ p e => target p :: (usePlace F p ++ use F e)
  | .post _ p e => target p :: (usePlace F p ++ use F e)
  | .call f args extra => F.use f ++ F.wr f ++ (useArgs F args ++ useArgs F extra)
/-- The variable stored into. -/
def target : Place → Nat
  | .var x => x
  | .item x _ => x
/-- The same for arguments. -/
def useArgs (F : Foot) : Args → List Nat
  | .nil => []
  | .cons e as => use F e ++ useArgs F as
end

mutual
/-- Variables a place's subscripts may change. -/
def wrPlace (F : Foot) : Place → List Nat
  | .var _ => []
  | .item _ i => wr F i
/-- Variables an expression may change. -/
def wr (F : Foot) : Expr → List Nat
  | .const _ => []
  | .read p => wrPlace F p
  | .un _ e => wr F e
  | .bin _ l r => wr F l ++ wr F r
  | .and l r => wr F l ++ wr F r
  | .or l r => wr F l ++ wr F r
  | .cond c a b => wr F c ++ (wr F a ++ wr F b)
  | .assign p e => target p :: (wrPlace F p ++ wr F e)
  | .upd _ p e => target p :: (wrPlace F p ++ wr F e)
  | .post _ p e => target p :: (wrPlace F p ++ wr F e)
  | .call f args extra => F.wr f ++ (wrArgs F args ++ wrArgs F extra)
/-- The same for arguments. -/
def wrArgs (F : Foot) : Args → List Nat
  | .nil => []
  | .cons e as => wr F e ++ wrArgs F as
end

/-- Neither changes what the other touches. -/
def Apart (u1 w1 u2 w2 : List Nat) : Prop := (∀ x ∈ w1, x ∉ u2) ∧ ∀ x ∈ w2, x ∉ u1

/-- Arithmetic on constants and variables, which changes nothing and does not stop. -/
def Inert : Expr → Prop
  | .const _ => True
  | .read (.var _) => True
  | .un _ e => Inert e
  | .bin _ l r => Inert l ∧ Inert r
  | _ => False

/-- All arguments are. -/
def InertArgs : Args → Prop
  | .nil => True
  | .cons e as => Inert e ∧ InertArgs as

mutual
/-- The same for a place. -/
def CalmPlace (F : Foot) : Place → Prop
  | .var _ => True
  | .item _ i => Calm F i
/-- No operator, assignment or call has operands that interfere, and arguments beyond the
parameters are without effects. -/
def Calm (F : Foot) : Expr → Prop
  | .const _ => True
  | .read p => CalmPlace F p
  | .un _ e => Calm F e
  | .bin _ l r => Calm F l ∧ Calm F r ∧ Apart (use F l) (wr F l) (use F r) (wr F r)
  | .and l r => Calm F l ∧ Calm F r
  | .or l r => Calm F l ∧ Calm F r
  | .cond c a b => Calm F c ∧ Calm F a ∧ Calm F b
  | .assign p e => CalmPlace F p ∧ Calm F e ∧ Apart (usePlace F p) (wrPlace F p) (use F e) (wr F e)
  | .upd _ p e => CalmPlace F p ∧ Calm F e ∧ Apart (usePlace F p) (wrPlace F p) (use F e) (wr F e)
  | .post _ p e => CalmPlace F p ∧ Calm F e ∧ Apart (usePlace F p) (wrPlace F p) (use F e) (wr F e)
  | .call _ args extra => CalmArgs F args ∧ InertArgs extra
/-- No argument interferes with another. -/
def CalmArgs (F : Foot) : Args → Prop
  | .nil => True
  | .cons e as => Calm F e ∧ CalmArgs F as ∧ Apart (use F e) (wr F e) (useArgs F as) (wrArgs F as)
end

/-! ## Right operand first -/

/-- One after the other. -/
def both {α β γ : Type} (a : Mem → Option (α × Mem)) (b : Mem → Option (β × Mem)) (k : α → β → Mem → Option (γ × Mem))
    (m : Mem) : Option (γ × Mem) :=
  match a m with
  | none => none
  | some (x, m) =>
    match b m with
    | none => none
    | some (y, m) => k x y m

mutual
/-- A place. -/
def rightPlace (E : Env) : Place → Mem → Option ((Nat × Int) × Mem)
  | .var x, m => some ((x, 0), m)
  | .item x i, m =>
    match right E i m with
    | none => none
    | some (k, m) => if inside E x k then some ((x, k), m) else none
/-- The right operand of an operator first, the assigned value before the place, the arguments of a call first to last. -/
def right (E : Env) : Expr → Mem → Option (Int × Mem)
  | .const v, m => some (v, m)
  | .read p, m =>
    match rightPlace E p m with
    | none => none
    | some ((x, k), m) => some (m x k, m)
  | .un op e, m => (right E e m).map fun r => (E.un op r.1, r.2)
  | .bin op l r, m => both (right E r) (right E l) (fun b a m => some (E.bin op a b, m)) m
  | .and l r, m =>
    match right E l m with
    | none => none
    | some (a, m) => if E.truth a then right E r m else some (0, m)
  | .or l r, m =>
    match right E l m with
    | none => none
    | some (a, m) => if E.truth a then some (a, m) else right E r m
  | .cond c a b, m =>
    match right E c m with
    | none => none
    | some (v, m) => if E.truth v then right E a m else right E b m
  | .assign p e, m => both (right E e) (rightPlace E p) (fun v q m => some (v, put m q.1 q.2 v)) m
  | .upd op p e, m => both (right E e) (rightPlace E p)
      (fun v q m => some (E.bin op (m q.1 q.2) v, put m q.1 q.2 (E.bin op (m q.1 q.2) v))) m
  | .post op p e, m => both (right E e) (rightPlace E p)
      (fun v q m => some (m q.1 q.2, put m q.1 q.2 (E.bin op (m q.1 q.2) v))) m
  | .call f args extra, m => both (rightArgs E args) (rightArgs E extra) (fun vs _ m => E.fn f vs m) m
/-- Arguments. -/
def rightArgs (E : Env) : Args → Mem → Option (List Int × Mem)
  | .nil, m => some ([], m)
  | .cons e as, m => both (right E e) (rightArgs E as) (fun v vs m => some (v :: vs, m)) m
end

end Ulam.Order.Spec
