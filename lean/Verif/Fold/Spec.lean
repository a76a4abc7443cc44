import Verif.Fold.Model
/-!
# What a constant expression denotes (specification for C49)
-/
namespace Ulam.Fold.Spec
open Ulam.Types Ulam.Fold

/-- The number an expression denotes; division truncates toward zero and has no value when the divisor is zero. -/
def exact : Expr → Option Int
  | .int v => some v
  | .uns v => some v
  | .neg a => (exact a).map (- ·)
  | .bin op a b =>
    match exact a, exact b with
    | some x, some y =>
      match op with
      | .add => some (x + y)
      | .sub => some (x - y)
      | .mul => some (x * y)
      | .div => if y = 0 then none else some (x.tdiv y)
      | .rem => if y = 0 then none else some (x.tmod y)
    | _, _ => none

/-- The 32-bit word, or the 64-bit word for more bits. -/
def word (n : Nat) : Nat := if n ≤ 32 then 32 else 64

/-- Signedness and size of an expression if no size is ever limited by a word: a literal has the bits of its value (and
a sign bit), an unsigned operand of a signed operator needs one bit more, sums and differences need one bit more than the
larger operand, products as many as both, quotients and remainders as many as the larger operand. `none` as soon as some
size exceeds its word. -/
def uncapped : Expr → Option (Bool × Nat)
  | .int v => if v < 2 ^ 63 then some (true, Nat.log2 v + 2) else none
  | .uns v => if v < 2 ^ 64 then some (false, Nat.log2 v + 1) else none
  | .neg a => (uncapped a).map fun (_, n) => (true, n)
  | .bin op a b =>
    match uncapped a, uncapped b with
    | some (s, n), some (t, m) =>
      let n' := if t && !s then n + 1 else n
      let m' := if s && !t then m + 1 else m
      let k := match op with
        | .add | .sub => max n' m' + 1
        | .mul => n' + m'
        | .div | .rem => max n' m'
      if n' ≤ word n ∧ m' ≤ word m ∧ k ≤ word (max n m) then some (s || t, k) else none
    | _, _ => none

/-- All leaves unsigned and no minus sign: the compiler computes without negative numbers. -/
def unsignedTree : Expr → Bool
  | .int _ => false
  | .uns _ => true
  | .neg _ => false
  | .bin _ a b => unsignedTree a && unsignedTree b

/-- The expression is a quotient or remainder that is negative. -/
def negativeQuotient : Expr → Prop
  | .bin .div a b => ∃ v, exact (.bin .div a b) = some v ∧ v < 0
  | .bin .rem a b => ∃ v, exact (.bin .rem a b) = some v ∧ v < 0
  | _ => False

/-- No unsigned difference is below zero, and no negative quotient or remainder is an operand of a minus sign, of a
division or of a remainder. -/
def Clean : Expr → Prop
  | .int _ => True
  | .uns _ => True
  | .neg a => Clean a ∧ ¬ negativeQuotient a
  | .bin op a b => Clean a ∧ Clean b ∧
    (op = .sub → unsignedTree a = true → unsignedTree b = true →
      ∀ x y, exact a = some x → exact b = some y → y ≤ x) ∧
    (op = .div ∨ op = .rem → ¬ negativeQuotient a ∧ ¬ negativeQuotient b)

/-- No minus sign stands before an unsigned expression. -/
def SignedMinus : Expr → Prop
  | .int _ => True
  | .uns _ => True
  | .neg a => SignedMinus a ∧ unsignedTree a = false
  | .bin _ a b => SignedMinus a ∧ SignedMinus b

end Ulam.Fold.Spec
