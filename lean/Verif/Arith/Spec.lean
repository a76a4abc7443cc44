import Verif.Arith.Model
import Verif.Oper.Spec
/-!
# What arithmetic, shifts, unary operators and compound assignments mean (specification for C72-C74)

Arithmetic is that of whole numbers, put into a type as the nearest number it has. Shifts work on bits.
-/
namespace Ulam.Arith.Spec
open Ulam.Types Ulam.Types.Spec Ulam.Oper
open Ulam.Cast.Spec (Nearest)

/-- Division by zero has no result. -/
def Defined (op : Op) (y : Int) : Prop := (op = .div ∨ op = .rem) → y ≠ 0

/-- The bits shifted, `n` of them kept. -/
def shifted (d : Dir) (x k n : Nat) : Nat :=
  match d with
  | .left => x * 2 ^ k % 2 ^ n
  | .right => x / 2 ^ k

/-- The library does what the names say, looking at no more bits of a value than it is told to. A shift is only assumed to
mean something for distances below the word. -/
structure Faithful (lib : Calc) (cnt : Nat) (valid : Nat → Bool) : Prop where
  base : Oper.Spec.Faithful lib.toLib cnt valid
  arith : ∀ op b w n, Numeric b → (w = 32 ∨ w = 64) → 1 ≤ n → n ≤ w → ∀ x y,
    Defined op (number b n (y % 2 ^ n)) →
    Nearest b n (exact op (number b n (x % 2 ^ n)) (number b n (y % 2 ^ n))) (number b n (lib.arith op b w x y n % 2 ^ n))
  shift : ∀ d w n, (w = 32 ∨ w = 64) → 1 ≤ n → n ≤ w → ∀ x k, k < w →
    lib.shift d w x k n % 2 ^ n = shifted d (x % 2 ^ n) k n
  minus : ∀ w n, (w = 32 ∨ w = 64) → 1 ≤ n → n ≤ w → ∀ x,
    Nearest .int n (- number .int n (x % 2 ^ n)) (number .int n (lib.minus w x n % 2 ^ n))
  bang : ∀ w n, (w = 32 ∨ w = 64) → 1 ≤ n → n ≤ w → ∀ x,
    truth .bool n (lib.bang w x n % 2 ^ n) = !truth .bool n (x % 2 ^ n)
  compl : ∀ w n, (w = 32 ∨ w = 64) → 1 ≤ n → n ≤ w → ∀ x, lib.compl w x n % 2 ^ n = 2 ^ n - 1 - x % 2 ^ n

end Ulam.Arith.Spec
