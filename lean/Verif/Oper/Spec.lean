import Verif.Oper.Model
import Verif.Cast.Spec
/-!
# What the operators mean (specification for C68 and C69)

Comparison is comparison of the operands' own values: numbers, truth values, or - when one operand is `Bits` - bit
patterns. Bitwise operators work on the operands' bits. The specification knows nothing of common types.
-/
namespace Ulam.Oper.Spec
open Ulam.Types Ulam.Types.Spec Ulam.Oper

/-- Comparison of numbers. -/
def rel (op : Cmp) (x y : Int) : Bool :=
  match op with
  | .lt => decide (x < y)
  | .le => decide (x ≤ y)
  | .gt => decide (y < x)
  | .ge => decide (y ≤ x)
  | .eq => decide (x = y)
  | .ne => decide (x ≠ y)

/-- The bits combined one by one. -/
def bitwise (op : Bitw) (x y : Nat) : Nat :=
  match op with
  | .and => x &&& y
  | .or => x ||| y
  | .xor => x ^^^ y

/-- What a comparison should say of two values. -/
def compared (op : Cmp) (lb : Base) (n x : Nat) (rb : Base) (m y : Nat) : Bool :=
  if lb = .bits ∨ rb = .bits then rel op x y
  else if lb = .bool ∧ rb = .bool then rel op (truth .bool n x).toNat (truth .bool m y).toNat
  else rel op (number lb n x) (number rb m y)

/-- The same for `&&`, `||`: the value, and whether the right operand counts. -/
def logical (op : Logic) (p q : Bool) : Bool × Bool :=
  match op, p with
  | .and, false => (false, false)
  | .or, true => (true, false)
  | _, _ => (q, true)

/-- The comparison functions the library is assumed to provide. -/
def Provided (op : Cmp) (b : Base) : Prop :=
  Numeric b ∨ ((b = .bool ∨ b = .bits) ∧ (op = .eq ∨ op = .ne))

/-- The library does what the names say, looking at no more bits than it is told to. -/
structure Faithful (lib : Lib) (cnt : Nat) (valid : Nat → Bool) : Prop where
  ext : Cast.Spec.Faithful lib.ext cnt valid
  cmp : ∀ op b w n, Provided op b → (w = 32 ∨ w = 64) → 1 ≤ n → n ≤ w → ∀ x y,
    lib.cmp op b w x y n % 2 = (compared op b n (x % 2 ^ n) b n (y % 2 ^ n)).toNat
  bitw : ∀ op w n, (w = 32 ∨ w = 64) → 1 ≤ n → n ≤ w → ∀ x y,
    lib.bitw op .bits w x y n % 2 ^ n = bitwise op (x % 2 ^ n) (y % 2 ^ n)
  cbool : ∀ w n, (w = 32 ∨ w = 64) → 1 ≤ n → n ≤ w → ∀ x, lib.cbool w x n = truth .bool n (x % 2 ^ n)

/-- What a value becomes where a common type is asked for: itself in its own type, else the same number, truth or bits. -/
def Kept (t : Ty) (raw' : Nat) (s : Ty) (raw : Nat) : Prop :=
  if s = t then raw' = raw else Preserved t.base t.bits raw' s.base s.bits raw

/-- Every number of the one type is a number of the other. -/
def Within (s : Ty) (b : Base) (n : Nat) : Prop := ∀ v, InRange s.base s.bits v → InRange b n v

/-- `raw` is a value of the operand: the constant's, if it is one. -/
def Value (o : Operand) (raw : Nat) : Prop :=
  raw < 2 ^ o.ty.bits ∧ ∀ u, o.const = some u → raw = u % 2 ^ o.ty.bits ∧ (o.ty.base = .unary → u < 2 ^ o.ty.bits)

end Ulam.Oper.Spec
