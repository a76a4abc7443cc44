import Verif.Types.Model
/-!
# What values types have (specification for C07-C11)

A stored value of a type with `n` bits is a number `raw < 2^n`. Its meaning is given here, without reference to the
compiler's size rules.
-/
namespace Ulam.Types.Spec
open Ulam.Types

/-- Number of set bits among the low `n` bits. -/
def ones : Nat → Nat → Nat
  | 0, _ => 0
  | n + 1, r => r % 2 + ones n (r / 2)

/-- Two's complement reading. -/
def twos (n raw : Nat) : Int := if 2 * raw < 2 ^ n then raw else (raw : Int) - 2 ^ n

/-- The number a stored value of a numeric type stands for: `Int` two's complement, `Unsigned` binary, `Unary` the
count of ones, quark: its `toInt`, an `Int(32)`. -/
def number (b : Base) (n raw : Nat) : Int :=
  match b with
  | .int | .quark => twos n raw
  | .unsigned => raw
  | .unary => ones n raw
  | _ => 0

/-- `Bool(n)` is true when more than half of its bits are set. A one-bit number counts as true when it is not zero. -/
def truth (b : Base) (n raw : Nat) : Bool :=
  match b with
  | .bool => decide (2 * ones n raw > n)
  | _ => decide (number b n raw ≠ 0)

/-- Bits a value of the type occupies as a cast operand: a numeric quark is its 32-bit `toInt`. -/
def width (b : Base) (n : Nat) : Nat := match b with | .quark => 32 | _ => n

/-- `raw'` in the destination carries what `raw` in the source carries: the same number for numeric destinations, the
same truth from `Bool` to `Bool`, true for 1 and false for 0 (and no other number) from a number to `Bool`, the same bits
for `Bits`. -/
def Preserved (tb : Base) (t raw' : Nat) (fb : Base) (n raw : Nat) : Prop :=
  match tb with
  | .int | .unsigned | .unary => number tb t raw' = number fb n raw
  | .bool => match fb with
    | .bool => truth .bool t raw' = truth fb n raw
    | _ => number fb n raw = (truth .bool t raw').toNat
  | .bits => raw' = raw
  | _ => False

/-- Value ranges, as plain inequalities. -/
def InRange (b : Base) (n : Nat) (v : Int) : Prop :=
  match b with
  | .int => -(2 : Int) ^ (n - 1) ≤ v ∧ v < (2 : Int) ^ (n - 1)
  | .quark => -(2 : Int) ^ 31 ≤ v ∧ v < (2 : Int) ^ 31
  | .unsigned => 0 ≤ v ∧ v < (2 : Int) ^ n
  | .unary => 0 ≤ v ∧ v ≤ n
  | _ => False

/-- The same for a result described by signedness. -/
def SignRange (s : Sign) (n : Nat) (v : Int) : Prop :=
  match s with
  | .signed => -(2 : Int) ^ (n - 1) ≤ v ∧ v < (2 : Int) ^ (n - 1)
  | .unsigned => 0 ≤ v ∧ v < (2 : Int) ^ n

/-- Numeric types. -/
def Numeric (b : Base) : Prop := b = .int ∨ b = .unsigned ∨ b = .unary

/-- Mathematical result; division truncates toward zero as in C. -/
def exact (op : Op) (x y : Int) : Int :=
  match op with
  | .add => x + y
  | .sub => x - y
  | .mul => x * y
  | .div => x.tdiv y
  | .rem => x.tmod y

end Ulam.Types.Spec
