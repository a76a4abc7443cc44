import Mathlib.Data.Nat.Notation
/-
Model of the wrap-around counter of /repo/share/ulam/stdlib/UMod.ulam.

`Unsigned(bits)` is a number below 2^bits. A cast to it clamps (the cast functions of the MFM library, CastOps.h, not in /repo);
sums and differences below 32 bits are exact (C02). The comparisons and `%` are those of numbers.
-/
namespace Ulam.UMod

/-- A cast to `Unsigned(bits)`. -/
def toUnsigned (bits : Nat) (x : Int) : Nat := (min (max x 0) (2 ^ bits - 1)).toNat

/-- The template parameters: `Unary(31) bits, Unary(16) deadbits`; UMod.ulam:21. -/
structure Params where
  bits : Nat
  deadbits : Nat

variable (p : Params)

/-- `Value.maxof`. -/
def maxof : Nat := 2 ^ p.bits - 1

/-- `cDEAD_SPREAD`; UMod.ulam:23. -/
def deadSpread : Nat := toUnsigned p.bits ((toUnsigned 32 (2 ^ p.deadbits) : Int) - 1)

/-- `cVALUE_MIDPOINT`; UMod.ulam:24. -/
def midpoint : Nat := toUnsigned p.bits ((maxof p - 0) / 2 : Nat)

/-- `cVALUE_LOWER_CUT`; UMod.ulam:25. -/
def lowerCut : Nat := toUnsigned p.bits ((midpoint p : Int) - deadSpread p)

/-- `cVALUE_UPPER_CUT`; UMod.ulam:26. -/
def upperCut : Nat := toUnsigned p.bits ((midpoint p : Int) + deadSpread p)

/-- `isLess`; UMod.ulam:37-40. -/
def isLess (a b : Nat) : Bool := if a < b then decide (b - a < lowerCut p) else decide (a - b ≥ upperCut p)

/-- `isEqual`; UMod.ulam:41. -/
def isEqual (a b : Nat) : Bool := decide (a = b)

/-- `isGreater`, `isLessEqual`, `isGreaterEqual`, `isNotEqual`; UMod.ulam:42-45. -/
def isGreater (a b : Nat) : Bool := !isEqual a b && !isLess p a b
def isLessEqual (a b : Nat) : Bool := !isGreater p a b
def isGreaterEqual (a b : Nat) : Bool := !isLess p a b
def isNotEqual (a b : Nat) : Bool := !isEqual a b

/-- `isComparable`; UMod.ulam:35, with the operators of 59-64. -/
def isComparable (a b : Nat) : Bool := isLess p a b || isGreaterEqual p a b

/-- `increment`; UMod.ulam:50-52. The sum is `Unsigned`, of 32 bits. -/
def increment (v incr : Nat) : Nat := toUnsigned p.bits ((toUnsigned 32 ((v : Int) + incr) % maxof p : Nat) : Int)

/-- `decrement`; UMod.ulam:55-57. -/
def decrement (v decr : Nat) : Nat := increment p v (toUnsigned p.bits ((maxof p : Int) - decr))

/-- `isOneLessThan`, `isOneMoreThan`; UMod.ulam:46-47. -/
def isOneLessThan (a b : Nat) : Bool := isEqual a (decrement p b 1)
def isOneMoreThan (a b : Nat) : Bool := isEqual a (increment p b 1)

end Ulam.UMod
