/-!
# Primitive types: implicit casts, result sizes, literal sizes (model)

Models the parts of the type checker that decide, from base types and bit sizes only, whether a cast is implicit and
how wide a result is. `Nat.log2` stands for `_getLogBase2`/`_getLogBase2Long` of the MFM library (floor of the base-2
logarithm, 0 for 0), which is not in the repository.
-/
namespace Ulam.Types

/-- `include/UlamType.inc`: the base types that can meet in a cast. `quark` is a class whose `isNumericType()` holds
(it has a `toInt`); `cls` is any other class. Simplification: holder, pointer and file-scope types never reach these
functions (they abort in the `default` branch). -/
inductive Base
  | int | unsigned | unary | bool | bits | void | atom | string | quark | cls
  deriving DecidableEq, Repr

/-- `include/Constants.h` `ALT`: not a reference, `T&`, `constant T&`. -/
inductive Alt
  | notRef | ref | constRef
  deriving DecidableEq, Repr

/-- A complete type: base, item bit size, array size (`-1` = `NONARRAYSIZE` for scalars), reference kind;
`include/UlamKeyTypeSignature.h`. -/
structure Ty where
  base : Base
  bits : Nat
  arr : Int := -1
  alt : Alt := .notRef
  deriving DecidableEq, Repr

/-- `include/Constants.h:231` `calcWordSize`. -/
def wordSize (l : Nat) : Nat := (l / 32) * 32 + (if l % 32 > 0 then 32 else 0)

/-- `UlamTypePrimitiveUnsigned.cpp:16-30`, `Constants.h:240-247` (`_GetNOnes`): largest unsigned of a size. -/
def unsignedMax (l : Nat) : Nat := 2 ^ l - 1

/-- `UlamType.cpp:124-152` `checkArrayCast`: two scalars, or equal array sizes. -/
def checkArrayCast (to frm : Ty) : Bool :=
  if to.arr = -1 ∧ frm.arr = -1 then true else decide (to.arr = frm.arr)

/-- `UlamType.cpp:96-116` `UlamType::safeCast` on complete types (incomplete types give `CAST_HAZY` and are retried). -/
def baseSafeCast (to frm : Ty) : Bool :=
  checkArrayCast to frm && !(decide (frm.alt = .constRef) && decide (to.alt = .ref))

/-- `UlamTypePrimitiveInt.cpp:191-223`. -/
def intFrom (t : Nat) (f : Base) (n : Nat) : Bool :=
  match f with
  | .int => decide (t ≥ n)
  | .unsigned => decide (t > n)
  | .unary => decide (t > Nat.log2 n + 1)
  | .quark => decide (t ≥ 32)
  | .bool | .bits | .void | .atom | .string | .cls => false

/-- `UlamTypePrimitiveUnsigned.cpp:196-218`. -/
def unsignedFrom (t : Nat) (f : Base) (n : Nat) : Bool :=
  match f with
  | .unsigned => decide (t ≥ n)
  | .unary => decide (t ≥ Nat.log2 n + 1)
  | .int | .bool | .bits | .void | .atom | .quark | .cls | .string => false

/-- `UlamTypePrimitiveUnary.cpp:185-213`. The 32/64-bit branches compare the same numbers for sizes up to 64. -/
def unaryFrom (t : Nat) (f : Base) (n : Nat) : Bool :=
  match f with
  | .unsigned => decide (t ≥ unsignedMax n)
  | .unary => decide (t ≥ n)
  | .int | .bool | .bits | .void | .atom | .quark | .cls | .string => false

/-- `UlamTypePrimitiveBool.cpp:183-205`. -/
def boolFrom (f : Base) (n : Nat) : Bool :=
  match f with
  | .bool => true
  | .unsigned | .unary => decide (n = 1)
  | .int | .bits | .void | .atom | .quark | .cls | .string => false

/-- `UlamTypePrimitiveBits.cpp:155-183`. -/
def bitsFrom (t : Nat) (f : Base) (n : Nat) : Bool :=
  match f with
  | .unsigned | .unary | .int | .bool | .bits => decide (t ≥ n)
  | .quark => decide (t ≥ 32)
  | .string | .void | .atom | .cls => false

/-- `to.safeCast(from) == CAST_CLEAR` for a destination among the five sized primitive types (dispatch on the
destination's class). Other destinations are outside this model and give `false`. -/
def safeCast (to frm : Ty) : Bool :=
  baseSafeCast to frm &&
    match to.base with
    | .int => intFrom to.bits frm.base frm.bits
    | .unsigned => unsignedFrom to.bits frm.base frm.bits
    | .unary => unaryFrom to.bits frm.base frm.bits
    | .bool => boolFrom frm.base frm.bits
    | .bits => bitsFrom to.bits frm.base frm.bits
    | _ => false

/-! ## Result sizes of binary operators -/

/-- Numeric operand kinds after `NodeBinaryOp.cpp:470-497` `calcBitsizeForResult`. -/
inductive Sign
  | signed | unsigned
  deriving DecidableEq, Repr

/-- `NodeBinaryOp.cpp:470-497` `calcBitsizeForResult`: (bit size, word size, kind). `none` is the failed assertion for
non-numeric operands. -/
def calcBitsizeForResult (b : Base) (n : Nat) : Option (Nat × Nat × Sign) :=
  match b with
  | .quark => some (32, 32, .signed)
  | .unary => some (Nat.log2 n + 1, wordSize n, .unsigned)
  | .unsigned => some (n, wordSize n, .unsigned)
  | .int => some (n, wordSize n, .signed)
  | _ => none

/-- `bitsizeToConvertTypeTo(Int)`: `UlamTypePrimitiveUnsigned.cpp:258-289`, `UlamTypePrimitiveUnary.cpp:253-284`,
`UlamTypePrimitiveInt.cpp:287-318`; capped at the operand's own word size. -/
def bitsizeToInt (b : Base) (n : Nat) : Nat :=
  let t := match b with
    | .unsigned => n + 1
    | .unary => Nat.log2 n + 1 + 1
    | _ => n
  if t > wordSize n then wordSize n else t

/-- `NodeBinaryOp.cpp:431-468` `resultBitsizeCalc`: (left size, right size, common word size). -/
def resultBitsizeCalc (lb : Base) (ln : Nat) (rb : Base) (rn : Nat) : Option (Nat × Nat × Nat) :=
  match calcBitsizeForResult lb ln, calcBitsizeForResult rb rn with
  | some (lbs, lw, ls), some (rbs, rw, rs) =>
    let w := if lw ≠ rw then (if lw > rw then lw else rw) else lw
    if ls ≠ rs ∧ (ls = .signed ∨ rs = .signed) then
      if ls ≠ .signed then some (bitsizeToInt lb ln, rbs, w)
      else some (lbs, bitsizeToInt rb rn, w)
    else some (lbs, rbs, w)
  | _, _ => none

/-- The arithmetic operators. -/
inductive Op
  | add | sub | mul | div | rem
  deriving DecidableEq, Repr

/-- `resultBitsize`: `NodeBinaryOpArithAdd.cpp:32-40`, `NodeBinaryOpArithSubtract.cpp:32-40`,
`NodeBinaryOpArithMultiply.cpp:27-34`, and the default `NodeBinaryOp.cpp:422-429` for divide and remainder. -/
def resultBitsize (op : Op) (lb : Base) (ln : Nat) (rb : Base) (rn : Nat) : Option Nat :=
  (resultBitsizeCalc lb ln rb rn).map fun (lbs, rbs, w) =>
    let m := match op with
      | .add | .sub => (if lbs > rbs then lbs else rbs) + 1
      | .mul => lbs + rbs
      | .div | .rem => if lbs > rbs then lbs else rbs
    if m ≥ w then w else m

/-- `NodeBinaryOpArith.cpp:84-100` `calcNodeType`: unsigned when both operands are unsigned or unary, else signed. -/
def resultSign (lb rb : Base) : Sign :=
  let isU (b : Base) := b = .unsigned ∨ b = .unary
  if isU lb ∧ isU rb then .unsigned else .signed

/-- `NodeBinaryOp.cpp:517-534` `calcBitsizeForResultInBits`: (bit size, word size). -/
def calcBitsizeForResultInBits (b : Base) (n : Nat) : Nat × Nat :=
  match b with
  | .quark => (32, 32)
  | _ => (n, wordSize n)

/-- Outcome of a C++ computation with undefined behaviour told apart. -/
inductive Outcome (α : Type)
  | val (a : α) | ub
  deriving DecidableEq, Repr

/-- C++ `1 << k` on 32-bit `int`: 31 gives `INT_MIN` (two's complement), 32 or more is undefined. -/
def shl1 (k : Nat) : Outcome Int :=
  if k < 31 then .val (2 ^ k) else if k = 31 then .val (-(2 ^ 31)) else .ub

/-- `NodeBinaryOpShiftLeft.cpp:34-42` `resultBitsize` with `resultBitsizeCalcInBits` (`NodeBinaryOp.cpp:499-515`).
The result is the C++ `int`, which may come out negative. -/
def shiftLeftBitsize (lb : Base) (ln : Nat) (rb : Base) (rn : Nat) : Outcome Int :=
  let (lbs, lw) := calcBitsizeForResultInBits lb ln
  let (rbs, rw) := calcBitsizeForResultInBits rb rn
  let w := if lw ≠ rw then (if lw > rw then lw else rw) else lw
  let fin (s : Int) : Outcome Int :=
    let m := (lbs : Int) + s
    .val (if m ≥ w then w else m)
  if rbs ≥ w then fin w
  else match shl1 rbs with
    | .val s => fin s
    | .ub => .ub

/-- `NodeBinaryOpBitwise.cpp:65-71` `resultBitsize` for `& | ^`. -/
def bitwiseBitsize (lb : Base) (ln : Nat) (rb : Base) (rn : Nat) : Nat :=
  let lbs := (calcBitsizeForResultInBits lb ln).1
  let rbs := (calcBitsizeForResultInBits rb rn).1
  if lbs > rbs then lbs else rbs

/-! ## Sizes given to literals -/

/-- `NodeTerminal.cpp:174-180`: size of a signed constant (`UABS64` is the absolute value as an unsigned 64-bit). -/
def intLiteralBits (v : Int) : Nat := max 1 (min 64 (Nat.log2 v.natAbs + 1 + 1))

/-- `NodeTerminal.cpp:181-184`: size of an unsigned constant. -/
def unsignedLiteralBits (v : Nat) : Nat := Nat.log2 v + 1

/-- `NodeTerminal.cpp:185-187`: size of a unary constant. -/
def unaryLiteralBits (v : Nat) : Nat := if v > 64 then 64 else v

end Ulam.Types
