import Verif.Types.Model
/-!
# Folding constant expressions (model for C49)

Labelling and folding of expressions built from `Int` and `Unsigned` literals with unary minus and the five arithmetic
operators. Only these node kinds are modelled: named constants, `Unary`, `Bits`, `Bool`, casts written by the programmer
and comparisons are left out. `none` stands for every outcome with an error message (the program is not compiled; a binary
operator whose operands do not fit prints its error and goes on labelling, which only adds messages).

The arithmetic of `CastOps.h` (`_BinOpAddInt32`, `_Int32ToInt32`, ...) belongs to the MFM library and is not in the
repository; it is assumed to saturate at the ends of the result type.
-/
namespace Ulam.Fold
open Ulam.Types

/-- Expressions: `TOK_NUMBER_SIGNED`, `TOK_NUMBER_UNSIGNED` terminals, `NodeUnaryOpMinus`, `NodeBinaryOpArith*`. -/
inductive Expr
  | int (v : Nat)
  | uns (v : Nat)
  | neg (a : Expr)
  | bin (op : Op) (a b : Expr)
  deriving DecidableEq, Repr

/-- What labelling leaves behind. `base` and `bits` are the type `checkAndLabelType` returns to the parent node; `own` is
the bit size of the node put into the tree: `bits` for a `NodeTerminal`, another size for the `NodeCast` that
`castThyselfToResultType` wraps around a quotient or remainder. `value` is what that node evaluates to. -/
structure Node where
  base : Base
  bits : Nat
  own : Nat
  value : Int
  deriving DecidableEq, Repr

/-- Saturation at the ends of a type (`CastOps.h`; `UlamTypePrimitiveInt.cpp:45-189`,
`UlamTypePrimitiveUnsigned.cpp:40-194`, `cast`). -/
def clamp (b : Base) (n : Nat) (v : Int) : Int :=
  match b with
  | .int => max (-(2 : Int) ^ (n - 1)) (min ((2 : Int) ^ (n - 1) - 1) v)
  | _ => max 0 (min ((2 : Int) ^ n - 1) v)

/-- `UlamValue.cpp:104-112` `makeImmediate`: the low `n` bits, the rest zero. -/
def toRaw (n : Nat) (v : Int) : Nat := (v % (2 : Int) ^ n).toNat

/-- `UlamValue.cpp:765-779` `getImmediateData(len)`, taken as a number of a type by `CastOps.h`: the low `n` bits, for
`Int` with bit `n - 1` as sign. -/
def ofRaw (b : Base) (n : Nat) (raw : Nat) : Int :=
  match b with
  | .int => if 2 * (raw % 2 ^ n) < 2 ^ n then (raw % 2 ^ n : Nat) else (raw % 2 ^ n : Nat) - (2 : Int) ^ n
  | _ => (raw % 2 ^ n : Nat)

/-- `safeToCastTo` of the operand: a terminal has to fit by value (`NodeTerminal.cpp:132-160`, `fitsInBits` `331-526`), a
cast by type (`NodeCast.cpp:171-177`). -/
def safeTo (x : Node) (b : Base) (n : Nat) : Bool :=
  if x.own = x.bits then decide (clamp b n x.value = x.value)
  else match b with
    | .int => intFrom n x.base x.own
    | _ => unsignedFrom n x.base x.own

/-- The operand as the operator reads it. When the operator's type is the type the operand returned, no cast is made
(`NodeBinaryOp.cpp:205-217`, `NodeUnaryOp.cpp:172-177`) and the operand's bits are read with the operator's length
(`NodeBinaryOp.cpp:655-695`). Otherwise `makeCastingNode` casts from the node's own type (and does nothing, like `clamp`,
when that is the wanted type). -/
def operand (x : Node) (b : Base) (n : Nat) : Int :=
  if x.base = b ∧ x.bits = n then ofRaw b n (toRaw x.own x.value) else clamp b n x.value

/-- `makeImmediateBinaryOp` of `NodeBinaryOpArith{Add,Subtract,Multiply,Divide,Remainder}.cpp`; division and remainder by
zero give an error and `Nav`. -/
def compute (op : Op) (b : Base) (n : Nat) (x y : Int) : Option Int :=
  match op with
  | .add => some (clamp b n (x + y))
  | .sub => some (clamp b n (x - y))
  | .mul => some (clamp b n (x * y))
  | .div => if y = 0 then none else some (clamp b n (x.tdiv y))
  | .rem => if y = 0 then none else some (clamp b n (x.tmod y))

/-- `bitsizeToConvertTypeTo` of an operand's returned type, to the base of the result
(`UlamTypePrimitiveInt.cpp:287-318`, `UlamTypePrimitiveUnsigned.cpp:258-289`). -/
def convertSize (b : Base) (x : Node) : Nat :=
  match b with
  | .int => bitsizeToInt x.base x.bits
  | _ => x.bits

/-- `castThyselfToResultType`: a quotient takes the left operand's size (`NodeBinaryOpArithDivide.cpp:34-77`), a remainder
the right one's (`NodeBinaryOpArithRemainder.cpp:27-70`), other operators nothing (`NodeBinaryOp.cpp:262-265`). -/
def ownSize (op : Op) (b : Base) (n : Nat) (l r : Node) : Nat :=
  match op with
  | .div => convertSize b l
  | .rem => convertSize b r
  | _ => n

/-- Base of an arithmetic result, `NodeBinaryOpArith.cpp:84-100`. -/
def resultBase (l r : Base) : Base :=
  match resultSign l r with
  | .unsigned => .unsigned
  | .signed => .int

/-- `NodeBinaryOp.cpp:163-231` `checkAndLabelType` with `calcNodeType` (`NodeBinaryOpArith.cpp:57-104`) and
`constantFold` (`NodeBinaryOp.cpp:543-625`) on folded operands. -/
def foldBin (op : Op) (l r : Node) : Option Node :=
  match resultBitsize op l.base l.bits r.base r.bits with
  | none => none
  | some n =>
    let b := resultBase l.base r.base
    if safeTo l b n && safeTo r b n then
      match compute op b n (operand l b n) (operand r b n) with
      | none => none
      | some v =>
        let own := ownSize op b n l r
        some ⟨b, n, own, clamp b own v⟩
    else none

/-- `NodeUnaryOp.cpp:126-194` with `NodeUnaryOpMinus.cpp:36-66`: `Int` of the operand's size. -/
def foldNeg (x : Node) : Option Node :=
  if safeTo x .int x.bits then
    some ⟨.int, x.bits, x.bits, clamp .int x.bits (-(operand x .int x.bits))⟩
  else none

/-- `NodeTerminal.cpp:162-204`: literals are sized by value; larger ones are refused when read
(`NodeTerminal.cpp:541-640`). -/
def fold : Expr → Option Node
  | .int v => if v < 2 ^ 63 then some ⟨.int, intLiteralBits v, intLiteralBits v, v⟩ else none
  | .uns v => if v < 2 ^ 64 then some ⟨.unsigned, unsignedLiteralBits v, unsignedLiteralBits v, v⟩ else none
  | .neg a =>
    match fold a with
    | none => none
    | some x => foldNeg x
  | .bin op a b =>
    match fold a, fold b with
    | some l, some r => foldBin op l r
    | _, _ => none

end Ulam.Fold
