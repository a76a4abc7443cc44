import Verif.Oper.Model
/-!
# Arithmetic, shifts, unary operators and compound assignments (model)

Types, acceptance, the evaluator's computation and the library function the generated program calls. The library functions
are not in the repository: they are an arbitrary family `Calc` here.

Simplifications: as in `Verif.Oper.Model` - scalars of primitive types that are not references, at most 64 bits, complete
types, no quarks. Types are those of the last labelling pass, when a parent sees the casts `castThyselfToResultType` put in
(there are at least two passes, Compiler.cpp:233-264). Operands of the evaluator are immediates, so a value is given by its number of bits and `raw`.
-/
namespace Ulam.Arith
open Ulam.Types Ulam.Oper
open Ulam.Cast (Res makeImmediate makeImmediateLong evalCast genCast runGen)
open Ulam.Packed (Bits getData getDataLong readBits)

/-- `<<` and `>>`. -/
inductive Dir
  | left | right
  deriving DecidableEq, Repr

/-- The functions of the MFM library used here. -/
structure Calc extends Lib where
  /-- `_BinOp<op><kind><word>(l, r, bits)`. -/
  arith : Op → Base → Nat → Nat → Nat → Nat → Nat
  /-- `_ShiftOp<dir>Bits<word>(l, distance, bits)`. -/
  shift : Dir → Nat → Nat → Nat → Nat → Nat
  /-- `_UnaryMinusInt<word>(v, bits)`. -/
  minus : Nat → Nat → Nat → Nat
  /-- `_LogicalBangBool<word>(v, bits)`. -/
  bang : Nat → Nat → Nat → Nat
  /-- `_BitwiseComplementBits<word>(v, bits)`. -/
  compl : Nat → Nat → Nat → Nat

/-- `makeImmediate` or `makeImmediateLong` by word size, as everywhere in the evaluator. -/
def immediate (t : Ty) (v : Nat) : Option Bits :=
  match (if wordSize t.bits ≤ 32 then makeImmediate t v else makeImmediateLong t v) with
  | .ok b => some b
  | _ => none

/-- `getImmediateData(len)` and `getImmediateDataLong(len)`, UlamValue.cpp:765-779, 814-828 and 830-837, chosen by the word size of
the operator's type: `len` bits right-justified, whatever the size of the value's own type. -/
def dataOf (len : Nat) (b : Bits) : Option Nat :=
  if wordSize len = 32 then getData b (96 - len) len
  else if wordSize len = 64 then getDataLong b (96 - len) len
  else none

/-! ## `+ - * / %` -/

/-- `NodeBinaryOpArith::calcNodeType`; NodeBinaryOpArith.cpp:56-104, without the safety check. -/
def arithType (op : Op) (l r : Ty) : Typed :=
  if l.base = .void ∨ r.base = .void then .reject
  else if !(numeric l && numeric r) then .reject
  else if l.arr ≠ -1 ∨ r.arr ≠ -1 then .reject
  else match resultBitsize op l.base l.bits r.base r.bits with
    | none => .abort
    | some n => .ty (scalar (if asUnsigned l && asUnsigned r then .unsigned else .int) n)

/-- Typing an arithmetic operator: the type it is computed in. -/
def checkArith (lib : Lib) (cnt : Nat) (op : Op) (l r : Operand) : Typed :=
  bothSafe lib cnt l r (arithType op l.ty r.ty)

/-- `bitsizeToConvertTypeTo(Unsigned)`; UlamTypePrimitiveInt.cpp:287-318, UlamTypePrimitiveUnsigned.cpp:258-289,
UlamTypePrimitiveUnary.cpp:253-284. -/
def bitsizeToUnsigned (b : Base) (n : Nat) : Nat :=
  let t := match b with
    | .unary => Nat.log2 n + 1
    | _ => n
  if t > wordSize n then wordSize n else t

/-- `bitsizeToConvertTypeTo` of a numeric type. -/
def convertSize (t : Base) (s : Ty) : Nat :=
  if t = .int then bitsizeToInt s.base s.bits else bitsizeToUnsigned s.base s.bits

/-- `castThyselfToResultType`: a quotient is cast to the size of the dividend, a remainder to that of the divisor;
NodeBinaryOpArithDivide.cpp:34-77, NodeBinaryOpArithRemainder.cpp:27-69, NodeBinaryOp.cpp:263-266 for the others. -/
def finalType (op : Op) (t l r : Ty) : Ty :=
  match op with
  | .div => scalar t.base (convertSize t.base l)
  | .rem => scalar t.base (convertSize t.base r)
  | _ => t

/-- The test before a division; NodeBinaryOpArithDivide.cpp:79-147, NodeBinaryOpArithRemainder.cpp:78-146: an error in the
evaluator. -/
def zeroTest (op : Op) (y : Nat) : Bool :=
  match op with
  | .div | .rem => decide (y = 0)
  | _ => false

/-- `doBinaryOperationImmediate` with `makeImmediate(Long)BinaryOp` of the five operators; NodeBinaryOp.cpp:655-695,
NodeBinaryOpArithAdd.cpp:49-99 and its fellows. `none` is an error or a failed assertion. -/
def evalCompute (lib : Calc) (op : Op) (t : Ty) (bl br : Bits) : Option Bits :=
  match dataOf t.bits bl, dataOf t.bits br with
  | some x, some y =>
    if zeroTest op y then none
    else match t.base with
      | .int | .unsigned | .bool | .unary => immediate t (lib.arith op t.base (wordSize t.bits) x y t.bits)
      | _ => none
  | _, _ => none

/-- The cast to `finalType`; a `NodeCast` around the operator, made only when the type differs. -/
def evalFinal (lib : Lib) (cnt : Nat) (f t : Ty) (b : Bits) : Option Bits := evalOperand lib cnt f ⟨t, none⟩ b

/-- Evaluating `l op r`, all casts included: the value as a number of `finalType`'s bits. -/
def evalArith (lib : Calc) (cnt : Nat) (op : Op) (t : Ty) (l r : Operand) (bl br : Bits) : Option Nat :=
  match evalOperand lib.toLib cnt t l bl, evalOperand lib.toLib cnt t r br with
  | some bl, some br =>
    match evalCompute lib op t bl br with
    | none => none
    | some b => (evalFinal lib.toLib cnt (finalType op t l.ty r.ty) t b).map fun b =>
        readBits b (96 - (finalType op t l.ty r.ty).bits) (finalType op t l.ty r.ty).bits
  | _, _ => none

/-- `NodeBinaryOp::genCode`, NodeBinaryOp.cpp:772-830, with `methodNameForCodeGen`, NodeBinaryOpArith.cpp:13-36: `Int` and
`Unsigned` only. -/
def genCompute (lib : Calc) (op : Op) (t : Ty) (x y : Nat) : Option Nat :=
  match t.base with
  | .int | .unsigned => some (lib.arith op t.base (wordSize t.bits) x y t.bits % 2 ^ t.bits)
  | _ => none

/-- The generated `l op r`, all casts included. -/
def genArith (lib : Calc) (cnt : Nat) (op : Op) (t : Ty) (l r : Operand) (x y : Nat) : Option Nat :=
  match genOperand lib.toLib cnt t l x, genOperand lib.toLib cnt t r y with
  | some x, some y =>
    match genCompute lib op t x y with
    | none => none
    | some v => genOperand lib.toLib cnt (finalType op t l.ty r.ty) ⟨t, none⟩ v
  | _, _ => none

/-! ## `<<` and `>>` -/

/-- The result of typing a shift. -/
inductive Shifted
  | ty (t : Ty)
  | reject
  /-- A size that is no size: negative, or from an undefined `1 << n`. -/
  | broken
  | abort
  deriving DecidableEq, Repr

/-- The type the left operand is cast to: `Bits` of its own size; NodeBinaryOpShift.cpp:42-55 and 119-127. -/
def shiftLeftTy (l : Ty) : Ty := if l.base = .bits then l else scalar .bits l.bits

/-- The type the right operand is cast to: `Unsigned`, unless it is some `Unsigned`; NodeBinaryOpShift.cpp:56-64. -/
def shiftRightTy (r : Ty) : Ty := if r.base = .unsigned then r else scalar .unsigned 32

/-- `resultBitsize`; NodeBinaryOpShiftLeft.cpp:34-42, NodeBinaryOpShiftRight.cpp:34-40. -/
def shiftBits (d : Dir) (l r : Ty) : Outcome Int :=
  match d with
  | .left => shiftLeftBitsize l.base l.bits r.base r.bits
  | .right => .val l.bits

/-- `NodeBinaryOpShift::calcNodeType`; NodeBinaryOpShift.cpp:101-195. -/
def checkShift (lib : Lib) (cnt : Nat) (d : Dir) (l r : Operand) : Shifted :=
  if l.ty.base = .void ∨ r.ty.base = .void then .reject
  else if l.ty.arr ≠ -1 ∨ r.ty.arr ≠ -1 then .reject
  else match safeTo lib cnt (scalar .bits l.ty.bits) l, safeTo lib cnt (scalar .unsigned 32) r with
    | some true, some true =>
      match shiftBits d l.ty r.ty with
      | .val n => if n < 0 then .broken else .ty (scalar .bits n.toNat)
      | .ub => .broken
    | some _, some _ => .reject
    | _, _ => .abort

/-- `eval` of a shift: the data of both operands is read with the length of the result; NodeBinaryOp.cpp:655-695,
NodeBinaryOpShiftLeft.cpp:44-98, NodeBinaryOpShiftRight.cpp:42-96. -/
def evalShift (lib : Calc) (cnt : Nat) (d : Dir) (t : Ty) (l r : Operand) (x y : Nat) : Option Nat :=
  match immediate l.ty x, immediate r.ty y with
  | some bl, some br =>
    match evalOperand lib.toLib cnt (shiftLeftTy l.ty) l bl, evalOperand lib.toLib cnt (shiftRightTy r.ty) r br with
    | some bl, some br =>
      match dataOf t.bits bl, dataOf t.bits br with
      | some x, some y => (immediate t (lib.shift d (wordSize t.bits) x y t.bits)).map fun b => readBits b (96 - t.bits) t.bits
      | _, _ => none
    | _, _ => none
  | _, _ => none

/-- `genCode` of a shift with `methodNameForCodeGen`, NodeBinaryOpShift.cpp:197-227. -/
def genShift (lib : Calc) (cnt : Nat) (d : Dir) (t : Ty) (l r : Operand) (x y : Nat) : Option Nat :=
  match genOperand lib.toLib cnt (shiftLeftTy l.ty) l x, genOperand lib.toLib cnt (shiftRightTy r.ty) r y with
  | some x, some y => some (lib.shift d (wordSize t.bits) x y t.bits % 2 ^ t.bits)
  | _, _ => none

/-! ## `- ! ~ +` in front -/

inductive Un
  | minus | bang | twiddle | plus
  deriving DecidableEq, Repr

/-- `calcNodeType`; NodeUnaryOpMinus.cpp:36-56, NodeUnaryOpBang.cpp:36-82, NodeUnaryOpTwiddle.cpp:41-85,
NodeUnaryOpPlus.cpp:27-43, with `checkAndLabelType` NodeUnaryOp.cpp:127-194. Only `-` asks the operand itself, so only there
constants are judged by value. -/
def checkUnary (lib : Lib) (cnt : Nat) (op : Un) (o : Operand) : Typed :=
  if o.ty.arr ≠ -1 then .reject
  else if o.ty.base = .void then .reject
  else match op with
    | .minus =>
      if !numeric o.ty then .reject
      else match safeTo lib cnt (scalar .int o.ty.bits) o with
        | some true => .ty (scalar .int o.ty.bits)
        | some false => .reject
        | none => .abort
    | .bang =>
      if o.ty.base = .bits then .reject
      else if !safeCast (scalar .bool 1) o.ty then .reject
      else .ty (scalar .bool (if o.ty.base = .bool then o.ty.bits else 1))
    | .twiddle =>
      if !safeCast (scalar .bits o.ty.bits) o.ty then .reject else .ty (scalar .bits o.ty.bits)
    | .plus => if !numeric o.ty then .reject else .ty o.ty

/-- The function of a unary operator; `makeImmediate(Long)UnaryOp` and `methodNameForCodeGen` of the four. -/
def unaryFn (lib : Calc) (op : Un) (w x n : Nat) : Nat :=
  match op with
  | .minus => lib.minus w x n
  | .bang => lib.bang w x n
  | .twiddle => lib.compl w x n
  | .plus => x

/-- `doUnaryOperationImmediate`; NodeUnaryOp.cpp:418-449. -/
def evalUnary (lib : Calc) (cnt : Nat) (op : Un) (t : Ty) (o : Operand) (b : Bits) : Option Nat :=
  match evalOperand lib.toLib cnt t o b with
  | none => none
  | some b =>
    match dataOf t.bits b with
    | none => none
    | some x => (immediate t (unaryFn lib op (wordSize t.bits) x t.bits)).map fun b => readBits b (96 - t.bits) t.bits

/-- `NodeUnaryOp::genCode`, NodeUnaryOp.cpp:458-503; nothing for `+`, NodeUnaryOpPlus.cpp:55-59. -/
def genUnary (lib : Calc) (cnt : Nat) (op : Un) (t : Ty) (o : Operand) (x : Nat) : Option Nat :=
  match genOperand lib.toLib cnt t o x with
  | none => none
  | some x => some (unaryFn lib op (wordSize t.bits) x t.bits % 2 ^ t.bits)

/-! ## Compound assignments -/

/-- The operators before `=`; `++` and `--` are `+= 1` and `-= 1` with their own result (Parser.cpp:6527 and 6939). -/
inductive Comp
  | arith (op : Op)
  | bitw (op : Bitw)
  | shift (d : Dir)
  deriving DecidableEq, Repr

/-- The type the right operand is cast to. -/
def assignRightTy (c : Comp) (l r : Ty) : Ty :=
  match c with
  | .shift _ => shiftRightTy r
  | _ => l

/-- Typing `l op= r`: the type of `l`, or an error. Arithmetic: NodeBinaryOpEqualArith.cpp:12-148 with
`makeDefaultStructAssignment`, NodeBinaryOpEqual.cpp:206-229 (`checkSafeToCastTo`, NodeBinaryOpEqual.cpp:39-93, asks the
right operand unless the types are the same); bitwise: NodeBinaryOpEqualBitwise.cpp:108-163; shift:
NodeBinaryOpEqualShift.cpp:93-147. -/
def checkAssign (lib : Lib) (cnt : Nat) (c : Comp) (l : Ty) (r : Operand) : Typed :=
  if l.base = .void ∨ r.ty.base = .void then .reject
  else if l.arr ≠ -1 ∨ r.ty.arr ≠ -1 then .reject
  else match c with
    | .arith _ =>
      match (if r.ty = l then some true
        else if l.base = .bits ∧ r.ty.base = .bits then some true else safeTo lib cnt l r) with
      | some true => if numeric l then .ty l else .reject
      | some false => .reject
      | none => .abort
    | .bitw _ =>
      match safeTo lib cnt l r with
      | some true => if l.base = .bits then .ty l else .reject
      | some false => .reject
      | none => .abort
    | .shift _ =>
      match safeTo lib cnt (scalar .unsigned 32) r with
      | some true => if l.base = .bits then .ty l else .reject
      | some false => .reject
      | none => .abort

/-- The function of a compound assignment: `makeImmediate(Long)BinaryOp` of NodeBinaryOpEqualArithAdd.cpp:35-85,
NodeBinaryOpEqualBitwiseAnd.cpp:34-88, NodeBinaryOpEqualShiftLeft.cpp:34-88 and their fellows, and their `methodNameForCodeGen`
(NodeBinaryOpEqualArith.cpp:150-174, NodeBinaryOpEqualBitwise.cpp:165-195, NodeBinaryOpEqualShift.cpp:149-179). Divisions
are not guarded. -/
def assignFn (lib : Calc) (c : Comp) (b : Base) (w x y n : Nat) : Option Nat :=
  match c, b with
  | .arith op, .int | .arith op, .unsigned | .arith op, .bool | .arith op, .unary => some (lib.arith op b w x y n)
  | .bitw op, .bits => some (lib.bitw op .bits w x y n)
  | .shift d, .bits => some (lib.shift d w x y n)
  | _, _ => none

/-- `doBinaryOperationImmediate`; NodeBinaryOpEqual.cpp:576-624: the new value, stored and left as the result. -/
def evalAssign (lib : Calc) (cnt : Nat) (c : Comp) (l : Ty) (r : Operand) (x y : Nat) : Option Nat :=
  match immediate r.ty y with
  | none => none
  | some br =>
    match evalOperand lib.toLib cnt (assignRightTy c l r.ty) r br with
    | none => none
    | some br =>
      match dataOf l.bits br with
      | none => none
      | some y =>
        match assignFn lib c l.base (wordSize l.bits) x y l.bits with
        | none => none
        | some v => (immediate l v).map fun b => readBits b (96 - l.bits) l.bits

/-- `genCode`; NodeBinaryOpEqualArith.cpp:190-241, NodeBinaryOpEqualBitwise.cpp:225-298, NodeBinaryOpEqualShift.cpp:209-282:
the value written back. -/
def genAssign (lib : Calc) (cnt : Nat) (c : Comp) (l : Ty) (r : Operand) (x y : Nat) : Option Nat :=
  match genOperand lib.toLib cnt (assignRightTy c l r.ty) r y with
  | none => none
  | some y => (assignFn lib c l.base (wordSize l.bits) x y l.bits).map (· % 2 ^ l.bits)

/-- A step of one, before or after use; NodeBinaryOpEqualArithPostIncr.cpp:35-73 and 153-204, NodeBinaryOpEqualArithPreIncr.cpp
(which inherits), and the two for `--`: new value and result. -/
def step (post : Bool) (new : Option Nat) (x : Nat) : Option (Nat × Nat) :=
  new.map fun v => (v, if post then x else v)

/-- The literal one the parser puts beside `++` and `--`. -/
def one : Operand := ⟨scalar .int 32, some 1⟩

/-- `++` (`add`) and `--` (`sub`). -/
def evalStep (lib : Calc) (cnt : Nat) (post : Bool) (op : Op) (l : Ty) (x : Nat) : Option (Nat × Nat) :=
  step post (evalAssign lib cnt (.arith op) l one x 1) x

def genStep (lib : Calc) (cnt : Nat) (post : Bool) (op : Op) (l : Ty) (x : Nat) : Option (Nat × Nat) :=
  step post (genAssign lib cnt (.arith op) l one x 1) x

end Ulam.Arith
