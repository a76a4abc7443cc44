import Verif.Types.Model
import Verif.Packed.Model
/-!
# Casts of scalar primitive values: the evaluator and the generated code (model)

The compiler casts a value twice: `NodeCast::eval` casts it at compile time, and `NodeCast::genCodeReadIntoATmpVar` writes
a call of a conversion function into the generated program. The conversion functions themselves (`_Int32ToUnsigned32` and
so on) belong to the MFM library, which is not in the repository: they are an arbitrary family `Ext` here.

Simplifications: scalars that are not references and have at most 64 bits; no classes (they are cast by other functions);
the register of the generated program is described by its low bits, as many as the type has.
-/
namespace Ulam.Cast
open Ulam.Types
open Ulam.Packed (Bits getData getDataLong putData putDataLong)

/-- The name of a conversion function, `_<src><word>To<dst><word>`; `UlamTypePrimitive.cpp:142-168`. -/
structure Fn where
  src : Base
  dst : Base
  word : Nat
  deriving DecidableEq, Repr

/-- The conversion functions (external): value, source bits, destination bits, number of user strings (used from `String`
to `Bool` only). -/
abbrev Ext := Fn → Nat → Nat → Nat → Nat → Nat

/-- What `cast` leaves: the new 96 bits, `false`, or a failed assertion. -/
inductive Res
  | ok (b : Bits)
  | fail
  | abort

/-- `makeImmediate`; UlamValue.cpp:91-113: right-justified in cleared bits. -/
def makeImmediate (t : Ty) (v : Nat) : Res :=
  match putData (fun _ => false) (96 - t.bits) t.bits v with
  | some b => .ok b
  | none => .abort

/-- `makeImmediateLong`; UlamValue.cpp:125-145. -/
def makeImmediateLong (t : Ty) (v : Nat) : Res :=
  match putDataLong (fun _ => false) (96 - t.bits) t.bits v with
  | some b => .ok b
  | none => .abort

/-- What a switch on the source kind does with the data: leaves it, calls a conversion function, or gives up. -/
inductive How
  | keep | call | bad
  deriving DecidableEq, Repr

/-- The switches of `castTo32`; UlamTypePrimitiveInt.cpp:91-117, UlamTypePrimitiveUnsigned.cpp:99-124,
UlamTypePrimitiveUnary.cpp:91-113, UlamTypePrimitiveBool.cpp:87-110, UlamTypePrimitiveBits.cpp:90-106,
UlamTypePrimitiveString.cpp:141-157 (destination first). -/
def how32 : Base → Base → How
  | .int, .int | .int, .unsigned | .int, .bits | .int, .unary | .int, .bool => .call
  | .unsigned, .int | .unsigned, .unsigned | .unsigned, .bool | .unsigned, .unary => .call
  | .unsigned, .bits => .keep
  | .unary, .int | .unary, .unsigned | .unary, .bool | .unary, .unary => .call
  | .unary, .bits => .keep
  | .bool, .int | .bool, .unsigned | .bool, .unary | .bool, .bool | .bool, .bits | .bool, .string => .call
  | .bits, .void | .bits, .int | .bits, .unsigned | .bits, .bool | .bits, .unary | .bits, .bits => .keep
  | .string, .string | .string, .bits => .keep
  | _, _ => .bad

/-- The switches of `castTo64`; the same files: as `castTo32`, but `Bool` has no case for `String`
(UlamTypePrimitiveBool.cpp:138-159). -/
def how64 : Base → Base → How
  | .bool, .string => .bad
  | dst, frm => how32 dst frm

/-- `castTo32` of the destination type. -/
def castTo32 (ext : Ext) (cnt : Nat) (dst frm : Ty) (b : Bits) : Res :=
  match getData b (96 - frm.bits) frm.bits with
  | none => .abort
  | some data =>
    match how32 dst.base frm.base with
    | .bad => .fail
    | .keep => makeImmediate dst data
    | .call => makeImmediate dst (ext ⟨frm.base, dst.base, 32⟩ data frm.bits dst.bits cnt)

/-- `castTo64` of the destination type: data of a narrow source zero-extended, the 64-bit conversion, the result stored by
the destination's word size (`Bits` always by `makeImmediateLong`; UlamTypePrimitiveBits.cpp:128-143). `String` has none
(UlamTypePrimitiveString.cpp:165-169 `abortShouldntGetHere`). -/
def castTo64 (ext : Ext) (cnt : Nat) (dst frm : Ty) (b : Bits) : Res :=
  if dst.base = .string then .abort
  else
    match (if wordSize frm.bits ≤ 32 then getData b (96 - frm.bits) frm.bits
        else if wordSize frm.bits ≤ 64 then getDataLong b (96 - frm.bits) frm.bits else none) with
    | none => .abort
    | some data =>
      let store := fun v =>
        if dst.base = .bits then makeImmediateLong dst v
        else if wordSize dst.bits ≤ 32 then makeImmediate dst v
        else if wordSize dst.bits ≤ 64 then makeImmediateLong dst v else .abort
      match how64 dst.base frm.base with
      | .bad => .fail
      | .keep => store data
      | .call => store (ext ⟨frm.base, dst.base, 64⟩ data frm.bits dst.bits cnt)

/-- `cast` of the destination type; UlamTypePrimitiveInt.cpp:46-83 and the same function of the other five kinds,
UlamTypePrimitiveVoid.cpp:94-124. Destinations over 64 bits are outside this model. -/
def cast (ext : Ext) (cnt : Nat) (dst frm : Ty) (b : Bits) : Res :=
  if !baseSafeCast dst frm then .fail
  else if dst.base = .void then makeImmediate dst 0
  else if wordSize dst.bits ≤ 32 then
    if wordSize frm.bits ≤ 32 then castTo32 ext cnt dst frm b
    else if wordSize frm.bits ≤ 64 then castTo64 ext cnt dst frm b
    else .abort
  else if wordSize dst.bits ≤ 64 then castTo64 ext cnt dst frm b
  else .fail

/-- `NodeCast::eval` for values; NodeCast.cpp:577-654: nothing to load for `Void`, otherwise `cast`. -/
def evalCast (ext : Ext) (cnt : Nat) (dst frm : Ty) (b : Bits) : Res :=
  if frm.base = .void then .fail else cast ext cnt dst frm b

/-- `UlamTypePrimitive::explicitlyCastable`; UlamTypePrimitive.cpp:37-57: a `String` to or from nothing but `String`
(and anything to `Void`). -/
def baseExplicit (dst frm : Ty) : Bool :=
  baseSafeCast dst frm &&
    (decide (dst.base = .void) || !((decide (frm.base = .string)).xor (decide (dst.base = .string))))

/-- `explicitlyCastable` of the destination type; UlamTypePrimitiveBool.cpp:209-218, UlamTypePrimitiveBits.cpp:187-208,
UlamTypePrimitiveString.cpp:202-215; the other kinds use the common one. -/
def explicitlyCastable (dst frm : Ty) : Bool :=
  match dst.base with
  | .bool => (decide (frm.base = .bits) && baseExplicit dst frm) || safeCast dst frm || decide (frm.base = .string)
  | .bits => decide (frm.base = .string) || baseExplicit dst frm
  | .string => decide (frm.base = .bits) || baseExplicit dst frm
  | _ => baseExplicit dst frm

/-- `needsACast`; NodeCast.cpp:2653-2703, for values of primitive types. -/
def needsACast (explicit const : Bool) (dst frm : Ty) : Bool :=
  if dst = frm then false
  else explicit || decide (dst.base ≠ frm.base) || decide (dst.bits ≠ frm.bits) ||
    (decide (frm.base = .bool) && const && decide (dst.bits > 1))

/-- The code a cast turns into: nothing, or a call with the two lengths. -/
inductive Gen
  | same
  | call (f : Fn) (n t : Nat)
  | abort
  deriving DecidableEq, Repr

/-- `castMethodForCodeGen`; UlamTypePrimitive.cpp:142-168: the larger word size for both. -/
def castMethod (dst frm : Ty) : Fn :=
  let tobe := wordSize dst.bits
  let size := wordSize frm.bits
  if tobe < size then ⟨frm.base, dst.base, size⟩ else ⟨frm.base, dst.base, tobe⟩

/-- `genCode` and `genCodeReadIntoATmpVar`; NodeCast.cpp:1001-1045 and 1047-1193; UlamTypePrimitiveString.cpp:89-99 allows
only `Bits` as the source of a `String`. -/
def genCast (explicit const : Bool) (dst frm : Ty) : Gen :=
  if !needsACast explicit const dst frm then .same
  else if dst.base = .void then .same
  else if dst.base = .string ∧ frm.base ≠ .bits then .abort
  else .call (castMethod dst frm) frm.bits dst.bits

/-- Running the generated code on the low bits of the operand; the result as far as the destination type stores it. -/
def runGen (ext : Ext) (cnt : Nat) (t : Ty) (raw : Nat) : Gen → Option Nat
  | .same => some raw
  | .call f n t' => some (ext f raw n t' cnt % 2 ^ t.bits)
  | .abort => none

end Ulam.Cast
