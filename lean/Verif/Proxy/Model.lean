import Verif.Arith.Model
import Verif.Strings.Model
/-!
# Constants of types and sizes of types (model)

`T.maxof`, `T.minof`, `T.sizeof`, `T.lengthof`, `T.classidof`; the value such a constant has in the evaluator and in the
generated program; and the sizes written in a type, `T(bits)` and `T[items]`.

Simplifications: complete types that are not references; of classes only what these functions ask of them; the positions
given by `.posof` and the class-name flags are left out. The decimal text of a constant is taken to be read by C++ as the
number it shows (that the text shows the number is C42 and C52).
-/
namespace Ulam.Proxy
open Ulam.Types Ulam.Oper Ulam.Arith
open Ulam.Packed (Bits readBits)
open Ulam.Strings (UPool uGetData uStringLength uValidIndex)

/-- The functions of the MFM library used here: `_<kind><word>ToCs<word>(data, bits)`. -/
structure Lib where
  cs : Nat → Base → Nat → Nat → Int

/-! ## Greatest and least -/

/-- `_GetNOnes31`, `_GetNOnes32`, `_GetNOnes63`, `_GetNOnes64` of the MFM library. -/
def nOnes (k : Nat) : Nat := 2 ^ k - 1

/-- `_SignExtend32`, `_SignExtend64` of the MFM library. -/
def signExtend (v l : Nat) : Int :=
  if v % 2 ^ l ≥ 2 ^ (l - 1) then ((v % 2 ^ l : Nat) : Int) - 2 ^ l else (v % 2 ^ l : Nat)

/-- `calcBitsizeSignedMax`, `calcBitsizeSignedMaxLong`; Constants.h:237 and 243. -/
def signedMax (word l : Nat) : Nat := if l = word then 2 ^ (word - 1) - 1 else nOnes (l - 1)

/-- `calcBitsizeSignedMin`, `calcBitsizeSignedMinLong`; Constants.h:238 and 244. -/
def signedMin (word l : Nat) : Int := if l = word then -(2 ^ (word - 1)) else signExtend (nOnes (l - 1) + 1) l

/-- `calcBitsizeUnsignedMax`, `calcBitsizeUnsignedMaxLong`; Constants.h:240 and 246. -/
def unsignedMaxOf (word l : Nat) : Nat := if l = word then 2 ^ word - 1 else nOnes l

/-- The constructors' branch: 32 bits, 64 bits; larger sizes abort. -/
def ctorWord (n : Nat) : Nat := if n ≤ 32 then 32 else 64

/-- `getMax`, UlamTypePrimitive.cpp:379-382, as the constructors set it: UlamTypePrimitiveInt.cpp:11-34,
UlamTypePrimitiveUnsigned.cpp:11-34, UlamTypePrimitiveUnary.cpp:11-34, UlamTypePrimitiveBool.cpp:10-33,
UlamTypePrimitiveBits.cpp:11-28, UlamTypePrimitiveString.cpp:11-34. -/
def typeMax (b : Base) (n : Nat) : Nat :=
  match b with
  | .int => if n = 0 then 0 else signedMax (ctorWord n) n
  | .unsigned | .string => if n = 0 then 0 else unsignedMaxOf (ctorWord n) n
  | .unary | .bool => if n = 0 then 0 else nOnes n
  | _ => 0

/-- `getMin`, UlamTypePrimitive.cpp:384-387, set by the same constructors. -/
def typeMin (b : Base) (n : Nat) : Int :=
  match b with
  | .int => if n = 0 then 0 else signedMin (ctorWord n) n
  | _ => 0

/-- `isScalar`; UlamType.cpp:444-447. -/
def isScalar (t : Ty) : Bool := decide (t.arr = -1)

/-- `isMinMaxAllowed`; UlamTypePrimitive.cpp:374-377 for all primitives but UlamTypePrimitiveBits.cpp:34-37 and
UlamTypePrimitiveVoid.cpp:42-45; UlamTypeAtom.cpp:61-64; UlamType.cpp:727-730 for classes. -/
def isMinMaxAllowed (t : Ty) : Bool :=
  match t.base with
  | .int | .unsigned | .unary | .bool | .string => isScalar t
  | _ => false

/-! ## `T.word` -/

/-- The words that ask something of a type. -/
inductive Of
  | sizeof | lengthof | maxof | minof | classidof
  deriving DecidableEq, Repr

/-- What is asked: the type, for classes whether it is an element and its registration number, whether it is a custom
array class (`some true`: with `alengthof`), and of the expression on the left whether it is itself a `.classidof` or a
constant of type `String` (its index). -/
structure Subject where
  ty : Ty
  element : Bool := false
  reg : Nat := 0
  custom : Option Bool := none
  classid : Bool := false
  string : Option Nat := none
  deriving Repr

/-- A constant, a call of the class's own function, an error message, or an overflow the C++ standard leaves undefined. -/
inductive Answer
  | const (u : Nat)
  | call
  | reject
  | undef
  deriving DecidableEq, Repr

/-- Items of a type, one for a scalar. -/
def items (t : Ty) : Nat := if t.arr > -1 then t.arr.toNat else 1

/-- An `s32` product. -/
def times (a b : Nat) : Answer := if a * b < 2 ^ 31 then .const (a * b) else .undef

/-- `getTotalBitSize`; UlamType.cpp:464-472. -/
def getTotalBitSize (t : Ty) : Answer := times t.bits (items t)

/-- `getSizeofUlamType`; UlamType.cpp:474-477, elements UlamTypeClassElement.cpp:89-97. -/
def getSizeof (s : Subject) : Answer := if s.element then times 96 (items s.ty) else getTotalBitSize s.ty

/-- Conversion to `u64`. -/
def toU64 (v : Int) : Nat := (v % 2 ^ 64).toNat

/-- `MAX_REGISTRY_NUMBER`; Constants.h:104. -/
def maxRegistry : Nat := 1000

/-- `CLASSIDBITS`; Constants.h:93-95. -/
def classIdBits : Nat := Nat.log2 maxRegistry + 1

/-- `NodeTerminalProxy::setConstantValue`; NodeTerminalProxy.cpp:543-659 (up to `.classidof`). -/
def setConstantValue (w : Of) (s : Subject) : Answer :=
  match w with
  | .sizeof => if s.classid then .const classIdBits else getSizeof s
  | .lengthof =>
    if !isScalar s.ty then .const s.ty.arr.toNat
    else if s.ty.base = .string then getSizeof s
    else match s.custom with
      | some true => .call
      | some false => .reject
      | none => .reject
  | .maxof =>
    if isMinMaxAllowed s.ty then .const (if s.classid then maxRegistry else typeMax s.ty.base s.ty.bits) else .reject
  | .minof => if isMinMaxAllowed s.ty then .const (toU64 (typeMin s.ty.base s.ty.bits)) else .reject
  | .classidof => if s.ty.base = .cls ∨ s.ty.base = .quark then .const s.reg else .reject

/-- `NodeTerminalProxy::setConstantTypeForNode`; NodeTerminalProxy.cpp:729-760. -/
def constantType (w : Of) (s : Subject) : Ty :=
  match w with
  | .maxof | .minof => s.ty
  | _ => scalar .unsigned 32

/-- `NodeTerminal::makeTerminalValue` and `makeTerminalValueLong`, NodeTerminal.cpp:230-319, and the bits of the value. -/
def evalTerminal (t : Ty) (u : Nat) : Option Nat :=
  if wordSize t.bits ≤ 32 then
    match t.base with
    | .int | .bool | .unsigned | .unary | .bits | .string =>
      (immediate t (u % 2 ^ 32)).map fun b => readBits b (96 - t.bits) t.bits
    | _ => none
  else
    match t.base with
    | .int | .bool | .unsigned | .unary | .bits => (immediate t u).map fun b => readBits b (96 - t.bits) t.bits
    | _ => none

/-- `STRINGIDXMASK`; Constants.h:188-190. -/
def stringIdx (u : Nat) : Nat := u % 2 ^ 18

/-- `NodeTerminal::genCodeReadIntoATmpVar` and `getNameId`, NodeTerminal.cpp:611-655 and 65-110: what the register of the
generated program holds. `none`: an assertion fails (CompilerState.cpp:5464-5473, StringPoolUser.cpp:55-61). -/
def genTerminal (lib : Lib) (pool : UPool) (t : Ty) (u : Nat) : Option Nat :=
  let w := if wordSize t.bits ≤ 32 then 32 else 64
  match t.base with
  | .int => some (lib.cs w .int (u % 2 ^ w) t.bits % 2 ^ w).toNat
  | .bool | .unsigned | .unary | .bits => some (u % 2 ^ w)
  | .string => if stringIdx u > 0 then (uGetData pool (stringIdx u)).map fun _ => stringIdx u else none
  | _ => none

/-- `NodeTerminalProxy::eval`; NodeTerminalProxy.cpp:428-487. The length of a constant string is looked up here
(CompilerState.cpp:5486-5507); the result is what `constantFoldLengthofConstantString`, NodeTerminalProxy.cpp:334-391,
makes the constant. -/
def evalProxy (pool : UPool) (w : Of) (s : Subject) (u : Nat) : Option Nat :=
  match w, s.string with
  | .lengthof, some i =>
    if isScalar s.ty ∧ s.ty.base = .string then
      if uValidIndex pool (stringIdx i) then
        (uStringLength pool (stringIdx i)).bind fun n => evalTerminal (constantType w s) n
      else none
    else evalTerminal (constantType w s) u
  | _, _ => evalTerminal (constantType w s) u

/-! ## `T(bits)` and `T[items]` -/

/-- The value of a size expression, put into 32 bits; NodeTypeBitsize.cpp:204-212, NodeSquareBracket.cpp:958-966. -/
def sizeData (sz : Ty) (raw : Nat) : Nat := if wordSize sz.bits ≤ 32 then raw else raw % 2 ^ 32

/-- `getTypeBitSizeInParen`, NodeTypeBitsize.cpp:147-275, with the check that follows it, NodeTypeDescriptor.cpp:736-747. -/
def bitsInParen (lib : Lib) (b : Base) (sz : Ty) (raw : Nat) : Option Int :=
  let n := lib.cs 32 sz.base (sizeData sz raw) sz.bits
  if b = .bits ∧ n > 8192 then none
  else if b ≠ .bits ∧ n > 64 then none
  else
    let n := if b = .bool ∧ n % 2 = 0 then n - 1 else n
    if n < 0 then none else some n

/-- `setSizesOfNonClassAndArrays`, CompilerState.cpp:2402-2496, of primitives but `Void`; `total` is a `u32`. -/
def setSizes (b : Base) (bits arr : Int) : Option Ty :=
  let total := ((if arr < 0 then 1 else arr.toNat) * (if bits < 0 then 0 else bits.toNat)) % 2 ^ 32
  if bits ≤ 0 ∧ arr < 0 then none
  else if bits > 0 ∧ total > 8192 then none
  else some { base := b, bits := bits.toNat, arr := arr }

/-- `T(bits)`; `resolveTypeBitsize`, NodeTypeDescriptor.cpp:719-771. -/
def declareScalar (lib : Lib) (b : Base) (sz : Ty) (raw : Nat) : Option Ty :=
  match bitsInParen lib b sz raw with
  | none => none
  | some n => setSizes b n (-1)

/-- The type declared, an error, or a size taken to be not yet known. -/
inductive Declared
  | ty (t : Ty)
  | reject
  | unknown
  deriving DecidableEq, Repr

/-- `T[items]`; `getArraysizeInBracket`, NodeSquareBracket.cpp:886-999, and `resolveTypeArraysize`,
NodeTypeDescriptorArray.cpp:222-264. -/
def declareArray (lib : Lib) (elt : Ty) (sz : Ty) (raw : Nat) : Declared :=
  if !numeric sz then .reject
  else
    let n := lib.cs 32 sz.base (sizeData sz raw) sz.bits
    if n = -2 then .unknown
    else if n < 0 then .reject
    else match setSizes elt.base elt.bits n with
      | none => .reject
      | some t => .ty t

end Ulam.Proxy
