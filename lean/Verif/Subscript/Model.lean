import Verif.Packed.Model
/-!
# Subscripts of any index type (model)

`NodeSquareBracket`: which index types and constants are accepted, the offset the evaluator computes, and the test and bit
position in the generated program. The evaluator's use of the offset is `Ulam.Packed` (C56).

Simplifications: one array with a known place; custom arrays (`aref` calls), multi-dimensional arrays and arrays over 71 bits
(one stack slot per item) are left out. What the runtime library does with a bit position outside of the storage is not
modelled, nor are its conversions `_Int32ToCs32` and so on, which are parameters.
-/
namespace Ulam.Subscript
open Ulam.Packed

/-- Types of an index expression: primitive kinds with their size, and quarks with or without `toInt`. -/
inductive Src
  | int (n : Nat) | unsigned (n : Nat) | unary (n : Nat) | bits (n : Nat) | bool (n : Nat) | string
  | quark (toInt : Bool)
deriving DecidableEq

/-- Index type after the check. -/
structure Ix where
  signed : Bool
  n : Nat
deriving DecidableEq

/-- The type the index is cast to; NodeSquareBracket.cpp:390-409, `isNumericType` UlamTypePrimitive.cpp:13-16,
UlamTypePrimitiveInt.cpp:41, UlamTypePrimitiveUnsigned.cpp:41, UlamTypePrimitiveUnary.cpp:41, UlamTypeClassQuark.cpp:14-18. -/
def indexType : Src → Option Ix
  | .int n => some ⟨true, n⟩
  | .unsigned n => some ⟨false, n⟩
  | .unary _ => some ⟨false, 32⟩
  | .quark true => some ⟨true, 32⟩
  | _ => none

/-- The bits of a value. -/
def raw (n : Nat) (v : Int) : Nat := (v % 2 ^ n).toNat

/-- C's conversion to `s32`. -/
def wrap32 (v : Int) : Int := (v + 2 ^ 31) % 2 ^ 32 - 2 ^ 31

/-- `getDataAsCs32` and `getDataAsCs64`, by type and bits; UlamTypePrimitiveInt.cpp:261-264, 274-277,
UlamTypePrimitiveUnsigned.cpp:238-241, 248-251. -/
structure Lib where
  cs32 : Ix → Nat → Int
  cs64 : Ix → Nat → Int

/-- The offset of a read; NodeSquareBracket.cpp:617-630. -/
def readOffset (L : Lib) (x : Ix) (v : Int) : Option Int :=
  if x.n ≤ 32 then some (L.cs32 x (raw x.n v))
  else if x.n ≤ 64 then some (wrap32 (L.cs64 x (raw x.n v)))
  else none

/-- Reading `a[v]` in the evaluator; NodeSquareBracket.cpp:584-654. -/
def evalRead (L : Lib) (t : Ty) (p : Ptr) (b : Bits) (x : Ix) (v : Int) : Packed.Sub Nat :=
  match readOffset L x v with
  | none => .abort
  | some k => readSub t p b k

/-- The place of `a[v]` in the evaluator; NodeSquareBracket.cpp:718-766. `getImmediateData` fails an assertion over 32 bits,
UlamValue.cpp:752-763. -/
def evalStore (L : Lib) (t : Ty) (p : Ptr) (x : Ix) (v : Int) : Packed.Sub Ptr :=
  if x.n ≤ 32 then storeSub t p (L.cs32 x (raw x.n v)) else .abort

/-- The number of a constant index; `getArraysizeInBracket` NodeSquareBracket.cpp:955-968. -/
def constOffset (L : Lib) (x : Ix) (v : Int) : Int := L.cs32 x (raw x.n v % 2 ^ 32)

/-- Is a constant index accepted? NodeSquareBracket.cpp:968-975 and 268-306. `UNKNOWNSIZE` is -2. -/
def constOk (L : Lib) (size : Nat) (x : Ix) (v : Int) : Bool :=
  let k := constOffset L x v
  if k < 0 ∧ k ≠ -2 then false
  else if k > size then false
  else true

/-- The generated access: the bit position given to the reference, or a stop; NodeSquareBracket.cpp:1046-1058 (the test is
written only for an index that is not a constant) and Node.cpp:2236-2330 (`idx * BITSu + POSu`, passed as `u32`). -/
def genAccess (const : Bool) (size bits pos : Nat) (v : Int) : Option Nat :=
  if const = false ∧ v ≥ size then none
  else some ((v * bits + pos) % 2 ^ 32).toNat

/-- A byte of a string in the evaluator; NodeSquareBracket.cpp:656-716. -/
def evalByte (len : Nat) (x : Ix) (v : Int) : Packed.Sub Int :=
  if x.n ≤ 32 then (if raw x.n v ≥ len then .refused else .ok (raw x.n v)) else .abort

/-- The generated byte of a string, or a stop; NodeSquareBracket.cpp:1110-1166. An index up to 32 bits is compared with the `u32`
length as `u32`, a wider one as `s64` or `u64`. The result is the distance from the first byte. -/
def genByte (len : Nat) (x : Ix) (v : Int) : Option Int :=
  if x.n ≤ 32 then (if v % 2 ^ 32 ≥ len then none else some v)
  else if v ≥ len then none else some v

end Ulam.Subscript
