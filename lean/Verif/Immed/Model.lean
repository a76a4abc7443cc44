import Verif.BaseCopy.Model
/-
The C++ structs that hold values of primitive types, Strings and quarks, scalars
and arrays of these ("immediates"): the C++ type of a whole value and of an item,
the methods `read`, `write`, `readArrayItem`, `writeArrayItem`, constructors.

The storage is a vector of as many bits as the type has.  The vector's methods
are those of the MFM library, which is not in the repository; they are taken to
work on big-endian numbers in the bits asked for and to fail outside of the
storage or beyond their word.
-/
namespace Ulam.Immed
open Ulam.BaseCopy (rd wr num bitsOf)

/-- Which of the generators: UlamTypePrimitive, UlamTypePrimitiveString (18 bits
each, STRINGIDXBITS), UlamTypeClassQuark.
/repo/include/UlamTypePrimitive.h:45-48
/repo/include/UlamTypePrimitiveString.h:45-48
/repo/include/UlamTypeClassQuark.h:45-48 -/
inductive Kind | prim | str | quark
deriving DecidableEq, Repr

/-- A complete type; `arr` is the size of an array, `none` for scalars. -/
structure Ty where
  kind : Kind
  bits : Nat
  arr : Option Nat
deriving DecidableEq, Repr

/-- getTotalBitSize. /repo/src/ulam/UlamType.cpp:464-472 -/
def total (t : Ty) : Nat := t.bits * t.arr.getD 1

/-- calcWordSize. /repo/include/Constants.h:231 -/
def wordSize (l : Nat) : Nat := (l / 32) * 32 + (if l % 32 > 0 then 32 else 0)

/-- The C++ type of a value: `u32`, `u64`, `BV96`, `BitVector<n>`. -/
inductive CType | u32 | u64 | bv96 | bv (n : Nat)
deriving DecidableEq, Repr

/-- The bits that a C++ type has. -/
def CType.width : CType → Nat
  | .u32 => 32
  | .u64 => 64
  | .bv96 => 96
  | .bv n => n

/-- getTmpStorageTypeAsString(sizebyints).  /repo/src/ulam/UlamType.cpp:324-356 -/
def typeFor (t : Ty) (sizebyints : Nat) : CType :=
  let big : CType :=
    if sizebyints = wordSize t.bits then .bv t.bits else .bv (total t)
  if sizebyints = 0 ∨ sizebyints = 32 then .u32
  else if sizebyints = 64 then .u64
  else if sizebyints = 96 then (if t.kind = .quark then .bv96 else big)
  else big

/-- getTmpStorageTypeAsString(): the type of a whole value.
/repo/src/ulam/UlamType.cpp:319-322 -/
def tmpType (t : Ty) : CType := typeFor t (wordSize (total t))

/-- getArrayItemTmpStorageTypeAsString(): the type of an item.
/repo/src/ulam/UlamType.cpp:314-317 -/
def itemType (t : Ty) : CType := typeFor t (wordSize t.bits)

/-- The vector's methods: `Read`/`Write`, `ReadLong`/`WriteLong`,
`ReadBig`/`WriteBig`, `ReadBV`/`WriteBV`. -/
inductive Meth | word | long | big | bv
deriving DecidableEq, Repr

/-- The choice by the number of bits in words; the four functions are alike.
/repo/src/ulam/UlamType.cpp:770-868 -/
def methFor (k : Kind) (sizeByIntBits : Nat) : Meth :=
  if sizeByIntBits = 0 ∨ sizeByIntBits = 32 then .word
  else if sizeByIntBits = 64 then .long
  else if sizeByIntBits = 96 then (if k = .quark then .big else .bv)
  else .bv

/-- readMethodForCodeGen, writeMethodForCodeGen.  /repo/src/ulam/UlamType.cpp:770-818 -/
def wholeMeth (t : Ty) : Meth := methFor t.kind (wordSize (total t))

/-- readArrayItemMethodForCodeGen, writeArrayItemMethodForCodeGen.
/repo/src/ulam/UlamType.cpp:820-868 -/
def itemMeth (t : Ty) : Meth := methFor t.kind (wordSize t.bits)

/-- The most bits that a method with a length can take; external. -/
def Meth.max : Meth → Option Nat
  | .word => some 32
  | .long => some 64
  | .big => some 96
  | .bv => none

/-- `m(pos, len)`: the number in `len` bits; external.  `ReadBV` has no such
form. -/
def readLen (m : Meth) (st : List Bool) (pos len : Nat) : Option Nat :=
  match m.max with
  | some w => if len ≤ w ∧ pos + len ≤ st.length then some (num (rd st pos len)) else none
  | none => none

/-- `m(pos, len, v)`: the low `len` bits of the number put there; external. -/
def writeLen (m : Meth) (st : List Bool) (pos len v : Nat) : Option (List Bool) :=
  match m.max with
  | some w =>
    if len ≤ w ∧ pos + len ≤ st.length then some (wr st pos (bitsOf len v)) else none
  | none => none

/-- `ReadBV(pos, vec)`: as many bits as the vector has; external. -/
def readVec (st : List Bool) (pos w : Nat) : Option Nat :=
  if pos + w ≤ st.length then some (num (rd st pos w)) else none

/-- `WriteBV(pos, vec)`, and `WriteBig(pos, vec)` for a vector of 96 bits; external. -/
def writeVec (st : List Bool) (pos w v : Nat) : Option (List Bool) :=
  if pos + w ≤ st.length then some (wr st pos (bitsOf w v)) else none

/-- `read()`, up to 64 bits, or `read(T&)`.
/repo/src/ulam/UlamTypePrimitive.cpp:591-624
/repo/src/ulam/UlamTypePrimitiveString.cpp:514-542
/repo/src/ulam/UlamTypeClassQuark.cpp:848-879 -/
def read (t : Ty) (st : List Bool) : Option Nat :=
  if total t ≤ 64 then
    (readLen (wholeMeth t) st 0 (total t)).map (· % 2 ^ (tmpType t).width)
  else readVec st 0 (tmpType t).width

/-- `write(v)`; strings write a vector of exactly their size (`BV`), the others
one of the C++ type of the value.
/repo/src/ulam/UlamTypePrimitive.cpp:642-674
/repo/src/ulam/UlamTypePrimitiveString.cpp:572-597
/repo/src/ulam/UlamTypeClassQuark.cpp:900-933 -/
def write (t : Ty) (st : List Bool) (v : Nat) : Option (List Bool) :=
  if total t ≤ 64 then writeLen (wholeMeth t) st 0 (total t) v
  else writeVec st 0 (if t.kind = .str then total t else (tmpType t).width) v

/-- `readArrayItem(index, itemlen)`.
/repo/src/ulam/UlamTypePrimitive.cpp:626-637
/repo/src/ulam/UlamTypePrimitiveString.cpp:544-555
/repo/src/ulam/UlamTypeClassQuark.cpp:881-896 -/
def readItem (t : Ty) (st : List Bool) (i : Nat) : Option Nat :=
  (readLen (itemMeth t) st (i * t.bits) t.bits).map (· % 2 ^ (itemType t).width)

/-- `writeArrayItem(v, index, itemlen)`.
/repo/src/ulam/UlamTypePrimitive.cpp:676-686
/repo/src/ulam/UlamTypePrimitiveString.cpp:599-611
/repo/src/ulam/UlamTypeClassQuark.cpp:935-951 -/
def writeItem (t : Ty) (st : List Bool) (v i : Nat) : Option (List Bool) :=
  writeLen (itemMeth t) st (i * t.bits) t.bits v

/-- The constructor of a String array from a `u64`: `for(i=0;i<n;i++) { d0 =
(u32)(dl >> 18*i); d0 &= mask; writeArrayItem(d0, n-i-1, 18); }`.
/repo/src/ulam/UlamTypePrimitiveString.cpp:438-456 -/
def strFromLong (n dl : Nat) (st : List Bool) : Option (List Bool) :=
  (List.range n).foldlM
    (fun s i => writeItem ⟨.str, 18, some n⟩ s ((dl >>> (18 * i)) % 2 ^ 32 % 2 ^ 18) (n - i - 1)) st

/-- The default constructor of a quark array: the default of the quark written
into each item.  /repo/src/ulam/UlamTypeClassQuark.cpp:770-781 -/
def quarkDefault (bits n dq : Nat) (st : List Bool) : Option (List Bool) :=
  (List.range n).foldlM (fun s j => writeItem ⟨.quark, bits, some n⟩ s dq j) st

/-- How a method `read` is declared, or called: with a result, or with a variable
to fill. -/
inductive Shape | result | fill
deriving DecidableEq, Repr

/-- The declarations in the immediate struct.
/repo/src/ulam/UlamTypePrimitive.cpp:591-624
/repo/src/ulam/UlamTypePrimitiveString.cpp:514-542
/repo/src/ulam/UlamTypeClassQuark.cpp:848-879 -/
def immShapes (t : Ty) : List Shape := if total t ≤ 64 then [.result] else [.fill]

/-- The declarations in the struct for references.
/repo/src/ulam/UlamTypePrimitive.cpp:295-320
/repo/src/ulam/UlamTypePrimitiveString.cpp:314-317
/repo/src/ulam/UlamTypeClassQuark.cpp:405-505 -/
def refShapes (t : Ty) : List Shape :=
  match t.kind with
  | .prim | .str => [.result]
  | .quark =>
    match t.arr with
    | none => [.result]
    -- more than 64 bits, or packed
    | some _ => [.fill]

/-- The call in the copy constructor.
/repo/src/ulam/UlamTypePrimitive.cpp:530-550
/repo/src/ulam/UlamTypePrimitiveString.cpp:458-473
/repo/src/ulam/UlamTypeClassQuark.cpp:796-813 -/
def copyCall (t : Ty) : Shape := if total t > 64 then .fill else .result

/-- The call in the constructor from a reference.
/repo/src/ulam/UlamTypePrimitive.cpp:552-570
/repo/src/ulam/UlamTypePrimitiveString.cpp:475-489
/repo/src/ulam/UlamTypeClassQuark.cpp:821-827 -/
def refCall (t : Ty) : Shape :=
  match t.kind with
  | .prim | .str => if total t > 64 then .fill else .result
  | .quark => .result

/-- `read(T& rtnbv)` in the struct for references to quark arrays:
`GetStorage().m(GetPos(), rtnbv);`, that is, for `Read` and `ReadLong` the
variable is the length and the result is dropped; the value is what the variable
holds afterwards.  /repo/src/ulam/UlamTypeClassQuark.cpp:488-503 -/
def refFill (t : Ty) (st : List Bool) (pos var : Nat) : Option Nat :=
  match wholeMeth t with
  | .word | .long => (readLen (wholeMeth t) st pos var).map fun _ => var
  | .big | .bv => readVec st pos (tmpType t).width

end Ulam.Immed
