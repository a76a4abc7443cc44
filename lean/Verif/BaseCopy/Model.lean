/-
Reading and writing an object through a reference to one of its base classes,
in the C++ code generated for quarks and transients.

The struct generated for a reference to the class C holds a position in some
storage and the class of the object that is really there (the "effective
self").  When that class is C itself all the bits are adjacent; otherwise the
members of C and the members of each of its shared bases lie where the layout
of the effective self puts them, and the generated methods `read` and `write`
copy piece by piece.

Bits are lists of `Bool`, the first bit first.  The storage classes of the MFM
library (BitVector, BitStorage, UlamRef) are not part of the repository; their
methods `Read`/`ReadLong`/`ReadBV` and `Write`/`WriteLong`/`WriteBV` are taken
to copy the bits asked for and to fail outside of the storage.
-/
namespace Ulam.BaseCopy

/-- A shared base as the generator sees it: its class, the bits of its own data
members (CompilerState getBaseClassBitSize), its position in the class being
generated (SymbolClass getSharedBaseClassRelativePosition).
/repo/src/ulam/UlamTypeClassQuark.cpp:436-468 -/
structure Base where
  id : Nat
  len : Nat
  pos : Nat
deriving DecidableEq, Repr

/-- The class being generated: its own data members (getBitsizeAsBaseClass), its
shared bases, all its bits (getSizeofUlamType).
/repo/src/ulam/UlamTypeClassQuark.cpp:401-440 -/
structure Cls where
  id : Nat
  own : Nat
  bases : List Base
  size : Nat
deriving DecidableEq, Repr

/-- A reference: the position of the data members, the position of these inside
the effective self, the effective self and the positions of its base classes
(the virtual function that the generated code calls by `GetRelPos..`).
/repo/src/ulam/UlamTypeClassQuark.cpp:257-324 -/
structure Ref where
  pos : Nat
  postoeff : Nat
  eff : Nat
  relPos : Nat → Nat

/-- `n` bits from the position `p`; external (BitVector, BitStorage). -/
def rd (st : List Bool) (p n : Nat) : List Bool := (st.drop p).take n

/-- The bits `v` put at the position `p`; external (BitVector, BitStorage). -/
def wr (st : List Bool) (p : Nat) (v : List Bool) : List Bool :=
  st.take p ++ v ++ st.drop (p + v.length)

/-- One piece: `n` bits read from `src` at `from_` and written to `dst` at
`to_`.  The quark's `write` does so by a number (`Read` of the piece, `Write` of
it), the others by a vector of the length of the piece; the methods are those of
the whole class, whose word is not smaller than that of the piece.
/repo/src/ulam/UlamTypeClassQuark.cpp:424-434, 560-575
/repo/src/ulam/UlamTypeClassTransient.cpp:513-523, 677-688 -/
def piece (src dst : List Bool) (from_ to_ n : Nat) : Option (List Bool) :=
  if from_ + n ≤ src.length ∧ to_ + n ≤ dst.length then some (wr dst to_ (rd src from_ n))
  else none

/-- Where the base lies in the storage: `GetRelPos(base) - GetPosToEffectiveSelf()`
in 32 bits, added to the position of the reference.
/repo/src/ulam/UlamTypeClassQuark.cpp:451-458, 593-600 -/
def basePos (r : Ref) (b : Base) : Nat :=
  (r.pos + (r.relPos b.id + 2 ^ 32 - r.postoeff) % 2 ^ 32) % 2 ^ 32

/-- The bases of non-zero size one after another, read.
/repo/src/ulam/UlamTypeClassQuark.cpp:436-472
/repo/src/ulam/UlamTypeClassTransient.cpp:525-562 -/
def readBases (r : Ref) (st : List Bool) : List Base → List Bool → Option (List Bool)
  | [], tmp => some tmp
  | b :: bs, tmp =>
    if b.len = 0 then readBases r st bs tmp
    else (piece st tmp (basePos r b) b.pos b.len).bind (readBases r st bs)

/-- `read()` of a reference to a scalar.
/repo/src/ulam/UlamTypeClassQuark.cpp:405-485
/repo/src/ulam/UlamTypeClassTransient.cpp:461-581 -/
def read (C : Cls) (r : Ref) (st : List Bool) : Option (List Bool) :=
  if C.id = r.eff then
    if r.pos + C.size ≤ st.length then some (rd st r.pos C.size) else none
  else
    (if C.own = 0 then some (List.replicate C.size false)
      else piece st (List.replicate C.size false) r.pos 0 C.own).bind
      (readBases r st C.bases)

/-- The bases of non-zero size one after another, written.
/repo/src/ulam/UlamTypeClassQuark.cpp:577-614
/repo/src/ulam/UlamTypeClassTransient.cpp:690-731 -/
def writeBases (r : Ref) (tmp : List Bool) : List Base → List Bool → Option (List Bool)
  | [], st => some st
  | b :: bs, st =>
    if b.len = 0 then writeBases r tmp bs st
    else (piece tmp st b.pos (basePos r b) b.len).bind (writeBases r tmp bs)

/-- The number that a list of bits stands for, the first bit the highest. -/
def num : List Bool → Nat
  | [] => 0
  | b :: bs => (if b then 2 ^ bs.length else 0) + num bs

/-- The lower `n` bits of a number, the highest first. -/
def bitsOf : Nat → Nat → List Bool
  | 0, _ => []
  | n + 1, v => decide (v / 2 ^ n % 2 = 1) :: bitsOf n v

/-- Which of the generators. -/
inductive Kind | quark | transient
deriving DecidableEq, Repr

/-- The value as a vector of bits, for the piecewise `write`.  Up to 32 bits: by
the constructor from a number.  Quarks of more: `WriteLong`.  Transients of 33 to
64: the 64-bit number is laid over two 32-bit words, which the constructor from
an array takes for the words of the vector, the first word being the first 32
bits; `little` is the order of bytes on the host.  More than 64 bits: the value
is a vector already.
/repo/src/ulam/UlamTypeClassQuark.cpp:541-552
/repo/src/ulam/UlamTypeClassTransient.cpp:650-670 -/
def toBV (k : Kind) (little : Bool) (size : Nat) (v : List Bool) : List Bool :=
  match k with
  | .quark => v
  | .transient =>
    if size ≤ 32 ∨ 64 < size then v
    else
      let lo := bitsOf 32 (num v % 2 ^ 32)
      let hi := bitsOf 32 (num v / 2 ^ 32)
      ((if little then lo ++ hi else hi ++ lo).take size)

/-- `write(targ)` of a reference to a scalar; the result is the storage after it.
/repo/src/ulam/UlamTypeClassQuark.cpp:524-622
/repo/src/ulam/UlamTypeClassTransient.cpp:628-739 -/
def write (k : Kind) (little : Bool) (C : Cls) (r : Ref) (st v : List Bool) :
    Option (List Bool) :=
  if C.size = 0 then some st
  else if C.id = r.eff then
    if r.pos + C.size ≤ st.length then some (wr st r.pos v) else none
  else
    let tmp := toBV k little C.size v
    (if C.own = 0 then some st else piece tmp st 0 r.pos C.own).bind
      (writeBases r tmp C.bases)

end Ulam.BaseCopy
