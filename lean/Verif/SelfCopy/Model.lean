import Verif.BaseCopy.Model
/-
`self` as a value and the assignment to `self` in the generated C++ code.

`self` in a function of the class C is the argument `ur`, a plain `UlamRef`; it is
not the struct generated for a reference to C (`Verif.BaseCopy`).  A function of C
may be called for an object of a class derived from C; `ur` then points to the
members of C in that object, and its length is that of the own members of C.

Classes, references, bits, and the copying of runs of bits are those of
`Verif.BaseCopy`; the methods of `UlamRef` and `BitVector` are external.
-/
namespace Ulam.SelfCopy
open Ulam.BaseCopy

/-- UC_QUARK, UC_TRANSIENT, UC_ELEMENT. /repo/include/Constants.h:113 -/
inductive Sort' | quark | transient | element
deriving DecidableEq, Repr

/-- The length of `ur` in a function of C: all the bits of the object if C is its
class, else those of the own members: a function of a base class gets a new
`UlamRef` with that length.
/repo/src/ulam/Node.cpp:3971-4009, 5190-5198 -/
def urLen (C : Cls) (r : Ref) : Nat := if C.id = r.eff then C.size else C.own

/-- `self` as a value: `ur.Read()` or `ur.ReadLong()`, a number of the bits of `ur`,
which the user takes for a value of C with its size; a transient of more than 64
bits: `ur.ReadBV(0u, tmp)`, as many bits as `tmp` has.  In an as-condition `self` is
a struct generated for C; its `read()` is the one of `Verif.BaseCopy`.
/repo/src/ulam/Node.cpp:1333-1347, 1367-1457, 4470-4491 -/
def readSelf (asCond : Bool) (C : Cls) (r : Ref) (st : List Bool) : Option (List Bool) :=
  if asCond then read C r st
  else if C.size ≤ 64 then
    if r.pos + urLen C r ≤ st.length then
      some (List.replicate (C.size - urLen C r) false ++ rd st r.pos (urLen C r))
    else none
  else if r.pos + C.size ≤ st.length then some (rd st r.pos C.size)
  else none

/-- Where the own members are written: the position of C in the effective self, less
that of `ur`, in 32 bits, added to the position of `ur`.
/repo/src/ulam/Node.cpp:1778-1793 -/
def ownPos (C : Cls) (r : Ref) : Nat :=
  (r.pos + (r.relPos C.id + 2 ^ 32 - r.postoeff) % 2 ^ 32) % 2 ^ 32

/-- `self = v`.  The value of an element is an atom (TMPTATOM): it is written only if
the object is of that class.
/repo/src/ulam/Node.cpp:1650-1851 -/
def writeSelf (k : Sort') (C : Cls) (r : Ref) (st v : List Bool) : Option (List Bool) :=
  if C.size = 0 then some st
  else if C.id = r.eff then
    if r.pos + C.size ≤ st.length then some (wr st r.pos v) else none
  else if k = .element then some st
  else
    (if C.own = 0 then some st else piece v st 0 (ownPos C r) C.own).bind
      (writeBases r v C.bases)

/-- `self = self`. /repo/src/ulam/NodeBinaryOpEqual.cpp:721-745 -/
def selfAssign (k : Sort') (C : Cls) (r : Ref) (st : List Bool) : Option (List Bool) :=
  (readSelf false C r st).bind (writeSelf k C r st)

end Ulam.SelfCopy
