import Verif.BaseCopy.Model
/-
The variable that a condition `x as V` introduces, in the generated code: a C++
reference struct for the class V, made from the operand.  Whether the condition
holds is another matter (C79); here it does.

Classes are numbers.  The constructor of the MFM library's `UlamRef` is not in
the repository; what it does to `PosToEffectiveSelf` is a parameter (`Lib`).
-/
namespace Ulam.AsRef

/-- UC_QUARK, UC_ELEMENT, UC_TRANSIENT. /repo/include/Constants.h:113 -/
inductive Kind | quark | element | transient
deriving DecidableEq, Repr

/-- The classes of a program: the bits of the own data members
(getBitsizeAsBaseClass), all bits, the position of the members of one class in
another one (what the generated function `GetRelPos` returns at run time, and
getABaseClassRelativePositionInAClass at compile time; C15, C78). -/
structure World where
  kind : Nat → Kind
  own : Nat → Nat
  size : Nat → Nat
  rel : Nat → Nat → Nat

/-- `UlamRef`: GetPos, GetLen, GetPosToEffectiveSelf, GetEffectiveSelf. External. -/
structure Ref where
  pos : Nat
  len : Nat
  postoeff : Nat
  eff : Nat
deriving DecidableEq, Repr

/-- What the library puts into `PosToEffectiveSelf`: for a reference made from a
storage without saying so, and for one made from another reference. External. -/
structure Lib where
  fresh : Nat
  move : Ref → Int → Nat → Nat

/-- The length given to `UlamRef` by most constructors: all bits if the effective
self is the class, else the own members; an element has always all bits of an atom.
/repo/src/ulam/UlamTypeClassQuark.cpp:260-277
/repo/src/ulam/UlamTypeClassTransient.cpp:302-323
/repo/src/ulam/UlamTypeClassElement.cpp:278-290 -/
def mkLen (w : World) (v eff : Nat) : Nat :=
  match w.kind v with
  | .element => 96
  | _ => if v = eff then w.size v else w.own v

/-- Constructor from storage, position, effective self.
/repo/src/ulam/UlamTypeClassQuark.cpp:257-277
/repo/src/ulam/UlamTypeClassTransient.cpp:300-323
/repo/src/ulam/UlamTypeClassElement.cpp:278-290 -/
def fromStorage (L : Lib) (w : World) (v idx eff : Nat) : Ref :=
  ⟨idx, mkLen w v eff, L.fresh, eff⟩

/-- Constructor from storage, position, position in the effective self, effective
self; a quark has the bits of the own members here, whatever the effective self.
/repo/src/ulam/UlamTypeClassQuark.cpp:279-288
/repo/src/ulam/UlamTypeClassTransient.cpp:325-347
/repo/src/ulam/UlamTypeClassElement.cpp:292-303 -/
def fromStoragePos (w : World) (v idx postoeff eff : Nat) : Ref :=
  ⟨idx, if w.kind v = .quark then w.own v else mkLen w v eff, postoeff, eff⟩

/-- Constructor from a reference, a distance and the effective self.
/repo/src/ulam/UlamTypeClassQuark.cpp:303-324
/repo/src/ulam/UlamTypeClassTransient.cpp:364-384
/repo/src/ulam/UlamTypeClassElement.cpp:332-343 -/
def fromRef (L : Lib) (w : World) (v : Nat) (r : Ref) (incr : Int) (eff : Nat) : Ref :=
  ⟨((r.pos + incr) % 2 ^ 32).toNat, mkLen w v eff, L.move r incr eff, eff⟩

/-- The operand: `self`; a variable that is a reference to a class; one that is an
object of a class; a data member that is an object of a class, with its offset in
the class that declares it; an atom: a variable, a reference, a data member.
/repo/src/ulam/NodeVarRefAs.cpp:146-200 -/
inductive Left
  | self (r : Ref)
  | ref (r : Ref)
  | object (c : Nat)
  | member (ur : Ref) (c off : Nat)
  | atom
  | atomRef (r : Ref)
  | atomMember (ur : Ref) (off : Nat)
deriving DecidableEq, Repr

/-- From a reference: the position of V in the effective self, less the position of
the reference in it.
/repo/src/ulam/NodeVarRefAs.cpp:255-299, 366-395 -/
def asOfRef (L : Lib) (w : World) (r : Ref) (v : Nat) : Ref :=
  fromRef L w v r ((w.rel r.eff v : Int) - r.postoeff) r.eff

/-- ATOM_FIRST_STATE_BIT of the MFM library; external. -/
def firstStateBit : Nat := 25

/-- `genCode` and `genCodeRefAsSelf`.  `inside` is the class of the element that an
atom holds (LookupUlamElementTypeFromContext of its type).  A data member is first
made a reference by the constructor from a reference and a distance, which keeps
the effective self (UlamTypeClassQuark.cpp:332-352).
/repo/src/ulam/NodeVarRefAs.cpp:135-355, 357-395 -/
def asVar (L : Lib) (w : World) (inside : Nat) (l : Left) (v : Nat) : Ref :=
  match l with
  | .self r => asOfRef L w r v
  | .ref r => asOfRef L w r v
  | .member ur c off => asOfRef L w (fromRef L w c ur off ur.eff) v
  | .object c =>
    match w.kind c with
    | .element =>
      if w.kind v = .quark then
        fromStoragePos w v (w.rel c v + firstStateBit) (w.rel c v) c
      else fromStorage L w v (w.rel c v + firstStateBit) c
    | .transient =>
      if w.kind v = .quark then fromStoragePos w v (w.rel c v) (w.rel c v) c
      else fromStorage L w v (w.rel c v) c
    | .quark => fromStoragePos w v (w.rel c v) (w.rel c v) c
  | .atom =>
    if w.kind v = .quark then fromStorage L w v (firstStateBit + w.rel inside v) inside
    else fromStorage L w v firstStateBit v
  | .atomRef r =>
    if w.kind v = .quark then fromRef L w v r (firstStateBit + w.rel inside v) inside
    else fromRef L w v r firstStateBit v
  | .atomMember ur off =>
    -- first a reference to the atom
    let r : Ref := ⟨((ur.pos + off : Int) % 2 ^ 32).toNat, 96, L.move ur off ur.eff, ur.eff⟩
    if w.kind v = .quark then fromRef L w v r (firstStateBit + w.rel inside v) inside
    else fromRef L w v r firstStateBit v

end Ulam.AsRef
