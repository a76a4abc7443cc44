import Verif.Layout.Model
import Verif.BaseCopy.Model
/-!
# Copying a base class out of an object and into it, in the evaluator (model)

The values are objects of classes, held in an `UlamValue` of 96 bits from bit 25 on (`ATOMFIRSTSTATEBITPOS`). Classes, walks
over their bases and layouts are those of `Verif/Walker/Model.lean` and `Verif/Layout/Model.lean`; the bits are lists, read and
written as in `Verif/BaseCopy/Model.lean` (`BitVector`, external).
-/
namespace Ulam.EvalCopy
open Walker Layout BaseCopy
variable {n : Nat}

/-- `BITSPERATOM`, `MAXBITSPERLONG`, `MAXSTATEBITS` and `ATOMFIRSTSTATEBITPOS`. `include/Constants.h:188-241` -/
def atomBits : Nat := 96
def longBits : Nat := 64
def stateBits : Nat := 71
def firstState : Nat := 25

/-- One round of the loop, for the class `b`: `limit` is the length asserted, `none` a failed assertion or bits outside the
value. `cuti` and `tuti` are the classes of the values.
`CompilerState.cpp:6487-6515` and `:6536-6564` -/
def copyPart (w : World n) (L : Fin n → Class) (P : Fin n → Option Packed) (limit : Nat) (cuti tuti : Fin n)
    (fm : List Bool) (to' : List Bool) (b : Fin n) : Option (List Bool) :=
  let blen := baseBits L b
  if blen > limit then none
  else if blen > 0 then
    match relativePosition w P cuti b, relativePosition w P tuti b with
    | some fmrelpos, some torelpos => piece fm to' (firstState + fmrelpos) (firstState + torelpos) blen
    | _, _ => some to'
  else some to'

/-- `CompilerState.cpp:6469-6517` `extractQuarkBaseFromSubclassForEval` and `:6519-6566`
`extractTransientBaseFromSubclassForEval`, which differ in the limit. `cuti` and `tuti` are the classes of the objects (for
an atom, its effective self). The assertions on how the classes are related are left out: they hold for the callers below. -/
def extract (w : World n) (L : Fin n → Class) (P : Fin n → Option Packed) (limit : Nat) (cuti tuti buti : Fin n)
    (fm to' : List Bool) : Option (List Bool) :=
  (classes w false (w.deref buti)).foldlM (copyPart w L P limit cuti tuti fm) to'

/-- Which of the two is called, by a size: `NodeBinaryOpEqual.cpp:507-516`; `none` is `abortNotSupported`. -/
def limitFor (bits : Nat) : Option Nat :=
  if bits ≤ longBits then some longBits else if bits ≤ stateBits then some stateBits else none

/-- A cast to a base class: a cleared value, into which the base is copied. Simplification: for transients of up to 64 bits
the first two call the other function, with the larger limit.
`UlamTypeClassQuark.cpp:64-78`, `UlamTypeClassTransient.cpp:51-61`, `NodeBinaryOpEqual.cpp:545-563` -/
def castBase (w : World n) (L : Fin n → Class) (P : Fin n → Option Packed) (cuti buti : Fin n) (fm : List Bool) :
    Option (List Bool) :=
  (limitFor (totalBits w L buti)).bind fun limit => extract w L P limit cuti buti buti fm (List.replicate atomBits false)

/-- A cast of `self`, or of another reference, to a base class: the function for quarks is called for all classes.
`NodeCast.cpp:889-917` -/
def castBaseFromRef (w : World n) (L : Fin n → Class) (P : Fin n → Option Packed) (cuti buti : Fin n) (fm : List Bool) :
    Option (List Bool) :=
  extract w L P longBits cuti buti buti fm (List.replicate atomBits false)

/-- An assignment to a reference of class `luti` to an object of a derived class `leff`, with the bits `lval`: the value, of
class `ruti`, is copied into these. `NodeBinaryOpEqual.cpp:494-528` -/
def assignBase (w : World n) (L : Fin n → Class) (P : Fin n → Option Packed) (ruti luti leff : Fin n) (ruv lval : List Bool) :
    Option (List Bool) :=
  (limitFor (totalBits w L ruti)).bind fun limit => extract w L P limit ruti leff luti ruv lval

end Ulam.EvalCopy
