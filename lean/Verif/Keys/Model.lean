/-
Model of type signatures and of the table indexed by them:
/repo/include/UlamKeyTypeSignature.h, /repo/src/ulam/UlamKeyTypeSignature.cpp
(operator< and operator== at the end of the file; the accessors), and
`std::map<UlamKeyTypeSignature, UlamType *, less_than_key>` as used in
/repo/src/ulam/CompilerState.cpp (m_definedUlamTypes).
-/
namespace Ulam.Keys

/-- `UlamKeyTypeSignature`: name id (u32), bit size (s32), array size (s32), class instance (UTI)
and reference kind (ALT, an enumeration). -/
structure Key where
  typeNameId : Nat
  bits : Int
  arraySize : Int
  classInstanceIdx : Nat
  referenceType : Nat
deriving DecidableEq

/-- `operator<`; UlamKeyTypeSignature.cpp, the last but one function. -/
def lt (k k2 : Key) : Bool :=
  if k.typeNameId < k2.typeNameId then true
  else if k.typeNameId > k2.typeNameId then false
  else if k.bits < k2.bits then true
  else if k.bits > k2.bits then false
  else if k.arraySize < k2.arraySize then true
  else if k.arraySize > k2.arraySize then false
  else if k.classInstanceIdx < k2.classInstanceIdx then true
  else if k.classInstanceIdx > k2.classInstanceIdx then false
  else if k.referenceType < k2.referenceType then true
  else if k.referenceType > k2.referenceType then false
  else false

/-- `operator==`; UlamKeyTypeSignature.cpp, the last function. -/
def eq (k k2 : Key) : Bool :=
  (k.typeNameId == k2.typeNameId) && (k.bits == k2.bits) && (k.arraySize == k2.arraySize) &&
  (k.classInstanceIdx == k2.classInstanceIdx) && (k.referenceType == k2.referenceType)

/-- A `std::map` with this comparison: its entries in ascending order.  Two keys are the same entry
when neither is less than the other (C++ library behaviour). -/
abbrev Table (α : Type) := List (Key × α)

/-- `std::map::find`. -/
def find {α} : Table α → Key → Option α
  | [], _ => none
  | (k, v) :: m, x =>
    if lt k x then find m x
    else if lt x k then none
    else some v

/-- `std::map::insert`: no effect when the key is present. -/
def insert {α} : Table α → Key → α → Table α
  | [], x, v => [(x, v)]
  | (k, w) :: m, x, v =>
    if lt k x then (k, w) :: insert m x v
    else if lt x k then (x, v) :: (k, w) :: m
    else (k, w) :: m

/-- `std::map::erase(key)`. -/
def erase {α} : Table α → Key → Table α
  | [], _ => []
  | (k, w) :: m, x =>
    if lt k x then (k, w) :: erase m x
    else if lt x k then (k, w) :: m
    else m

end Ulam.Keys
