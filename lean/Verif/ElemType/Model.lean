/-
Model of the element type number generator,
/repo/src/ulam/ElementTypeGenerator.cpp (all of it) and the fields of
/repo/include/ElementTypeGenerator.h.

`u32` values are `Nat`s below 2^32, `ELE_TYPE` (u16) values `Nat`s below 2^16.
The generator's retry loop may never stop; it is run here with 2^32 turns of
fuel, one for every value of the u32 counter, and `none` means that no counter
value would do, so that the real loop never ends.
-/
namespace Ulam.ElemType

/-- `2^32`, the range of `u32`. -/
def u32Range : Nat := 4294967296

/-- `EMPTY_ELEMENT_TYPE`, `MAX_ELEMENT_TYPE`; include/Constants.h. -/
def emptyType : Nat := 0xFFFF

/-- `UNDEFINED_ELEMENT_TYPE`; include/Constants.h. -/
def undefinedType : Nat := 0

/-- `ELEMENT_TYPE_BITS`; include/Constants.h. -/
def typeBits : Nat := 16

/-- The fields of `ElementTypeGenerator`, in the order of the header;
`m_sequentialTypeMap`, `m_setOfKnownTypes` and `m_mapOfKnownTypes` are lists,
newest first. -/
structure Gen where
  next : Nat
  counter : Nat
  sequential : List (Nat × Nat)
  known : List Nat
  byType : List (Nat × Nat)

/-- The constructor; ElementTypeGenerator.cpp:6. -/
def Gen.init : Gen := ⟨0, 2, [], [], []⟩

/-- `while (highidx > 1 && ((m_counter & (1 << highidx)) == 0)) --highidx`;
ElementTypeGenerator.cpp:53-54. -/
def highIdx (counter : Nat) : Nat → Nat
  | 0 => 0
  | i + 1 =>
    if i + 1 > 1 ∧ counter.testBit (i + 1) = false then highIdx counter i else i + 1

/-- `while (--highidx >= 0) { type <<= bitsPerBit; if (counter & (1 << highidx)) type |= bits; }`;
ElementTypeGenerator.cpp:60-65. -/
def spread (counter bitsPerBit bits : Nat) : Nat → Nat → Nat
  | 0, type => type
  | i + 1, type =>
    let shifted := (type <<< bitsPerBit) % u32Range
    spread counter bitsPerBit bits i (if counter.testBit i then shifted ||| bits else shifted)

/-- One turn of the retry loop: the type tried for a counter value;
ElementTypeGenerator.cpp:52-65. -/
def tryType (counter : Nat) : Nat :=
  let highidx := highIdx counter 31
  let bitsPerBit := typeBits / highidx
  let bits := 2 ^ bitsPerBit - 1
  spread counter bitsPerBit bits highidx 0

/-- The retry loop; ElementTypeGenerator.cpp:50-68, `addTypeToSet` (71-76) in line.
The result is the type, the counter and the set of known types. -/
def makeAType : Nat → Nat → List Nat → Option (Nat × Nat × List Nat)
  | 0, _, _ => none
  | fuel + 1, counter, known =>
    let counter := (counter + 1) % u32Range
    let type := tryType counter
    if type = emptyType ∨ type = undefinedType ∨ type % 65536 ∈ known then
      makeAType fuel counter known
    else some (type % 65536, counter, (type % 65536) :: known)

/-- What a call of `makeNextType` can do. -/
inductive Outcome where
  | ok (type : Nat) (g : Gen)
  | assertFails
  | neverEnds

/-- `makeNextType`; ElementTypeGenerator.cpp:15-24, `addTypeToMap` (78-83) in line:
`std::map::insert` does nothing when the key is there, and the assertion then fails. -/
def makeNextType (g : Gen) (cuti : Nat) : Outcome :=
  if g.next < emptyType then
    match makeAType u32Range g.counter g.known with
    | none => .neverEnds
    | some (type, counter, known) =>
      if (g.byType.lookup type).isSome then .assertFails
      else
        let sequential := (g.next, type) :: g.sequential
        match sequential.lookup g.next with
        | none => .assertFails
        | some r => .ok r ⟨g.next + 1, counter, sequential, known, (type, cuti) :: g.byType⟩
  else .assertFails

/-- `findElementTypeClass`; ElementTypeGenerator.cpp:26-36; 0 is `Nouti`. -/
def findElementTypeClass (g : Gen) (ele : Nat) : Nat := (g.byType.lookup ele).getD 0

/-- A history: one request for each class in turn, with the answers. -/
def requests : Gen → List Nat → Option (List Nat × Gen)
  | g, [] => some ([], g)
  | g, c :: cs =>
    match makeNextType g c with
    | .ok t g' => (requests g' cs).map fun r => (t :: r.1, r.2)
    | _ => none

end Ulam.ElemType
