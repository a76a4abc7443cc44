/-
Model of the sizing of classes: how the compiler works out the number of bits of every class
from its data members and its base classes, over repeated passes.

Source: src/ulam/SymbolTableOfVariables.cpp, src/ulam/NodeBlockClass.cpp, src/ulam/SymbolClass.cpp,
src/ulam/SymbolClassName.cpp, src/ulam/SymbolTableOfClasses.cpp, src/ulam/CompilerState.cpp.

Simplifications: the classes are the regular (not template) ones; base classes are named by known
types (none still hazy); the set of all ancestors (`anc`) is given, it is the key set of the map
made by `findTheSharedVirtualBasesInAClassHierarchy`, modelled and characterized in
Verif/Walker and Verif/Layout; error messages are one flag; a failing assertion is one flag, what
is computed after it has no meaning.
-/
import Mathlib.Logic.Function.Basic
import Mathlib.Data.Fintype.Basic
import Mathlib.Data.List.Basic

namespace Ulam.Sizing

variable {n : Nat}

/-- The class types with storage (include/Constants.h:101, `UC_QUARK`, `UC_ELEMENT`, `UC_TRANSIENT`). -/
inductive Kind
  | quark | element | transient
  deriving DecidableEq, Repr

/-- The type of one item of a data member (SymbolTableOfVariables.cpp:357-421 tells them apart): a
primitive (or Atom) of known bits, or a class. -/
inductive Ty (n : Nat)
  | prim (bits : Nat)
  | cls (d : Fin n)
  deriving DecidableEq, Repr

/-- A data member with a countable size (SymbolTableOfVariables.cpp:136-145); `count` is the array
length, `none` for a scalar. -/
structure Member (n : Nat) where
  ty : Ty n
  count : Option Nat
  deriving DecidableEq, Repr

/-- The declared classes, in the order of their ids (SymbolTableOfClasses.cpp:445-494 goes through
them). -/
structure Prog (n : Nat) where
  kind : Fin n → Kind
  /-- a quark declared `union` (`isQuarkUnion`) -/
  union : Fin n → Bool
  /-- the data members in the order of the symbol table -/
  members : Fin n → List (Member n)
  /-- the table has other symbols than data members (typedefs, constants) -/
  other : Fin n → Bool
  /-- direct base classes -/
  bases : Fin n → List (Fin n)
  /-- all ancestors, each once -/
  anc : Fin n → List (Fin n)
  /-- the table of classes, in the order of the ids -/
  order : List (Fin n)

/-- What the type tables hold while sizes are worked out (CompilerState.cpp:2082-2235 sets them). -/
structure St (n : Nat) where
  /-- bit size of the class type -/
  size : Fin n → Int
  /-- bit size as a base class (`m_bitsizeAsBaseClass`) -/
  base : Fin n → Int
  /-- the array type of this item type and length has its length set -/
  len : Ty n → Nat → Bool
  /-- the item bit size of the type array-of-class -/
  item : Fin n → Nat → Int
  /-- an error message was given -/
  err : Bool
  /-- an assertion failed -/
  abort : Bool

/-- include/Constants.h:193 -/
def UNKNOWN : Int := -2
/-- include/Constants.h:210 -/
def CYCLE : Int := -12
/-- include/Constants.h:214 -/
def EMPTY : Int := -11

/-- include/Constants.h:137-149: 96-bit atom whose state begins at bit 25; quarks; transients. -/
def limit : Kind → Int
  | .quark => 64
  | .element => 71
  | .transient => 8192

/-- Conversion to a 32-bit signed number (assignment to `s32`). -/
def s32 (x : Int) : Int := Int.bmod x (2 ^ 32)

/-- At the start nothing about a class is known (UlamTypeClass.cpp:12, key of an unseen class). -/
def start : St n :=
  { size := fun _ => UNKNOWN, base := fun _ => UNKNOWN, len := fun _ _ => false
    item := fun _ _ => UNKNOWN, err := false, abort := false }

/-- An error message is given (as in SymbolClass.cpp:532-545). -/
def St.fail (s : St n) : St n := { s with err := true }

/-- An assertion fails (as in SymbolClass.cpp:568-608). -/
def St.stop (s : St n) : St n := { s with abort := true }

/-- src/ulam/UlamTypeClass.cpp:286-298 `isComplete` (with UlamType.cpp:514-517). -/
def complete (p : Prog n) (s : St n) (c : Fin n) : Bool :=
  decide (UNKNOWN < s.size c) && (decide (p.kind c = .element) || decide (s.base c ≠ UNKNOWN))

/-- src/ulam/CompilerState.cpp:2082-2188 `setUTISizes` for a scalar class: nothing if complete; over
the limit is an error; a changed size makes a new type object, whose size as a base is unknown. -/
def setSize (p : Prog n) (c : Fin n) (b : Int) (s : St n) : St n :=
  if complete p s c then s
  else if limit (p.kind c) < b then s.fail
  else if s.size c = b then s
  else { s with size := Function.update s.size c b, base := Function.update s.base c UNKNOWN }

/-- src/ulam/CompilerState.cpp:1937-1945 `getBaseClassBitSize`. -/
def getBase (p : Prog n) (s : St n) (c : Fin n) : Int :=
  if p.kind c = .element then 0 else s.base c

/-- src/ulam/UlamTypeClass.cpp:41-50 `setBitsizeAsBaseClass`: a positive size is not replaced. -/
def putBase (c : Fin n) (b : Int) (s : St n) : St n :=
  if 0 < s.base c then (if b = s.base c then s else s.stop)
  else { s with base := Function.update s.base c b }

/-- src/ulam/CompilerState.cpp:2191-2235 `setBaseClassBitSize`. -/
def setBase (p : Prog n) (c : Fin n) (b : Int) (s : St n) : Bool × St n :=
  if p.kind c = .element then (true, s)
  else if limit (p.kind c) < b then (false, s.fail)
  else (true, putBase c b s)

/-- The 32-bit product tested against the limit for arrays (CompilerState.cpp:2420-2421). -/
def arrayBits (b : Int) (j : Nat) : Int := ((if b < 0 then 0 else b) * j) % 2 ^ 32

/-- src/ulam/CompilerState.cpp:2402-2496 `setSizesOfNonClassAndArrays` for an array of a class with
known length. -/
def setItem (d : Fin n) (j : Nat) (b : Int) (s : St n) : St n :=
  if UNKNOWN < s.item d j then s
  else if 8192 < arrayBits b j then s.fail
  else { s with item := Function.update s.item d (Function.update (s.item d) j b) }

/-- `setUTIBitSize` (CompilerState.cpp:2076-2079) on the type of a data member; the primitive types
are complete. -/
def setType (p : Prog n) (m : Member n) (b : Int) (s : St n) : St n :=
  match m.ty, m.count with
  | .prim _, _ => s
  | .cls d, none => setSize p d b s
  | .cls d, some j => setItem d j b s

/-- src/ulam/SymbolTableOfVariables.cpp:178-189: the size as a base is saved and restored. -/
def setTypeKeep (p : Prog n) (m : Member n) (b : Int) (s : St n) : St n :=
  match m.ty, m.count with
  | .cls d, none =>
    if getBase p s d = UNKNOWN then setSize p d b s
    else (setBase p d (getBase p s d) (setSize p d b s)).2
  | _, _ => setType p m b s

/-- What a computation of a size gives (SymbolTableOfVariables.cpp:357): the size, the classes seen,
the type tables. -/
structure Out (n : Nat) where
  bits : Int
  seen : List (Fin n)
  st : St n

/-- src/ulam/SymbolTableOfVariables.cpp:357-421 `calcVariableSymbolTypeSize`, the part before a scalar
class is reached (`scalar`): primitives and arrays. -/
def typeSize (scalar : Fin n → List (Fin n) → St n → Option (Out n)) (m : Member n)
    (seen : List (Fin n)) (s : St n) : Option (Out n) :=
  match m.ty, m.count with
  | .prim b, none => some ⟨b, seen, s⟩
  | .prim b, some j => some ⟨if s.len (.prim b) j then b else UNKNOWN, seen, s⟩
  | .cls d, none => scalar d seen s
  | .cls d, some j =>
    if s.len (.cls d) j then
      if 0 ≤ s.item d j then some ⟨s.item d j, seen, s⟩
      else if s.item d j = CYCLE then some ⟨CYCLE, seen, s.stop⟩
      else if s.item d j = EMPTY then some ⟨0, seen, s⟩
      else (scalar d seen s).map fun o => if 0 ≤ o.bits then { o with bits := s32 (o.bits * j) } else o
    else some ⟨UNKNOWN, seen, s⟩

/-- Array length, 1 for a scalar (SymbolTableOfVariables.cpp:193). -/
def Member.times (m : Member n) : Nat := m.count.getD 1

/-- src/ulam/UlamType.cpp:464-472 `getTotalBitSize` of the type of a data member: an unknown size
counts as 0. -/
def totalBitSize (m : Member n) (s : St n) : Int :=
  let b := match m.ty, m.count with
    | .prim b, _ => (b : Int)
    | .cls d, none => s.size d
    | .cls d, some j => s.item d j
  s32 ((if b = UNKNOWN then 0 else b) * m.times)

/-- The class of the member is an element (SymbolTableOfVariables.cpp:191-204). -/
def isElement (p : Prog n) (m : Member n) : Bool :=
  match m.ty with
  | .prim _ => false
  | .cls d => decide (p.kind d = .element)

/-- src/ulam/SymbolTableOfVariables.cpp:191-204: the bits a data member adds; an element in a
transient takes a whole atom. -/
def addBits (p : Prog n) (c : Fin n) (m : Member n) (s : St n) : Int :=
  if p.kind c = .transient ∧ isElement p m = true then s32 (96 * m.times) else totalBitSize m s

/-- Which data members have a usable type now (`okUTItoContinue`, SymbolTableOfVariables.cpp:147-152), which arrays the labelling
resolves before the pass, and which array types get their length before their item's size. -/
structure View (n : Nat) where
  typed : Fin n → Member n → Bool
  arrays : List (Ty n × Nat)
  early : List (Ty n × Nat)

/-- src/ulam/SymbolTableOfVariables.cpp:129-208 `getTotalVariableSymbolsBitSize`. -/
def sumMembers (scalar : Fin n → List (Fin n) → St n → Option (Out n)) (p : Prog n) (v : View n)
    (c : Fin n) : List (Member n) → Int → List (Fin n) → St n → Option (Out n)
  | [], acc, seen, s => some ⟨acc, seen, s⟩
  | m :: ms, acc, seen, s =>
    if v.typed c m then
      (typeSize scalar m seen s).bind fun o =>
        if o.bits = CYCLE then some ⟨CYCLE, o.seen, o.st.fail⟩
        else if o.bits = EMPTY then
          sumMembers scalar p v c ms (s32 (acc + addBits p c m (setType p m 0 o.st))) o.seen
            (setType p m 0 o.st)
        else if o.bits ≤ UNKNOWN then some ⟨UNKNOWN, o.seen, o.st⟩
        else
          sumMembers scalar p v c ms (s32 (acc + addBits p c m (setTypeKeep p m o.bits o.st))) o.seen
            (setTypeKeep p m o.bits o.st)
    else some ⟨UNKNOWN, seen, s⟩

/-- src/ulam/SymbolTableOfVariables.cpp:210-266 `getMaxVariableSymbolsBitSize`. A member whose type is
not usable has an unknown size. -/
def maxMembers (scalar : Fin n → List (Fin n) → St n → Option (Out n)) (p : Prog n) (v : View n)
    (c : Fin n) : List (Member n) → Int → List (Fin n) → St n → Option (Out n)
  | [], acc, seen, s => some ⟨acc, seen, s⟩
  | m :: ms, acc, seen, s =>
    if v.typed c m then
      (typeSize scalar m seen s).bind fun o =>
        if o.bits = CYCLE then some ⟨CYCLE, o.seen, o.st.fail⟩
        else if o.bits = EMPTY then
          maxMembers scalar p v c ms (max acc (totalBitSize m (setType p m 0 o.st))) o.seen
            (setType p m 0 o.st)
        else if o.bits ≤ UNKNOWN then some ⟨UNKNOWN, o.seen, o.st⟩
        else
          maxMembers scalar p v c ms (max acc (totalBitSize m (setType p m o.bits o.st))) o.seen
            (setType p m o.bits o.st)
    else some ⟨UNKNOWN, seen, s⟩

/-- The loop over the base classes (NodeBlockClass.cpp:2036-2055, 2083-2096): the first negative
size is returned, else the sum. -/
def baseSum (s : St n) : List (Fin n) → Int → Int
  | [], acc => acc
  | b :: bs, acc => if s.size b < 0 then s.size b else baseSum s bs (acc + s.size b)

/-- src/ulam/NodeBlockClass.cpp:2025-2068 `getBitSizesOfVariableSymbolsInTable` and 2070-2109
`getMaxBitSizeOfVariableSymbolsInTable`; `bits` is the size of the members alone (`mybits`). -/
def blockBits (scalar : Fin n → List (Fin n) → St n → Option (Out n)) (p : Prog n) (v : View n)
    (c : Fin n) (seen : List (Fin n)) (s : St n) : Option (Out n) :=
  if baseSum s (p.bases c) 0 < 0 then some ⟨baseSum s (p.bases c) 0, seen, s⟩
  else if p.union c then
    if (p.members c).isEmpty && !p.other c then some ⟨EMPTY, seen, s⟩
    else maxMembers scalar p v c (p.members c) 0 seen s
  else
    if (p.members c).isEmpty && !p.other c && decide (baseSum s (p.bases c) 0 = 0) then
      some ⟨EMPTY, seen, s⟩
    else sumMembers scalar p v c (p.members c) 0 seen s

/-- What `trySetBitsizeWithUTIValues` (SymbolClass.cpp:523) gives: whether the size is known, and the members' bits. -/
structure Try (n : Nat) where
  ok : Bool
  mybits : Int
  seen : List (Fin n)
  st : St n

/-- src/ulam/SymbolClass.cpp:532-565: the outcome from the total and whether the class was complete. -/
def judge (p : Prog n) (c : Fin n) (was : Bool) (o : Out n) : Try n :=
  if o.bits = CYCLE then ⟨false, 0, o.seen, o.st.fail⟩
  else if o.bits = EMPTY then
    if p.union c then ⟨false, 0, o.seen, o.st.fail⟩ else ⟨true, 0, o.seen, o.st⟩
  else if o.bits ≠ UNKNOWN then ⟨true, if o.bits < 0 then 0 else o.bits, o.seen, o.st⟩
  else ⟨was, 0, o.seen, o.st⟩

/-- src/ulam/SymbolClass.cpp:523-566 `trySetBitsizeWithUTIValues`. -/
def trySet (scalar : Fin n → List (Fin n) → St n → Option (Out n)) (p : Prog n) (v : View n)
    (c : Fin n) (seen : List (Fin n)) (s : St n) : Option (Try n) :=
  (blockBits scalar p v c seen s).map (judge p c (complete p s c))

/-- src/ulam/SymbolClass.cpp:568-608 `determineSharedBasesAndTotalBitsize`: the sum of the sizes as
base of all ancestors; `none` when one is not known; an ancestor that is not complete fails an
assertion. -/
def sharedBits (p : Prog n) (s : St n) : List (Fin n) → Int → Bool × Option Int
  | [], acc => (true, some acc)
  | a :: as, acc =>
    if complete p s a = false then (false, none)
    else if getBase p s a = UNKNOWN then (true, none)
    else sharedBits p s as (acc + getBase p s a)

/-- src/ulam/SymbolTableOfVariables.cpp:496-516: after a first sighting, the shared bits are added
and the size as a base is set. -/
def finish (p : Prog n) (d : Fin n) (t : Try n) : Out n :=
  if t.ok then
    let q := sharedBits p t.st (p.anc d) 0
    if q.1 then
      match q.2 with
      | none => ⟨UNKNOWN, t.seen, t.st⟩
      | some sb =>
        let r := setBase p d t.mybits t.st
        ⟨if r.1 then s32 (t.mybits + s32 sb) else UNKNOWN, t.seen, r.2⟩
    else ⟨UNKNOWN, t.seen, t.st.stop⟩
  else ⟨UNKNOWN, t.seen, t.st⟩

/-- src/ulam/SymbolTableOfVariables.cpp:422-521 `calcVariableSymbolTypeSize` for a scalar class `d`
found in the class `ctx`. The recursion is bounded by `fuel`; `none` is running out of it, shown
not to happen. -/
def classBits (p : Prog n) (v : View n) : Nat → Fin n → Fin n → List (Fin n) → St n → Option (Out n)
  | 0, _, _, _, _ => none
  | fuel + 1, ctx, d, seen, s =>
    if 0 ≤ s.size d then some ⟨s.size d, seen, s⟩
    else if s.size d = CYCLE then some ⟨CYCLE, seen, s⟩
    else if s.size d = EMPTY then some ⟨0, seen, s⟩
    else if s.size d ≠ UNKNOWN then some ⟨UNKNOWN, seen, s.stop⟩
    else if d = ctx then some ⟨UNKNOWN, seen, s.fail⟩
    else if d ∈ seen then some ⟨CYCLE, seen, setSize p d CYCLE s⟩
    else (trySet (classBits p v fuel d) p v d (d :: seen) s).map (finish p d)

/-- src/ulam/SymbolClassName.cpp:373-405: the size and the size as a base are set. -/
def settle (p : Prog n) (c : Fin n) (t : Try n) : Bool × St n :=
  if t.ok then
    let q := sharedBits p t.st (p.anc c) 0
    if q.1 then
      match q.2 with
      | none => (false, t.st)
      | some sb =>
        let tot := s32 (t.mybits + s32 sb)
        let s := setSize p c tot t.st
        if s.size c ≠ tot then (false, s.fail)
        else (true, (setBase p c (s32 (tot - s32 sb)) s).2)
    else (false, t.st.stop)
  else (false, t.st)

/-- src/ulam/SymbolClassName.cpp:352-408 `setBitSizeOfClassInstances`. -/
def sizeClass (p : Prog n) (v : View n) (c : Fin n) (s : St n) : Option (Bool × St n) :=
  if complete p s c then some (true, s)
  else (trySet (classBits p v (n + 1) c) p v c [c] s).map (settle p c)

/-- src/ulam/SymbolTableOfClasses.cpp:445-494 `setBitSizeOfTableOfClasses`. -/
def pass (p : Prog n) (v : View n) : List (Fin n) → Bool → St n → Option (Bool × St n)
  | [], ok, s => some (ok, s)
  | c :: cs, ok, s => (sizeClass p v c s).bind fun r => pass p v cs (ok && r.1) r.2

/-- src/ulam/NodeTypeDescriptorArray.cpp:222-264 `resolveTypeArraysize`: the array type gets its
length and the size of its item once the item is complete. -/
def resolveArray (p : Prog n) (s : St n) (a : Ty n × Nat) : St n :=
  match a.1 with
  | .prim b =>
    if s.len (.prim b) a.2 then s
    else if 8192 < arrayBits b a.2 then s.fail
    else { s with len := Function.update s.len (.prim b) (Function.update (s.len (.prim b)) a.2 true) }
  | .cls d =>
    if UNKNOWN < s.item d a.2 then s
    else if complete p s d then
      if 8192 < arrayBits (s.size d) a.2 then s.fail
      else { s with
        len := Function.update s.len (.cls d) (Function.update (s.len (.cls d)) a.2 true)
        item := Function.update s.item d (Function.update (s.item d) a.2 (s.size d)) }
    else s

/-- An array type whose length is set while the size of its item is unknown (`setUTISizes` with the
unknown size of the item, NodeTypeDescriptorArray.cpp:250-260). -/
def earlyArray (s : St n) (a : Ty n × Nat) : St n :=
  { s with len := Function.update s.len a.1 (Function.update (s.len a.1) a.2 true) }

/-- One round (Compiler.cpp:375-390 `resolvingLoop`): labelling resolves array types, then every class is
sized. -/
def round (p : Prog n) (v : View n) (s : St n) : Option (Bool × St n) :=
  pass p v p.order true (v.early.foldl earlyArray (v.arrays.foldl (resolveArray p) s))

/-- Several rounds of `resolvingLoop` (Compiler.cpp:375-390). -/
def rounds (p : Prog n) : List (View n) → St n → Option (St n)
  | [], s => some s
  | v :: vs, s => (round p v s).bind fun r => rounds p vs r.2

end Ulam.Sizing
