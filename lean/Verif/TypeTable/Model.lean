import Verif.Keys.Model
/-
Model of the table of type numbers (UTI) of /repo/src/ulam/CompilerState.cpp: `m_indexToUlamKey` (number to signature),
`m_definedUlamTypes` (signature to type), `m_keyToAnyUTI` (signature to the set of numbers) and `m_unionRootUTI` (aliases), and of
every function that writes one of them.

Of a type object only its kind (`ULAMTYPE`) is kept. Messages are left out. A failed assertion, and `abortShouldntGetHere`, is
`none`. Changes to class symbol tables and to data member tables made along the way are left out; what they answer is an argument.
-/
namespace Ulam.TypeTable
open Ulam.Keys (Key Table find insert erase)

/-- `UNKNOWNSIZE` and `NONARRAYSIZE`; include/Constants.h. -/
def unknownSize : Int := -2
def nonArraySize : Int := -1

/-- `ULAMTYPE` values, in the order of include/UlamType.inc. The first ones also are type numbers. -/
def nouti : Nat := 0
def nav : Nat := 1
def hzy : Nat := 2
def void : Nat := 3
def cls : Nat := 9
def holder : Nat := 12

structure State where
  /-- `m_indexToUlamKey` -/
  keys : List Key
  /-- `m_definedUlamTypes` -/
  types : Table Nat
  /-- `m_keyToAnyUTI`; a `std::set<UTI>` is the list of its members, ascending. -/
  sets : Table (List Nat)
  /-- `m_unionRootUTI` -/
  root : List Nat
  deriving DecidableEq

/-- `CompilerState.cpp:165-187` `clearAllDefinedUlamTypes`, which also is how it starts. -/
def empty : State := ⟨[], [], [], []⟩

/-- `std::set<UTI>::insert`. -/
def setInsert : List Nat → Nat → List Nat
  | [], x => [x]
  | y :: l, x => if y < x then y :: setInsert l x else if x < y then x :: y :: l else y :: l

/-- `std::set<UTI>::erase` of an element found, or nothing. -/
def setErase : List Nat → Nat → List Nat
  | [], _ => []
  | y :: l, x => if y < x then y :: setErase l x else if x < y then y :: l else l

/-- Writing through the iterator of an entry found. -/
def assign {α} (m : Table α) (k : Key) (v : α) : Table α := insert (erase m k) k v

/-- `CompilerState.cpp:731-743` `isDefined`: the type found, if any. -/
def isDefined (s : State) (k : Key) : Option Nat := find s.types k

/-- `CompilerState.cpp:745-757` `anyDefinedUTI`: the least number of the set, as `lower_bound` of 0. The outer `none`: not found
(its callers assert it is), or an empty set (dereferences `end()`). -/
def anyDefinedUTI (s : State) (k : Key) : Option Nat := (find s.sets k).bind List.head?

/-- `CompilerState.cpp:842-860` `incrementKeyToAnyUTICounter`. -/
def increment (s : State) (k : Key) (u : Nat) : State :=
  match find s.sets k with
  | some l => { s with sets := assign s.sets k (setInsert l u) }
  | none => { s with sets := insert s.sets k [u] }

/-- `CompilerState.cpp:862-880` `decrementKeyToAnyUTICounter`, with the count returned. -/
def decrement (s : State) (k : Key) (u : Nat) : State × Nat :=
  match find s.sets k with
  | some l =>
    let l' := setErase l u
    if l'.length = 0 then ({ s with sets := erase s.sets k }, 0) else ({ s with sets := assign s.sets k l' }, l'.length)
  | none => (s, 0)

/-- `CompilerState.cpp:1236-1240` `getUlamKeyTypeSignatureByIndex`. -/
def keyByIndex (s : State) (u : Nat) : Option Key := s.keys[u]?

/-- `CompilerState.cpp:1249-1266` `getUlamTypeByIndex`: its signature and kind. -/
def typeByIndex (s : State) (u : Nat) : Option (Key × Nat) :=
  (s.keys[u]?).bind fun k => (isDefined s k).map fun t => (k, t)

/-- `CompilerState.cpp:897-917` `deleteUlamKeyTypeSignature`. -/
def deleteKey (s : State) (k : Key) (u : Nat) : Option State :=
  let d := decrement s k u
  let s1 : State := if d.2 = 0 then { d.1 with types := erase d.1.types k } else d.1
  (typeByIndex s1 nouti).bind fun n =>
    if u < s1.keys.length then some (increment { s1 with keys := s1.keys.set u n.1 } n.1 u) else none

/-- `CompilerState.cpp:2384-2397` `initUTIAlias`. -/
def initAlias (s : State) (u : Nat) : Option State :=
  if u = s.root.length then some { s with root := s.root ++ [u] } else none

/-- `CompilerState.cpp:2367-2383` `updateUTIAliasForced`. -/
def updateAliasForced (s : State) (a b : Nat) : Option State :=
  if a < s.root.length ∧ b < s.root.length then some { s with root := s.root.set a b } else none

/-- `UlamType.cpp:514-517` `UlamType::isComplete`, of a type that is not a class. -/
def complete (k : Key) : Bool := !(decide (k.bits ≤ unknownSize) || decide (k.arraySize = unknownSize))

/-- `CompilerState.cpp:2359-2365` `updateUTIAlias`; `c`: `isComplete(auti)`. -/
def updateAlias (s : State) (c : Bool) (a b : Nat) : Option State := if c then updateAliasForced s a b else some s

/-- `CompilerState.cpp:2324-2351` `findRootUTIAlias`: the number it leaves in its second argument when both are the same variable.
The assertion that a scalar class is its own instance (2337-2342) is left out. `n`: steps left of `MAXCHAIN`. -/
def findRoot (s : State) : Nat → Nat → Option Nat
  | 0, _ => none
  | n + 1, u => (s.root[u]?).bind fun r => if r = u then some u else findRoot s n r

/-- The number and state after a table operation. -/
abbrev Step := Option (State × Nat)

/-- `CompilerState.cpp:648-668`, the end of `makeUlamType`: `key` gets the new number `u`. -/
def enter (s : State) (key : Key) (kind u : Nat) : Step :=
  let s1 := increment { s with keys := s.keys ++ [key], types := insert s.types key kind } key u
  (isDefined s1 key).bind fun _ => (initAlias s1 u).map fun s2 => (s2, u)

/-- `CompilerState.cpp:591-670` `makeUlamType`. A number is 16 bits wide. `template`: what the class symbol table says about the
class instance of the signature: not there, or whether it is a template (`alreadyDefinedSymbolClassNameByUTI`). -/
def makeUlamType (s : State) (key : Key) (kind : Nat) (template : Nat → Option Bool) : Step :=
  if key.bits ≠ unknownSize ∧ key.arraySize ≠ unknownSize ∧ (isDefined s key).isSome then
    (anyDefinedUTI s key).map fun u => (s, u)
  else
    let u := s.keys.length % 65536
    if kind = cls then
      let suti := key.classInstanceIdx
      if key.arraySize ≠ nonArraySize then enter s key kind u
      else if key.referenceType ≠ 0 then enter s key kind u
      else if suti = nouti then enter s { key with classInstanceIdx := u } kind u
      else (template suti).bind fun t =>
        if t then enter s { key with classInstanceIdx := u } kind u else some (s, suti)
    else enter s { key with classInstanceIdx := nouti } kind u

/-- `CompilerState.cpp:551-589` `makeUlamType` from a token that is not the name of a typedef; `key` has the name, sizes, instance
and reference kind given, `dflt` is `ULAMTYPE_DEFAULTBITSIZE` of the kind. -/
def makeFromToken (s : State) (key : Key) (kind : Nat) (dflt : Int) (template : Nat → Option Bool) : Step :=
  let bits := if key.bits = 0 then dflt else key.bits
  let key : Key := { key with bits := bits }
  if (isDefined s key).isNone ∨ bits = unknownSize ∨ key.arraySize = unknownSize then
    (makeUlamType s key kind template).bind fun r => (findRoot r.1 7 r.2).map fun x => (r.1, x)
  else (anyDefinedUTI s key).map fun u => (s, u)

/-- `CompilerState.cpp:268-279` `makeUlamTypeHolder`. -/
def makeHolder (s : State) : Step :=
  let u := s.keys.length % 65536
  (typeByIndex s holder).bind fun h =>
    let s1 := increment s h.1 u
    (initAlias { s1 with keys := s1.keys ++ [h.1] } u).map fun s2 => (s2, u)

/-- Number `u`, with signature `old`, gets signature `new`: the steps common to `makeUlamTypeFromHolder` (359-387), `setUTISizes`
(2160-2176), `setSizesOfNonClassAndArrays` (2472-2485) and `setSizeAsHolderArray` (2516-2529). -/
def rekey (s : State) (old new : Key) (kind u : Nat) : Option State :=
  (deleteKey s old u).bind fun s1 =>
    let s2 : State := if (isDefined s1 new).isNone then { s1 with types := insert s1.types new kind } else s1
    if u < s2.keys.length then some (increment { s2 with keys := s2.keys.set u new } new u) else none

/-- `CompilerState.cpp:281-403` `makeUlamTypeFromHolder`, without the class symbol table (308-356; a class whose symbol is removed
on the way is the operation `forget`; the early return for templates changes nothing here). The number aliased is the least one of
the new signature before this, or itself (363-383). `c`: whether the new type is complete. -/
def makeFromHolder (s : State) (new : Key) (kind u : Nat) (c : Bool) : Step :=
  (keyByIndex s u).bind fun old =>
    if old = new then (isDefined s new).bind fun t => if t = kind then some (s, u) else none
    else
      (deleteKey s old u).bind fun s1 =>
        (if (isDefined s1 new).isNone then some u else anyDefinedUTI s1 new).bind fun a =>
          (rekey s old new kind u).bind fun s2 => (updateAlias s2 c u a).map fun s3 => (s3, u)

/-- `CompilerState.cpp:7718-7721` `okUTItoContinue`, without `isStillHazy`. -/
def okUTI (u : Nat) : Bool := decide (u ≠ nav ∧ u ≠ hzy ∧ u ≠ nouti)

/-- `CompilerState.cpp:446-474` `replaceUTIKeyAndAlias`. -/
def replaceKeyAndAlias (s : State) (old new : Nat) : Step :=
  if okUTI old = true ∧ okUTI new = true then
    (typeByIndex s new).bind fun n => (keyByIndex s old).bind fun k =>
      (deleteKey s k old).bind fun s1 =>
        let s2 := increment s1 n.1 old
        if old < s2.keys.length then (updateAliasForced { s2 with keys := s2.keys.set old n.1 } old new).map fun s3 => (s3, old)
        else none
  else none

/-- `CompilerState.cpp:405-419` `cleanupExistingHolder`; `c`: the new type is complete. `huti` has to be a holder or incomplete
(409), which for a class is not seen here: `hc` says so. -/
def cleanupHolder (s : State) (huti new : Nat) (c hc : Bool) : Step :=
  if huti = new then some (s, huti)
  else (typeByIndex s huti).bind fun h =>
    if (h.2 = holder ∨ complete h.1 = false ∨ (h.2 = cls ∧ hc = true)) ∧ okUTI new = true then
      (typeByIndex s new).bind fun n => (makeFromHolder s n.1 n.2 huti c).bind fun r =>
        (updateAliasForced r.1 huti new).map fun s2 => (s2, huti)
    else none

/-- The new sizes in the signature (2155, 2467, 2511). -/
def resized (k : Key) (bits arr : Int) : Key := { k with bits := bits, arraySize := arr }

/-- The end of the three functions setting sizes: nothing if the signature stays (2157, 2469, 2513), else the new one, and the
alias reset (2178, 2487, 2531). -/
def resize (s : State) (k : Key) (bits arr : Int) (kind u : Nat) : Step :=
  if k = resized k bits arr then some (s, u)
  else (rekey s k (resized k bits arr) kind u).bind fun s1 => (updateAliasForced s1 u u).map fun s2 => (s2, u)

/-- The product (2419-2420) of unsigned 32-bit numbers. -/
def total (bits arr : Int) : Nat := ((if arr < 0 then 1 else arr) * (if bits < 0 then 0 else bits)).toNat % 2 ^ 32

/-- `CompilerState.cpp:2402-2496` `setSizesOfNonClassAndArrays`. Refusals (an error message, `return false`) leave the state; the
result does not tell them apart. `mk`: `makescalarintoarray`. -/
def setSizes (s : State) (u : Nat) (bits arr : Int) (mk : Bool) : Step :=
  (typeByIndex s u).bind fun t =>
    if t.2 = cls ∧ t.1.arraySize = nonArraySize then none
    else if complete t.1 = true ∧ mk = false then some (s, u)
    else if complete t.1 = true ∧ arr = t.1.arraySize then none
    else if t.2 = holder then none
    else if t.2 ≠ cls ∧ (t.1.bits = 0 ∨ bits ≤ 0) then
      if (t.2 ≠ void ∨ bits < 0) ∧ arr < 0 then some (s, u)
      else if t.2 = void ∧ arr ≠ nonArraySize then some (s, u)
      else resize s t.1 bits arr t.2 u
    else if t.2 = void then some (s, u)
    else if total bits arr > 8192 then some (s, u)
    else resize s t.1 bits arr t.2 u

/-- `CompilerState.cpp:2501-2540` `setSizeAsHolderArray`, without the assertion that the type is a holder, which may also be a
class without a name (more is allowed here). -/
def setHolderSize (s : State) (u : Nat) (bits arr : Int) : Step :=
  (typeByIndex s u).bind fun t => resize s t.1 bits arr t.2 u

/-- `CompilerState.cpp:2082-2188` `setUTISizes`, the part for a scalar class. `c`: the class already is complete; the checks of the
total size are those of the class (2098-2150), `fits` is their outcome. -/
def setClassSize (s : State) (u : Nat) (bits arr : Int) (mk c fits : Bool) : Step :=
  if okUTI u = true then
    (typeByIndex s u).bind fun t =>
      if c = true ∧ mk = false then some (s, u)
      else if fits = true then resize s t.1 bits arr cls u
      else some (s, u)
  else some (s, u)

/-- `CompilerState.cpp:3340-3353` `removeIncompleteClassSymbolFromProgramTable`, for the class with number `u`. -/
def forget (s : State) (u : Nat) : Step :=
  (typeByIndex s u).bind fun t => (deleteKey s t.1 u).map fun s1 => (s1, u)

/-- What can be asked of the table. -/
inductive Op
  | make (key : Key) (kind : Nat) (template : Nat → Option Bool)
  | holder
  | fromHolder (new : Key) (kind u : Nat) (c : Bool)
  | replace (old new : Nat)
  | cleanup (huti new : Nat) (c hc : Bool)
  | sizes (u : Nat) (bits arr : Int) (mk : Bool)
  | holderSize (u : Nat) (bits arr : Int)
  | classSize (u : Nat) (bits arr : Int) (mk c fits : Bool)
  | forget (u : Nat)

def step (s : State) : Op → Step
  | .make k t f => makeUlamType s k t f
  | .holder => makeHolder s
  | .fromHolder k t u c => makeFromHolder s k t u c
  | .replace a b => replaceKeyAndAlias s a b
  | .cleanup a b c h => cleanupHolder s a b c h
  | .sizes u b a m => setSizes s u b a m
  | .holderSize u b a => setHolderSize s u b a
  | .classSize u b a m c f => setClassSize s u b a m c f
  | .forget u => forget s u

/-- A history of requests: the state after it. -/
def run (s : State) : List Op → Option State
  | [] => some s
  | o :: os => (step s o).bind fun r => run r.1 os

/-- The signatures and kinds of `Parser.cpp:7156-7276` `initPrimitiveUlamTypes`, in order; `nm` gives the string ids of the names,
by kind (the sizes: include/UlamType.inc; names: "0Nouti", "0Nav", …). -/
def basics (nm : Nat → Nat) : List (Key × Nat) :=
  let k (kind : Nat) (bits : Int) : Key × Nat := (⟨nm kind, bits, nonArraySize, nouti, 0⟩, kind)
  [k 0 0, k 1 unknownSize, k 2 unknownSize, k 3 0, k 4 32, k 5 32, k 6 1, k 7 32, k 8 32, k 9 0, k 10 96, k 11 71,
   k 12 unknownSize, k 13 0, k 14 18,
   (⟨nm 11, 71, nonArraySize, nouti, 2⟩, 11), (⟨nm 10, 96, nonArraySize, nouti, 2⟩, 10), (⟨nm 5, 8, nonArraySize, nouti, 0⟩, 5),
   (⟨nm 4, 64, nonArraySize, nouti, 0⟩, 4), (⟨nm 5, 64, nonArraySize, nouti, 0⟩, 5), (⟨nm 8, 64, nonArraySize, nouti, 0⟩, 8)]

/-- Making them. -/
def basicOps (nm : Nat → Nat) : List Op := (basics nm).map fun p => .make p.1 p.2 fun _ => none

end Ulam.TypeTable
