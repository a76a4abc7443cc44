/-
Model of packed arrays in the evaluator: several items in the bits of one value.

/repo/src/ulam/UlamValue.cpp:149-233 (makePtr, makeScalarPtr), 287-320 (getValAt), 506-515
(incrementPtr), 579-632 (getPackedArrayDataFromAtom), 859-984 (putDataIntoAtom,
putPackedArrayDataIntoAtom, getData, putData); /repo/src/ulam/UlamType.cpp:756-768
(getPackable); /repo/src/ulam/CallStack.cpp:110-170 (assignUlamValue);
/repo/src/ulam/UEventWindow.cpp:175-203 (assignUlamValue);
/repo/src/ulam/NodeSquareBracket.cpp:597-653 and 724-765 (subscripts).

The bit vector of MFM (Read, Write, ReadLong, WriteLong) is not in the repository; it is
taken to read and write big-endian numbers of at most 32 (64) bits inside of 96 bits.
`none` is a failed assertion or an abort.  Left out: types of values and their
comparison, references, atoms, unpacked arrays, custom arrays, and values of type Nouti.
-/
namespace Ulam.Packed

/-- The 96 bits of a value, by position. -/
abbrev Bits := Nat → Bool

/-- Reading a number, first bit most significant (external). -/
def readBits (b : Bits) (pos : Nat) : Nat → Nat
  | 0 => 0
  | len + 1 => 2 * readBits b pos len + (b (pos + len)).toNat

/-- Writing the low `len` bits of a number (external). -/
def writeBits (b : Bits) (pos len v : Nat) : Bits :=
  fun i => if pos ≤ i ∧ i < pos + len then v.testBit (pos + len - 1 - i) else b i

/-- `getData`; UlamValue.cpp:962-967. -/
def getData (b : Bits) (pos len : Nat) : Option Nat :=
  if len ≤ 32 ∧ pos + len ≤ 96 then some (readBits b pos len) else none

/-- `getDataLong`; UlamValue.cpp:969-974. -/
def getDataLong (b : Bits) (pos len : Nat) : Option Nat :=
  if len ≤ 64 ∧ pos + len ≤ 96 then some (readBits b pos len) else none

/-- `putData`; UlamValue.cpp:987-993. -/
def putData (b : Bits) (pos len v : Nat) : Option Bits :=
  if len ≤ 32 ∧ pos + len ≤ 96 then some (writeBits b pos len v) else none

/-- `putDataLong`; UlamValue.cpp:995-1002. -/
def putDataLong (b : Bits) (pos len v : Nat) : Option Bits :=
  if len ≤ 64 ∧ pos + len ≤ 96 then some (writeBits b pos len v) else none

/-- `PACKFIT`; Constants.h:124. -/
inductive Pack where
  | unpacked | packed | loadable
deriving DecidableEq

/-- An array type: bit size of an item, number of items, and whether the items are classes (quarks). -/
structure Ty where
  bits : Nat
  n : Nat
  cls : Bool
deriving DecidableEq

/-- `getPackable`; UlamType.cpp:756-768. -/
def packable (total : Nat) : Pack := if total ≤ 64 then .loadable else if total ≤ 71 then .packed else .unpacked

/-- A pointer: position and length in the value, the packedness recorded in it, and whether its target
type is scalar. -/
structure Ptr where
  pos : Nat
  len : Nat
  pack : Pack
  scalar : Bool
deriving DecidableEq

/-- `makePtr`, for a packed target; UlamValue.cpp:166-225.  The replacement of the length by the base class
size (line 205) is left out. -/
def makePtr (cls scalar : Bool) (len : Nat) (pack : Pack) (pos : Nat) : Option Ptr :=
  if pos = 0 then
    if cls then some ⟨25, len, pack, scalar⟩
    else if len ≤ 96 then some ⟨96 - len, len, pack, scalar⟩ else none
  else if pos + len ≤ 96 then some ⟨pos, len, pack, scalar⟩ else none

/-- The pointer to a whole array. -/
def arrayPtr (t : Ty) (pos : Nat) : Option Ptr := makePtr t.cls false (t.bits * t.n) (packable (t.bits * t.n)) pos

/-- `makeScalarPtr`; UlamValue.cpp:229-242: the packedness is that of the array. -/
def scalarPtr (t : Ty) (p : Ptr) : Option Ptr := makePtr t.cls true t.bits (packable (t.bits * t.n)) p.pos

/-- `incrementPtr` of a packed pointer; UlamValue.cpp:506-515.  The position is a u8. -/
def increment (p : Ptr) (offset : Int) : Ptr × Bool :=
  let pos := (((p.pos : Int) + p.len * offset) % 256).toNat
  ({ p with pos := pos }, decide (pos < 96))

/-- An item read at a pointer: by u32 or u64; UlamValue.cpp:313-326. -/
def getAt (b : Bits) (q : Ptr) : Option Nat :=
  if q.len ≤ 32 then getData b q.pos q.len else if q.len ≤ 64 then getDataLong b q.pos q.len else none

/-- `getValAt`; UlamValue.cpp:287-337. -/
def getValAt (t : Ty) (p : Ptr) (b : Bits) (offset : Int) : Option Nat :=
  (scalarPtr t p).bind fun q =>
    let r := increment q offset
    if r.2 then getAt b r.1 else none

/-- What happens at a subscript. -/
inductive Sub (β : Type) where
  | refused
  | ok (x : β)
  | abort
deriving DecidableEq

/-- Reading `a[offset]`; NodeSquareBracket.cpp:613-650. -/
def readSub (t : Ty) (p : Ptr) (b : Bits) (offset : Int) : Sub Nat :=
  if offset ≥ t.n then .refused
  else
    match getValAt t p b offset with
    | some v => .ok v
    | none => .abort

/-- Finding the place of `a[offset]` to store into; NodeSquareBracket.cpp:738-762. -/
def storeSub (t : Ty) (p : Ptr) (offset : Int) : Sub Ptr :=
  match scalarPtr t p with
  | none => .abort
  | some q =>
    let r := increment q offset
    if r.2 then .ok r.1 else .refused

/-- `getImmediateData(Long)`: primitives are right-justified, classes start at bit 25;
UlamValue.cpp:765-800, 814-858. -/
def immPos (cls : Bool) (len : Nat) : Nat := if cls then 25 else 96 - len

/-- The scalar parts of `putDataIntoAtom`; UlamValue.cpp:876-930.  Lengths 65 to 71 are for classes without
array and are left out. -/
def putItem (cls : Bool) (q : Ptr) (data b : Bits) : Option Bits :=
  if q.len ≤ 32 then (getData data (immPos cls q.len) q.len).bind (putData b q.pos q.len)
  else if q.len ≤ 64 then (getDataLong data (immPos cls q.len) q.len).bind (putDataLong b q.pos q.len)
  else none

/-- Position of item `i` in right-justified array data; UlamValue.cpp:624, 948. -/
def rjPos (t : Ty) (i : Nat) : Nat := 96 - t.bits * (t.n - i)

/-- The loop of `putPackedArrayDataIntoAtom`; UlamValue.cpp:941-958, `k` items to go. -/
def putLoop (t : Ty) (data : Bits) : Nat → Ptr → Bits → Option Bits
  | 0, _, b => some b
  | k + 1, q, b =>
    let i := t.n - (k + 1)
    let b' :=
      if t.bits ≤ 32 then (getData data (rjPos t i) t.bits).bind (putData b q.pos q.len)
      else if t.bits ≤ 64 then (getDataLong data (rjPos t i) t.bits).bind (putDataLong b q.pos q.len)
      else some b
    b'.bind fun b => putLoop t data k (increment q 1).1 b

/-- `putPackedArrayDataIntoAtom`; UlamValue.cpp:933-960. -/
def putArray (t : Ty) (p : Ptr) (data b : Bits) : Option Bits :=
  (scalarPtr t p).bind fun q => putLoop t data t.n q b

/-- `putDataIntoAtom`; UlamValue.cpp:859-931. -/
def putDataIntoAtom (t : Ty) (p : Ptr) (data b : Bits) : Option Bits :=
  match p.pack with
  | .unpacked => none
  | .packed => if p.scalar then putItem t.cls p data b else putArray t p data b
  | .loadable => putItem t.cls p data b

/-- `CallStack::assignUlamValue` into the bits of the slot; CallStack.cpp:110-172. -/
def stackAssign (t : Ty) (p : Ptr) (data b : Bits) : Option Bits :=
  match p.pack with
  | .unpacked => some data
  | .packed => if p.scalar then some data else putDataIntoAtom t p data b
  | .loadable => putDataIntoAtom t p data b

/-- `UEventWindow::assignUlamValue` into the bits of the site; UEventWindow.cpp:176-206. -/
def windowAssign (t : Ty) (p : Ptr) (data b : Bits) : Option Bits :=
  match p.pack with
  | .unpacked => some data
  | _ => putDataIntoAtom t p data b

/-- The loop of `getPackedArrayDataFromAtom`; UlamValue.cpp:612-631.  `total` is the length of the array. -/
def getLoop (t : Ty) (total : Nat) (data : Bits) : Nat → Ptr → Bits → Option Bits
  | 0, _, r => some r
  | k + 1, q, r =>
    let i := t.n - (k + 1)
    let r' :=
      if q.len ≤ 32 then (getData data q.pos q.len).bind (putData r (rjPos t i) t.bits)
      else if total ≤ 64 then (getDataLong data q.pos q.len).bind (putDataLong r (rjPos t i) t.bits)
      else none
    r'.bind fun r => getLoop t total data k (increment q 1).1 r

/-- `getPackedArrayDataFromAtom`; UlamValue.cpp:579-632, the result starting as zeros. -/
def getArray (t : Ty) (p : Ptr) (data : Bits) : Option Bits :=
  let zero : Bits := fun _ => false
  match p.pack with
  | .loadable =>
    if p.len ≤ 32 then (getData data p.pos p.len).bind (putData zero (96 - p.len) p.len)
    else if p.len ≤ 64 then (getDataLong data p.pos p.len).bind (putDataLong zero (96 - p.len) p.len)
    else none
  | .packed => (scalarPtr t p).bind fun q => getLoop t p.len data t.n q zero
  | .unpacked => none

/-- The copy of a packed array out of a class that holds it as a member, into a variable on the stack;
`assignArrayValues`, CompilerState.cpp:6316-6331, then `assignValue`. -/
def copyArray (t : Ty) (lp rp : Ptr) (src dst : Bits) : Option Bits :=
  (getArray t rp src).bind fun d => stackAssign t lp d dst

end Ulam.Packed
