/-!
# Storage of bits, latches and angles (model)

`BitStorage.ulam` (checksums), `Once.ulam` and `MDist.ulam` (angles and roots) of /repo/share/ulam/stdlib.

Simplifications. The native functions are in the MFM library: `read` and `write` are what their comments say, the checksum is any
function of the bits it is taken of, and the shift `>>` of the generated code is a parameter, as are the coordinates of a site
(`getSiteCoord`). A function that fails is `none`. The arithmetic is that of C05 (`Unsigned` saturates).
-/
namespace Ulam.Storage

/-! ### BitStorage.ulam -/

/-- The number of some bits, the first being the leftmost. -/
def number : List Bool → Nat → Nat
  | [], v => v
  | b :: l, v => number l (2 * v + b.toNat)

/-- The rightmost `len` bits of a number. -/
def bits (v : Nat) : Nat → List Bool
  | 0 => []
  | len + 1 => v.testBit len :: bits v len

/-- `write`; BitStorage.ulam:15-23, native. -/
def write (s : List Bool) (val pos len : Nat) : Option (List Bool) :=
  if len > 64 ∨ pos + len > s.length then none else some (s.take pos ++ bits val len ++ s.drop (pos + len))

/-- `read`; BitStorage.ulam:25-34, native. -/
def read (s : List Bool) (pos len : Nat) : Option Nat :=
  if len > 64 ∨ pos + len > s.length then none else some (number ((s.drop pos).take len) 0)

/-- `computeChecksum`; BitStorage.ulam:36-46, native. -/
def computeChecksum (crc : List Bool → Nat) (s : List Bool) (len : Nat) : Option Nat :=
  if len > s.length then none else some (crc (s.take len))

/-- `isChecksumValid`; BitStorage.ulam:59-64. -/
def isChecksumValid (crc : List Bool → Nat) (shr : Nat → Nat → Nat) (s : List Bool) (len chkbits : Nat) : Option Bool :=
  (computeChecksum crc s len).bind fun computed => (read s len chkbits).map fun stored =>
    (computed &&& shr (2 ^ 32 - 1) (32 - chkbits)) == stored % 2 ^ 32

/-- `updateChecksum`; BitStorage.ulam:90-95: the answer and the storage after; `usable` is what `usableStorageLength()` returns. -/
def updateChecksum (crc : List Bool → Nat) (usable : Nat) (s : List Bool) (len chkbits : Nat) : Option (Bool × List Bool) :=
  if min (len + chkbits) (2 ^ 32 - 1) > usable then some (false, s)
  else (computeChecksum crc s len).bind fun computed => (write s computed len chkbits).map fun t => (true, t)

/-! ### Once.ulam -/

/-- `Bool(n)` is true if more of its bits are set than not. -/
def isTrue (done : List Bool) : Bool := done.count true > done.count false

/-- The width; Once.ulam:12-14. -/
def width (bitpairs : Nat) : Nat := 2 * bitpairs + 1

/-- `initted`; Once.ulam:20. -/
def initted (done : List Bool) : Bool × List Bool := (isTrue done, done)

/-- `new`; Once.ulam:29-32. -/
def new (bitpairs : Nat) (done : List Bool) : Bool × List Bool :=
  if isTrue done then (false, done) else (true, List.replicate (width bitpairs) true)

/-- `reset`; Once.ulam:40-44. -/
def reset (bitpairs : Nat) (done : List Bool) : Bool × List Bool := (isTrue done, List.replicate (width bitpairs) false)

/-- What may happen to a latch: a call, or that a bit is flipped by an accident. -/
inductive Event | initted | new | reset | flip (i : Nat)

/-- What an event returns, for calls, and what it leaves. -/
def happen (bitpairs : Nat) : Event → List Bool → Option Bool × List Bool
  | .initted, d => let r := initted d; (some r.1, r.2)
  | .new, d => let r := new bitpairs d; (some r.1, r.2)
  | .reset, d => let r := reset bitpairs d; (some r.1, r.2)
  | .flip i, d => (none, d.modify i not)

/-- The answers of the calls. -/
def run (bitpairs : Nat) : List Event → List Bool → List Bool
  | [], _ => []
  | e :: l, d => (happen bitpairs e d).1.toList ++ run bitpairs l (happen bitpairs e d).2

/-! ### MDist.ulam -/

/-- `cSiteNumsToAngleArray`; MDist.ulam:11-53. Of its 40 strings the last is not given, and is empty. -/
def angles : List (List Nat) :=
  [[90],
   [90, 180],
   [180, 90, 90],
   [45, 45, 135, 135],
   [45, 135, 45, 135, 90],
   [135, 45, 135, 45, 90, 179],
   [135, 135, 45, 45, 179, 90, 90],
   [0, 90, 90, 180, 45, 45, 135, 135],
   [90, 0, 180, 90, 45, 135, 45, 135, 90],
   [90, 180, 0, 90, 135, 45, 135, 45, 90, 180],
   [180, 90, 90, 0, 135, 135, 45, 45, 180, 90, 90],
   [26, 63, 116, 153, 18, 71, 108, 161, 26, 63, 116, 153],
   [26, 116, 63, 153, 71, 18, 161, 108, 26, 116, 63, 153, 53],
   [63, 26, 153, 116, 18, 108, 71, 161, 63, 26, 153, 116, 36, 90],
   [63, 153, 26, 116, 108, 18, 161, 71, 63, 153, 26, 116, 90, 36, 126],
   [116, 26, 153, 63, 71, 161, 18, 108, 116, 26, 153, 63, 90, 143, 53, 179],
   [116, 153, 26, 63, 161, 71, 108, 18, 116, 153, 26, 63, 143, 90, 179, 53, 126],
   [153, 63, 116, 26, 108, 161, 18, 71, 153, 63, 116, 26, 126, 179, 90, 143, 36, 90],
   [153, 116, 63, 26, 161, 108, 71, 18, 153, 116, 63, 26, 179, 126, 143, 90, 90, 36, 53],
   [0, 90, 90, 180, 45, 45, 135, 135, 0, 90, 90, 180, 26, 26, 63, 63, 116, 116, 153, 153],
   [90, 0, 180, 90, 45, 135, 45, 135, 90, 0, 180, 90, 63, 116, 26, 153, 26, 153, 63, 116, 90],
   [90, 180, 0, 90, 135, 45, 135, 45, 90, 180, 0, 90, 116, 63, 153, 26, 153, 26, 116, 63, 90, 180],
   [180, 90, 90, 0, 135, 135, 45, 45, 180, 90, 90, 0, 153, 153, 116, 116, 63, 63, 26, 26, 180, 90, 90],
   [45, 45, 135, 135, 0, 90, 90, 179, 45, 45, 135, 135, 18, 71, 18, 108, 71, 161, 108, 161, 45, 45, 135, 135],
   [45, 135, 45, 135, 90, 0, 179, 90, 45, 135, 45, 135, 71, 18, 108, 18, 161, 71, 161, 108, 45, 135, 45, 135, 90],
   [135, 45, 135, 45, 90, 179, 0, 90, 135, 45, 135, 45, 108, 161, 71, 161, 18, 108, 18, 71, 135, 45, 135, 45, 90, 179],
   [135, 135, 45, 45, 179, 90, 90, 0, 135, 135, 45, 45, 161, 108, 161, 71, 108, 18, 71, 18, 135, 135, 45, 45, 179, 90, 90],
   [18, 71, 108, 161, 26, 63, 116, 153, 18, 71, 108, 161, 8, 45, 45, 81, 98, 135, 135, 171, 18, 71, 108, 161, 26, 63, 116, 153],
   [18, 108, 71, 161, 63, 26, 153, 116, 18, 108, 71, 161, 45, 8, 81, 45, 135, 98, 171, 135, 18, 108, 71, 161, 63, 26, 153, 116,
     36],
   [71, 18, 161, 108, 26, 116, 63, 153, 71, 18, 161, 108, 45, 98, 8, 135, 45, 171, 81, 135, 71, 18, 161, 108, 26, 116, 63, 153,
     53, 90],
   [71, 161, 18, 108, 116, 26, 153, 63, 71, 161, 18, 108, 98, 45, 135, 8, 171, 45, 135, 81, 71, 161, 18, 108, 116, 26, 153, 63,
     90, 53, 143],
   [108, 18, 161, 71, 63, 153, 26, 116, 108, 18, 161, 71, 81, 135, 45, 171, 8, 135, 45, 98, 108, 18, 161, 71, 63, 153, 26, 116,
     90, 126, 36, 179],
   [108, 161, 18, 71, 153, 63, 116, 26, 108, 161, 18, 71, 135, 81, 171, 45, 135, 8, 98, 45, 108, 161, 18, 71, 153, 63, 116, 26,
     126, 90, 179, 36, 143],
   [161, 71, 108, 18, 116, 153, 26, 63, 161, 71, 108, 18, 135, 171, 98, 135, 45, 81, 8, 45, 161, 71, 108, 18, 116, 153, 26, 63,
     143, 179, 90, 126, 53, 90],
   [161, 108, 71, 18, 153, 116, 63, 26, 161, 108, 71, 18, 171, 135, 135, 98, 81, 45, 45, 8, 161, 108, 71, 18, 153, 116, 63, 26,
     179, 143, 126, 90, 90, 53, 36],
   [0, 90, 90, 180, 45, 45, 135, 135, 0, 90, 90, 180, 26, 26, 63, 63, 116, 116, 153, 153, 0, 90, 90, 180, 45, 45, 135, 135, 18,
     18, 71, 71, 108, 108, 161, 161],
   [90, 0, 180, 90, 45, 135, 45, 135, 90, 0, 180, 90, 63, 116, 26, 153, 26, 153, 63, 116, 90, 0, 180, 90, 45, 135, 45, 135, 71,
     108, 18, 161, 18, 161, 71, 108, 90],
   [90, 180, 0, 90, 135, 45, 135, 45, 90, 180, 0, 90, 116, 63, 153, 26, 153, 26, 116, 63, 90, 180, 0, 90, 135, 45, 135, 45, 108,
      71, 161, 18, 161, 18, 108, 71, 90, 180],
   [180, 90, 90, 0, 135, 135, 45, 45, 180, 90, 90, 0, 153, 153, 116, 116, 63, 63, 26, 26, 180, 90, 90, 0, 135, 135, 45, 45, 161,
      161, 108, 108, 71, 71, 18, 18, 180, 90, 90],
   []]

/-- `cUnsigned6To32TimesSqrt`; MDist.ulam:55-56. -/
def roots : List Nat :=
  [0, 32, 45, 55, 64, 71, 78, 84, 90, 96, 101, 106, 110, 115, 119, 123,
   128, 131, 135, 139, 143, 146, 150, 153, 156, 160, 163, 166, 169, 172, 175, 178,
   181, 183, 186, 189, 192, 194, 197, 199, 202, 204, 207, 209, 212, 214, 217, 219,
   221, 224, 226, 228, 230, 232, 235, 237, 239, 241, 243, 245, 247, 249, 251, 253]

/-- An item of a string of an array, `none` if there is none. -/
def item (l : List (List Nat)) (i j : Nat) : Option Nat := (l[i]?).bind fun s => s[j]?

/-- `acuteAngle`; MDist.ulam:110-115. -/
def acuteAngle (s1 s2 : Nat) : Option Nat :=
  if s1 = s2 then some 0
  else if s1 < s2 then (if s1 = 0 then some 0 else item angles (s2 - 2) (s1 - 1))
  else if s2 = 0 then some 0 else item angles (s1 - 2) (s2 - 1)

/-- `angleCW`; MDist.ulam:117-124. -/
def angleCW (coord : Nat → Int × Int) (s1 s2 : Nat) : Option Nat :=
  (acuteAngle s1 s2).map fun acute =>
    if (coord s1).1 * (coord s2).2 - (coord s1).2 * (coord s2).1 < 0 then 360 - acute else acute

/-- `sqrt32`; MDist.ulam:128-130. -/
def sqrt32 (x : Nat) : Option Nat := roots[x]?

end Ulam.Storage
