import Mathlib.Tactic.Linarith
import Mathlib.Tactic.Ring
/-
Model of small classes of /repo/share/ulam: ColorUtils.ulam, EventWindowBuffer.ulam, C2D.inc (stdlib), Telomere.ulam (misc).

Numbers: a cast to `Unsigned(b)` or `Int(b)` clamps (CastOps.h of the MFM library). Sums and products are exact here, because their
results fit the sizes that C02 gives them, unless clamping is written.
-/
namespace Ulam.Stdlib

/-- Clamping to `Unsigned(b)` and `Int(b)`. -/
def satU (b : Nat) (x : Nat) : Nat := min x (2 ^ b - 1)
def satI (b : Nat) (x : Int) : Int := max (-2 ^ (b - 1)) (min x (2 ^ (b - 1) - 1))

/-! ### ColorUtils.ulam -/

/-- `ARGB`: four channels; ColorUtils.ulam:4-6. -/
structure Color where
  alpha : Nat
  red : Nat
  green : Nat
  blue : Nat
  deriving DecidableEq, Repr

/-- `color(Bits)`; ColorUtils.ulam:16-23. -/
def ofHex (hex : Nat) : Color :=
  ⟨satU 8 (hex / 2 ^ 24 % 256), satU 8 (hex / 2 ^ 16 % 256), satU 8 (hex / 2 ^ 8 % 256), satU 8 (hex % 256)⟩

/-- `color(Byte, Byte, Byte)`; ColorUtils.ulam:24-31. -/
def ofRgb (red green blue : Nat) : Color := ⟨0xff, satU 8 (red % 256), satU 8 (green % 256), satU 8 (blue % 256)⟩

/-- One channel of `between`; ColorUtils.ulam:55-57. -/
def mix (this that percentOfThis : Nat) : Nat := satU 8 ((this * percentOfThis + that * (100 - percentOfThis)) / 100)

/-- `between`; ColorUtils.ulam:51-60. -/
def between (this that : Color) (percentOfThis : Nat) : Color :=
  let p := if percentOfThis > 100 then 100 else percentOfThis
  { this with red := mix this.red that.red p, green := mix this.green that.green p, blue := mix this.blue that.blue p }

/-- `modify`; ColorUtils.ulam:33-34. -/
def modify (this : Color) (percent : Nat) : Color := between (ofRgb 255 255 255) this percent

/-- One channel of `brighter`; ColorUtils.ulam:75-76. -/
def brighterChannel (c : Nat) : Nat := satU 8 (100 * (if c < 3 then 3 else c) / 70)

/-- `brighter`; ColorUtils.ulam:70-80. -/
def brighter (than : Color) : Color :=
  if than.red = 0 ∧ than.green = 0 ∧ than.blue = 0 then ofHex 0x030303
  else ⟨0xff, brighterChannel than.red, brighterChannel than.green, brighterChannel than.blue⟩

/-- `dimmer`; ColorUtils.ulam:85-90. -/
def dimmer (than : Color) : Color :=
  ⟨0xff, satU 8 (70 * than.red / 100), satU 8 (70 * than.green / 100), satU 8 (70 * than.blue / 100)⟩

/-! ### EventWindowBuffer.ulam -/

/-- The event window: the atom of each place, the places that can be used (native `aref` fails elsewhere), the current symmetry, which
takes a site number to a place, and the atom of the base layer. -/
structure Window (α : Type) where
  place : Nat → α
  usable : Nat → Bool
  sym : Nat → Nat
  base : α

/-- The fields of EventWindowBuffer.ulam:4-9 (`mRadiusSaved` is never used). -/
structure Buffer (α : Type) where
  site : Nat → α
  base : α
  radius : Nat
  eventStored : Bool
  baseStored : Bool

variable {α : Type}

/-- `MDist.getLastIndex`, native: the last site number within Manhattan distance `rad` of the center. -/
def lastIndex (rad : Nat) : Nat := 2 * rad * (rad + 1)

/-- The loop of `save`; EventWindowBuffer.ulam:33-36: `n` rounds from site `i` on. A failing access is `none`. -/
def saveLoop (w : Window α) : Nat → Nat → (Nat → α) → Option (Nat → α)
  | 0, _, buf => some buf
  | n + 1, i, buf =>
    if w.usable (w.sym i) && decide (i < 41) then saveLoop w n (i + 1) fun j => if j = i then w.place (w.sym i) else buf j else none

/-- `save(Bool, Bool, EWRadius)`; EventWindowBuffer.ulam:16-39. -/
def save (w : Window α) (b : Buffer α) (eventLayer baseLayer : Bool) (rad : Nat) : Option (Buffer α) :=
  let b := { b with eventStored := eventLayer, baseStored := baseLayer, radius := rad }
  (if b.eventStored then saveLoop w (lastIndex b.radius + 1) 0 b.site else some b.site).map fun s =>
    { b with site := s, base := if b.baseStored then w.base else b.base }

/-- The loop of `restore`; EventWindowBuffer.ulam:56-59. -/
def restoreLoop (b : Buffer α) : Nat → Nat → Window α → Option (Window α)
  | 0, _, w => some w
  | n + 1, i, w =>
    if w.usable (w.sym i) && decide (i < 41) then
      restoreLoop b n (i + 1) { w with place := fun j => if j = w.sym i then b.site i else w.place j }
    else none

/-- `restore`; EventWindowBuffer.ulam:41-62. -/
def restore (w : Window α) (b : Buffer α) : Option (Window α) :=
  (if b.eventStored then restoreLoop b (lastIndex b.radius + 1) 0 w else some w).map fun w =>
    { w with base := if b.baseStored then b.base else w.base }

/-! ### C2D.inc, with `Coord` being `Int(16)` (C2D.ulam:10-15) -/

/-- A point. -/
structure Point where
  x : Int
  y : Int
  deriving DecidableEq, Repr

namespace Point

/-- `make`; C2D.inc:64-69, with `set` at 18-21. -/
def make (x y : Int) : Point := ⟨satI 16 x, satI 16 y⟩

/-- `max`, also `|`; C2D.inc:83-91. -/
def max (self other : Point) : Point := ⟨if other.x < self.x then self.x else other.x, if other.y < self.y then self.y else other.y⟩

/-- `min`, also `&`; C2D.inc:98-106. -/
def min (self other : Point) : Point := ⟨if other.x > self.x then self.x else other.x, if other.y > self.y then self.y else other.y⟩

/-- `clamp`; C2D.inc:54-56. -/
def clamp (self below above : Point) : Point := (self.max below).min above

/-- `contains`; C2D.inc:131-139. -/
def contains (self other : Point) : Bool :=
  if other.x < 0 ∨ other.x ≥ self.x then false else if other.y < 0 ∨ other.y ≥ self.y then false else true

/-- `add`, `subtract`, `negate`; C2D.inc:168-194. -/
def add (self other : Point) : Point := make (satI 16 (self.x + other.x)) (satI 16 (self.y + other.y))
def sub (self other : Point) : Point := make (satI 16 (self.x - other.x)) (satI 16 (self.y - other.y))
def neg (self : Point) : Point := make (satI 16 (-self.x)) (satI 16 (-self.y))

/-- `dot`; C2D.inc:141-143: the products have 32 bits, and so has the sum. -/
def dot (self other : Point) : Int := satI 32 (self.x * other.x + self.y * other.y)

/-- `abs`; C2D.inc:241-249. -/
def abs (p : Point) : Point := ⟨if p.x < 0 then satI 16 (-p.x) else p.x, if p.y < 0 then satI 16 (-p.y) else p.y⟩

/-- `absDiff`; C2D.inc:256-260. -/
def absDiff (a b : Point) : Point :=
  ⟨satI 16 (if a.x ≥ b.x then a.x - b.x else b.x - a.x), satI 16 (if a.y ≥ b.y then a.y - b.y else b.y - a.y)⟩

/-- `(Unsigned)` of an Int: negative numbers become 0. -/
def toUnsigned (x : Int) : Nat := x.toNat

/-- `manhattanDistance`; C2D.inc:267-270. -/
def manhattanDistance (self other : Point) : Nat := let a := absDiff self other; toUnsigned (a.x + a.y)

/-- `length`; C2D.inc:232-235. -/
def length (self : Point) : Nat := manhattanDistance ⟨0, 0⟩ self

/-- `area`; C2D.inc:262-265. -/
def area (self : Point) : Nat := let a := self.abs; toUnsigned (a.x * a.y)

/-- `euclideanSquaredLength`, `euclideanSquaredDistance`; C2D.inc:275-285. -/
def squaredLength (self : Point) : Nat := toUnsigned (self.dot self)
def squaredDistance (self other : Point) : Nat := (self.sub other).squaredLength

/-- `neighbor`; C2D.inc:207-216. -/
def neighbor (d : Nat) : Point :=
  if d = 0 then make 0 1 else if d = 1 then make 1 1 else if d = 2 then make 1 0 else if d = 3 then make 1 (-1)
  else if d = 4 then make 0 (-1) else if d = 5 then make (-1) (-1) else if d = 6 then make (-1) 0 else make (-1) 1

/-- `corner`; C2D.inc:221-230. -/
def corner (d : Nat) : Point :=
  if d = 0 then make 0 4 else if d = 1 then make 2 2 else if d = 2 then make 4 0 else if d = 3 then make 2 (-2)
  else if d = 4 then make 0 (-4) else if d = 5 then make (-2) (-2) else if d = 6 then make (-4) 0 else make (-2) 2

/-- `takey`, `takex`, `take`; C2D.inc:287-299. -/
def takey (self fromother : Point) : Point := { fromother with x := self.x }
def takex (self fromother : Point) : Point := { fromother with y := self.y }
def take (self fromx fromy : Point) : Point := (self.takex fromx).takey fromy

end Point

/-! ### Telomere.ulam -/

/-- A site: not there, empty, something else, or a member of the colony with its age. -/
inductive Site
  | dead
  | empty
  | other
  | cell (age : Nat)
  deriving DecidableEq, Repr

/-- `dup`, called by the member at `i` with the site `j`; Telomere.ulam:32-40. The answer is that of `dup`; `none` if there is no member
at `i`. -/
def dup (width : Nat) (w : List Site) (i j : Nat) : Option (List Site × Bool) :=
  match w[i]? with
  | some (.cell age) =>
    if age < 2 ^ width - 1 then
      if w[j]? = none ∨ w[j]? = some .dead then some (w, false)
      else if w[j]? ≠ some .empty then some (w, false)
      else
        let w := w.set i (.cell (satU width (age + 1)))
        some (w.set j (.cell (satU width (age + 1))), true)
    else some (w, true)
  | _ => none

end Ulam.Stdlib
