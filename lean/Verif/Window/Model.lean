/-
Model of the evaluator's event window; /repo/src/ulam/UEventWindow.cpp and
/repo/include/UEventWindow.h.  A site holds a value of any type `α`.  Coordinates are
pairs of s8; the map from coordinates to sites is a list of pairs searched with the
comparison the code gives to std::map.  `none`: an assertion failed.  Site life
flags and element types (which pass through to the value) are left out.
-/
namespace Ulam.Window

/-- `Coord`; UEventWindow.h:59-69. -/
structure Coord where
  x : Int
  y : Int
deriving DecidableEq

/-- `convertCoordToIndex`; UEventWindow.h:65 (a u32). -/
def coordToIndex (c : Coord) : Nat := ((((4 - c.y) * 9 + (4 - c.x)) : Int) % 2 ^ 32).toNat

/-- `convertIndexToCoord`; UEventWindow.h:66.  The first difference is a u32, then both become s8. -/
def indexToCoord (i : Nat) : Coord := ⟨((4 - ((i % 9 : Nat) : Int)) % 2 ^ 32).bmod 256, (4 - ((i / 9 : Nat) : Int)).bmod 256⟩

/-- `less_than_coord`; UEventWindow.h:72-82. -/
def less (a b : Coord) : Bool :=
  if a.x < b.x then true
  else if a.x > b.x then false
  else if a.y < b.y then true
  else false

/-- Keys are the same for std::map when neither is less. -/
def sameKey (a b : Coord) : Bool := !less a b && !less b a

/-- `m_diamondOfSites`. -/
abbrev Sites (α : Type) := List (Coord × α)

/-- `std::map::insert`: nothing happens if the key is there. -/
def insert {α} (m : Sites α) (c : Coord) (s : α) : Sites α := if m.any (fun e => sameKey e.1 c) then m else m ++ [(c, s)]

/-- Numbers `lo` to `hi`. -/
def upto (lo hi : Nat) : List Nat := (List.range (hi + 1)).filter (lo ≤ ·)

/-- The coordinates inserted by the four double loops of `init`; UEventWindow.cpp:24-58. -/
def initCoords : List Coord :=
  (upto 0 4).flatMap (fun i => (upto 0 4).filterMap fun j => if j + i ≤ 4 then some ⟨i, j⟩ else none) ++
  (upto 1 4).flatMap (fun i => (upto 0 4).filterMap fun j => if j + i ≤ 4 then some ⟨-i, j⟩ else none) ++
  (upto 0 4).flatMap (fun i => (upto 1 4).filterMap fun j => if j + i ≤ 4 then some ⟨i, -j⟩ else none) ++
  (upto 1 4).flatMap (fun i => (upto 1 4).filterMap fun j => if j + i ≤ 4 then some ⟨-i, -j⟩ else none)

/-- `init`; UEventWindow.cpp:22-71; `atom` is the value of a fresh site.  The assertion on the number of
sites is `initCoords.length = 1 + 4*4 + 4*3 + 4*2 + 4*1`. -/
def init {α} (atom : α) : Sites α := initCoords.foldl (fun m c => insert m c atom) []

/-- `isValidSite(Coord)`; UEventWindow.cpp:85-88. -/
def isValidCoord (c : Coord) : Bool := decide (c.x + c.y ≥ -4) && decide (c.x + c.y ≤ 4)

/-- `isValidSite(u32, Coord&)`; UEventWindow.cpp:74-83. -/
def isValidSite (i : Nat) : Option Coord :=
  if i < 81 then
    if isValidCoord (indexToCoord i) then some (indexToCoord i) else none
  else none

/-- `getSite`; UEventWindow.cpp:90-100. -/
def getSite {α} (m : Sites α) (c : Coord) : Option α := (m.find? fun e => sameKey e.1 c).map (·.2)

/-- `loadAtomFromSite`; UEventWindow.cpp:144-154; `nothing` is `UlamValue()`. -/
def load {α} (nothing : α) (m : Sites α) (i : Nat) : Option α :=
  (isValidSite i).map fun c => (getSite m c).getD nothing

/-- `storeAtomIntoSite(Coord)`; UEventWindow.cpp:163-174. -/
def storeCoord {α} (m : Sites α) (c : Coord) (v : α) : Bool × Sites α :=
  match getSite m c with
  | some _ => (true, m.map fun e => if sameKey e.1 c then (e.1, v) else e)
  | none => (false, m)

/-- `storeAtomIntoSite(u32)`; UEventWindow.cpp:156-161. -/
def store {α} (m : Sites α) (i : Nat) (v : α) : Option (Bool × Sites α) := (isValidSite i).map fun c => storeCoord m c v

/-- Several stores. -/
def stores {α} (m : Sites α) : List (Nat × α) → Option (Sites α)
  | [] => some m
  | (i, v) :: ops =>
    match store m i v with
    | some (_, m') => stores m' ops
    | none => none

end Ulam.Window
