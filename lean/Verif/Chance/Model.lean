import Verif.Chance.Rand
/-
Model of the random services of /repo/share/ulam: Random.ulam, WindowServices.ulam, WindowScanner.ulam, XTimer.ulam, RXTimer.ulam (stdlib)
and SelectorServices.ulam (misc). A failing element is `Rand.fail`.

Numbers: a cast or an assignment to `Unsigned(b)` or `Int(b)` clamps (CastOps.h of the MFM library), as do sums and differences, at the
size C02 gives them, 32 bits here.
-/
namespace Ulam.Chance

/-- Clamping to `Unsigned(b)`. -/
def satU (b : Nat) (x : Nat) : Nat := min x (2 ^ b - 1)

/-- Clamping to `Int(b)`. -/
def satI (b : Nat) (x : Int) : Int := max (-2 ^ (b - 1)) (min x (2 ^ (b - 1) - 1))

/-! ### Random.ulam -/

/-- `create(Unsigned)`, native; Random.ulam:20. -/
def create (max : Nat) : Rand Nat := if max = 0 then .fail else .draw max .done

/-- `create(Int)`; Random.ulam:21-24. -/
def createInt (max : Int) : Rand Nat := if max ≤ 0 then .done 0 else create max.toNat

/-- Lines 32 of `between`, for `lo ≤ hi`. -/
def betweenOrdered (lo hi : Int) : Rand Int :=
  (createInt (satI 32 (satI 32 (hi - lo) + 1))).bind fun r => .done (satI 32 (lo + satI 32 r))

/-- `between`; Random.ulam:26-33. -/
def between (lo hi : Int) : Rand Int := if lo > hi then betweenOrdered hi lo else betweenOrdered lo hi

/-- `oddsOf(Unsigned, Unsigned)`; Random.ulam:35-37. -/
def oddsOf (thisMany outOf : Nat) : Rand Bool := (create outOf).bind fun r => .done (decide (r < thisMany))

/-- `oddsOf(Int, Int)`; Random.ulam:38-40. -/
def oddsOfInt (thisMany outOf : Int) : Rand Bool := (createInt outOf).bind fun r => .done (decide (satI 32 r < thisMany))

/-- `oneIn`; Random.ulam:42. -/
def oneIn (odds : Nat) : Rand Bool := oddsOf 1 odds

/-! ### WindowServices.ulam -/

/-- The fields of WindowServices.ulam:51-55 that matter; the arrays are functions of the slot. -/
structure Services where
  current : Nat
  hitCount : Nat → Nat
  chosen : Nat → Nat

/-- `f[i] = x`. -/
def put {β : Type} (f : Nat → β) (i : Nat) (x : β) : Nat → β := fun j => if j = i then x else f j

/-- `reset()`; WindowServices.ulam:68-74. -/
def resetServices (_ : Services) : Services := ⟨63, fun _ => 0, fun _ => 0⟩

/-- `hit(Slot, Unsigned)`; WindowServices.ulam:137-144. -/
def hit (s : Services) (slot weight : Nat) : Rand (Services × Bool) :=
  let s := { s with hitCount := put s.hitCount slot (satU 8 (satU 32 (s.hitCount slot + weight))) }
  (create (s.hitCount slot)).bind fun r =>
    if r < weight then .done ({ s with chosen := put s.chosen slot s.current }, true) else .done (s, false)

/-- `getPick(Slot)`; WindowServices.ulam:156-160. -/
def getPick (s : Services) (slot : Nat) : Nat := if s.hitCount slot = 0 then 63 else s.chosen slot

/-- `next()`; WindowServices.ulam:120-131. `first` and `last` are `mdist.getFirstIndex(firstRadius)` and
`mdist.getLastIndex(lastRadius)` (native). The answer -1 is `none`. -/
def next (first last : Nat) (s : Services) : Services × Option Nat :=
  let s := if s.current = 63 then { s with current := first }
    else if s.current ≤ last then { s with current := satU 6 (s.current + 1) } else s
  if s.current > last then (s, none) else (s, some s.current)

/-- Whether an atom of type `a` is a hit for the type `t` asked for, `e` being the type of the empty atom;
WindowServices.ulam:112-115. -/
def isHit (e a t : Int) : Bool := t == -4 || (t == -2 && a == e) || (t == -3 && a != e) || a == t

/-- One of the four lines 112-115. -/
def hitIf (c : Bool) (slot : Nat) (s : Services) : Rand Services :=
  if c then (hit s slot 1).bind fun p => .done p.1 else .done s

/-- The body of the loop of `scan`; WindowServices.ulam:109-115. `types` gives the type of the atom at each site (native `getType`). -/
def scanBody (types : Nat → Int) (e : Int) (t : Nat → Int) (slot : Nat) (s : Services) : Rand Services :=
  let a := types slot
  if a < 0 then .done s
  else (hitIf (isHit e a (t 0)) 0 s).bind fun s => (hitIf (isHit e a (t 1)) 1 s).bind fun s =>
    (hitIf (isHit e a (t 2)) 2 s).bind fun s => hitIf (isHit e a (t 3)) 3 s

/-- The loop of `scan`; WindowServices.ulam:108-116. `fuel` bounds the rounds (there are at most 65). -/
def scanLoop (first last : Nat) (types : Nat → Int) (e : Int) (t : Nat → Int) : Nat → Services → Rand Services
  | 0, _ => .fail
  | fuel + 1, s =>
    match next first last s with
    | (s, none) => .done s
    | (s, some slot) => (scanBody types e t slot s).bind fun s => scanLoop first last types e t fuel s

/-- `scan(Int, Int, Int, Int)`; WindowServices.ulam:97-118. -/
def scan (first last : Nat) (types : Nat → Int) (e : Int) (t : Nat → Int) (s : Services) : Rand (Services × Bool) :=
  if t 0 < -4 ∨ t 1 < -4 ∨ t 2 < -4 ∨ t 3 < -4 then .fail
  else (scanLoop first last types e t 65 (resetServices s)).bind fun s =>
    .done (s, decide (s.hitCount 0 + s.hitCount 1 + s.hitCount 2 + s.hitCount 3 > 0))

/-! ### WindowScanner.ulam -/

/-- The fields of WindowScanner.ulam:29-33. -/
structure Scanner where
  sites : Nat → Nat
  weights : Nat → Nat
  isMax : Nat → Bool
  maxes : Nat → Nat
  inUse : Nat

/-- A new scanner: all zero. -/
def newScanner : Scanner := ⟨fun _ => 0, fun _ => 0, fun _ => false, fun _ => 0, 0⟩

/-- `resetCategories`; WindowScanner.ulam:35. -/
def resetCategories (s : Scanner) : Scanner := { s with inUse := 0 }

/-- `allocateCategory`; WindowScanner.ulam:43-49. -/
def allocateCategory (s : Scanner) : Option (Scanner × Nat) :=
  if s.inUse ≥ 32 then none
  else some ({ s with isMax := put s.isMax (satU 5 s.inUse) false, inUse := s.inUse + 1 }, satU 5 s.inUse)

/-- `allocateMaxCategory`; WindowScanner.ulam:60-64. -/
def allocateMaxCategory (s : Scanner) : Option (Scanner × Nat) :=
  (allocateCategory s).map fun p => ({ p.1 with isMax := put p.1.isMax p.2 true }, p.2)

/-- `initScan`; WindowScanner.ulam:70-75. -/
def initScan (s : Scanner) : Scanner := { s with sites := fun _ => 63, weights := fun _ => 0 }

/-- Lines 98-107 of `categorize` (the value of `w` they compute is not used). -/
def noteMax (s : Scanner) (categ weight : Nat) : Scanner :=
  if s.isMax categ then
    if weight < s.maxes categ then s
    else if weight > s.maxes categ then { s with maxes := put s.maxes categ weight, weights := put s.weights categ 0 } else s
  else s

/-- `categorize(SiteNum, Category, Unsigned)`; WindowScanner.ulam:95-114. -/
def categorize (s : Scanner) (sn categ weight : Nat) : Rand (Scanner × Nat) :=
  if categ ≥ s.inUse then .fail
  else
    let s := noteMax s categ weight
    let s := { s with weights := put s.weights categ (satU 32 (s.weights categ + weight)) }
    if s.weights categ = 0 then .done (s, 63)
    else (create (s.weights categ)).bind fun r =>
      let s := if r < weight then { s with sites := put s.sites categ sn } else s
      .done (s, s.sites categ)

/-- `getMax`; WindowScanner.ulam:117-120. -/
def getMax (s : Scanner) (categ : Nat) : Nat := if s.isMax categ then s.maxes categ else 0

/-! ### SelectorServices.ulam -/

/-- The fields of SelectorServices.ulam:27-29. -/
structure Selector where
  c : Nat
  k : Int
  v : Int

/-- `reset`; SelectorServices.ulam:35. -/
def resetSelector (s : Selector) : Selector := { s with c := 0 }

/-- `take`; SelectorServices.ulam:110-113. -/
def take (s : Selector) (key value : Int) : Selector := { s with k := satI 16 key, v := value }

/-- `check`; SelectorServices.ulam:119-135. -/
def check (s : Selector) (key value weight : Int) : Rand (Selector × Bool) :=
  if weight ≤ 0 then .done (s, false)
  else
    let uweight := satU 16 weight.toNat
    if s.c = 0 then .done (take { s with c := uweight } key value, false)
    else if s.v = value then
      let s := { s with c := satU 16 (s.c + uweight) }
      (oddsOf uweight s.c).bind fun b => .done (if b then take s key value else s, false)
    else .done (s, true)

/-- `minimize(Int, Int)`; SelectorServices.ulam:56-58. -/
def minimize (s : Selector) (key value : Int) : Rand Selector :=
  (check s key value 1).bind fun p => .done (if p.2 && value < p.1.v then take p.1 key value else p.1)

/-- `maximize(Int, Int)`; SelectorServices.ulam:79-81. -/
def maximize (s : Selector) (key value : Int) : Rand Selector :=
  (check s key value 1).bind fun p => .done (if p.2 && value > p.1.v then take p.1 key value else p.1)

/-- `count`; SelectorServices.ulam:93. -/
def count (s : Selector) (key weight : Int) : Rand Selector := (check s key 1 weight).bind fun p => .done p.1

/-- `selectionMade`, `getSelectedKey`, `getSelectedValue`; SelectorServices.ulam:96-104. -/
def selectedKey (s : Selector) : Option Int := if s.c > 0 then some s.k else none
def selectedValue (s : Selector) : Option Int := if s.c > 0 then some s.v else none

/-! ### XTimer.ulam, RXTimer.ulam -/

/-- The template parameters; XTimer.ulam:16. -/
structure TimerParams where
  bits : Nat
  triggerLevel : Nat
  k : Nat

variable (p : TimerParams)

/-- `alarm`; XTimer.ulam:29. -/
def alarm (time : Nat) : Bool := decide (time ≥ p.triggerLevel)

/-- `trigger`, `reset`, `set`; XTimer.ulam:25-33. -/
def trigger : Nat := satU p.bits p.triggerLevel

/-- `k << n`: bits beyond 32 are lost. -/
def shl (k n : Nat) : Nat := k * 2 ^ n % 2 ^ 32

/-- `count`; XTimer.ulam:42-46. -/
def timerCount (time : Nat) : Rand Nat :=
  if alarm p time then .done time
  else (oneIn (shl p.k time)).bind fun b => .done (if b then satU p.bits (time + 1) else time)

/-- `count` of the reverse timer; RXTimer.ulam:26-30. -/
def reverseCount (time : Nat) : Rand Nat :=
  if alarm p time then .done time
  else (oneIn (shl p.k (p.triggerLevel - 1 - time))).bind fun b => .done (if b then satU p.bits (time + 1) else time)

end Ulam.Chance
