import Verif.Stdlib.Model
/-! What the classes are for. -/
namespace Ulam.Stdlib.Spec

/-- The four channels are bytes. -/
def Valid (c : Color) : Prop := c.alpha ≤ 255 ∧ c.red ≤ 255 ∧ c.green ≤ 255 ∧ c.blue ≤ 255

/-- `x` lies between `a` and `b`. -/
def Mid (a b x : Nat) : Prop := min a b ≤ x ∧ x ≤ max a b

/-- A place within a radius: one of the places that the first sites go to. There are 1, 5, 13, 25, 41 sites within radius 0, ..., 4. -/
def sitesWithin (rad : Nat) : Nat := rad * rad + (rad + 1) * (rad + 1)

def Within {α : Type} (w : Window α) (rad j : Nat) : Prop := ∃ k, k < sitesWithin rad ∧ w.sym k = j

/-- The distance in the plane that goes along the axes, and the square of the straight one. -/
def gridDistance (p q : Point) : Nat := (p.x - q.x).natAbs + (p.y - q.y).natAbs
def squareDistance (p q : Point) : Int := (p.x - q.x) * (p.x - q.x) + (p.y - q.y) * (p.y - q.y)

/-- A point that 16 bit coordinates can hold. -/
def InPlane (p : Point) : Prop := (-32768 ≤ p.x ∧ p.x ≤ 32767) ∧ (-32768 ≤ p.y ∧ p.y ≤ 32767)

/-- Calls of `dup` in turn, by members and for sites as given; calls by anything else do not happen. -/
def runDup (width : Nat) (w : List Site) : List (Nat × Nat) → List Site
  | [] => w
  | (i, j) :: es => runDup width (match dup width w i j with | some p => p.1 | none => w) es

def isCell : Site → Bool
  | .cell _ => true
  | _ => false

/-- The size of the colony. -/
def colony (w : List Site) : Nat := (w.filter isCell).length

/-- No member can grow any more: all are as old as can be. -/
def Grown (width : Nat) (w : List Site) : Prop := ∀ a, .cell a ∈ w → a = 2 ^ width - 1

end Ulam.Stdlib.Spec
