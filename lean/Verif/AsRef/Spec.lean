import Verif.AsRef.Model
namespace Ulam.AsRef

/-- A class lies at the start of itself. -/
def World.Ok (w : World) : Prop := ∀ c, w.rel c c = 0

/-- The reference is one to the members of class `v` in an object of class `k`
that starts at `start`. -/
def AtPlace (w : World) (r : Ref) (v k start : Nat) : Prop :=
  r.eff = k ∧ r.pos = start + w.rel k v

/-- And it knows where the object starts, and how many bits it has: all of the
class if the object is of this class, else the own members. -/
structure Good (w : World) (r : Ref) (v k start : Nat) : Prop where
  place : AtPlace w r v k start
  back : r.postoeff = w.rel k v
  bits : w.kind v ≠ .element → r.len = if v = k then w.size v else w.own v

/-- The library keeps track of the effective self when a reference moves inside
of it, and takes a storage to start with the object otherwise. -/
structure LibOk (L : Lib) : Prop where
  fresh : L.fresh = 0
  move : ∀ r incr, L.move r incr r.eff = ((r.postoeff + incr) % 2 ^ 32).toNat

/-- Where an object in a variable of class `c` starts: the bits of the type come
first in an element. -/
def startOf (w : World) (c : Nat) : Nat := if w.kind c = .element then 25 else 0

end Ulam.AsRef
