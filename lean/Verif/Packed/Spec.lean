import Verif.Packed.Model
/- What it means for bits to hold a number, and where the items of an array are. -/
namespace Ulam.Packed

/-- The `len` bits from `pos` on are the number `v`, first bit most significant. -/
def Holds (b : Bits) (pos len v : Nat) : Prop := v < 2 ^ len ∧ ∀ j, j < len → b (pos + j) = v.testBit (len - 1 - j)

/-- Item `i` of an array that starts at `pos`. -/
def Item (t : Ty) (pos : Nat) (b : Bits) (i v : Nat) : Prop := Holds b (pos + i * t.bits) t.bits v

/-- The array lies in the value: at `pos`, for a variable at the end. -/
structure Placed (t : Ty) (p : Ptr) : Prop where
  inside : p.pos + t.n * t.bits ≤ 96
  pos0 : 0 < p.pos
  len : p.len = t.n * t.bits
  pack : p.pack = packable (t.n * t.bits)
  arr : p.scalar = false

end Ulam.Packed
