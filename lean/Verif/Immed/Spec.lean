import Verif.Immed.Model
/-
Sizes that the compiler accepts, and the number that the items of an array make
together.
-/
namespace Ulam.Immed

/-- Primitives and quarks have up to 64 bits, Strings 18. -/
def Sized (t : Ty) : Prop := t.bits ≤ 64 ∧ (t.kind = .str → t.bits = 18)

/-- Items of `b` bits one after another, the first one the highest. -/
def join (b : Nat) : List Nat → Nat
  | [] => 0
  | x :: xs => x * 2 ^ (b * xs.length) + join b xs

/-- The only types whose vector is larger than the value: arrays of quarks of 65
to 95 bits. -/
def Odd (t : Ty) : Prop := t.kind = .quark ∧ 64 < total t ∧ total t < 96

end Ulam.Immed
