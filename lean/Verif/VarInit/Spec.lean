import Verif.VarInit.Model
/-! # Where the items of a variable are (specification for C134 and C135) -/
namespace Ulam.VarInit.Spec
open Ulam.Packed Ulam.VarInit

/-- The number of items: one, unless it is an array. -/
def count (t : VTy) : Nat := t.arr.getD 1

/-- All of the items share one slot: at most 71 bits, and not an element. -/
def Together (t : VTy) : Prop := t.kind ≠ .element ∧ t.bits * count t ≤ 71

/-- The slot of an item. -/
noncomputable def slotOf (t : VTy) (i : Nat) : Nat := open Classical in if Together t then 0 else i

/-- The first bit of an item in its slot: classes begin at 25, primitives end at 96. -/
noncomputable def posOf (t : VTy) (i : Nat) : Nat :=
  open Classical in
  (if t.kind = .prim then 96 - (if Together t then t.bits * count t else t.bits) else 25) + (if Together t then i * t.bits else 0)

/-- Item `i` of a variable in these slots has the bits `val 0`, `val 1`, .... -/
def ItemIs (t : VTy) (slots : List Bits) (i : Nat) (val : Nat → Bool) : Prop :=
  ∃ s, slots[slotOf t i]? = some s ∧ ∀ j, j < t.bits → s (posOf t i + j) = val j

/-- A type as the compiler allows it. -/
structure Allowed (t : VTy) : Prop where
  prim : t.kind = .prim → 0 < t.bits ∧ t.bits ≤ 64
  rest : t.bits ≤ 71
  bitsTy : t.bitsTy = true → t.kind = .prim

/-- What an item is if nothing is said: zeros, or the default of the class, which for an element follows the type. -/
def standard (t : VTy) (dv : Bits) : Nat → Bool :=
  match t.kind with
  | .prim => fun _ => false
  | .element => fun j => dv (25 + j)
  | _ => dv

/-- What item `i` is if an initial value is given: the items one after the other, an element with its type before it. -/
def given (t : VTy) (iv : Bits) (i : Nat) : Nat → Bool :=
  if t.kind = .element then fun j => iv (96 * i + 25 + j) else fun j => iv (i * t.bits + j)

end Ulam.VarInit.Spec
