import Verif.SlotArray.Model
/-! # Arrays with a slot for each item in the evaluator (specification) -/
namespace Ulam.SlotArray

/-- The array of `n` items is on its stack, above the bottom slot, and the stack is within the range of pointers. -/
def Lies {α : Type} (m : Mem α) (p : Ptr) (n : Nat) : Prop :=
  0 < index m p ∧ index m p + n ≤ (m.frames p.place).length ∧ (m.frames p.place).length + m.cur p.place < 30000

/-- The slot `i` of a stack. -/
def at? {α : Type} (m : Mem α) (k : Place) (i : Int) : Option α := if 0 ≤ i then (m.frames k)[i.toNat]? else none

/-- Nothing but the slots from `i` on, `n` of them, differ, and the frame pointers and sizes are the same. -/
def SameBut {α : Type} (m m' : Mem α) (k : Place) (i : Int) (n : Nat) : Prop :=
  m'.cur = m.cur ∧ (∀ k', (m'.frames k').length = (m.frames k').length) ∧
    ∀ k' j, (k' ≠ k ∨ j < i ∨ i + n ≤ j) → at? m' k' j = at? m k' j

end Ulam.SlotArray
