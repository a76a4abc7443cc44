import Verif.AbsAssign.Model
import Verif.Packed.Spec
/-! # Assignments through pointers to the call stack (specification) -/
namespace Ulam.AbsAssign
open Packed (Bits Holds)

/-- Only the place `i` of the stack is another. -/
def Only (fs : List Val) (i : Nat) (gs : List Val) : Prop := gs.length = fs.length ∧ ∀ j, j ≠ i → gs[j]? = fs[j]?

/-- Of the place `i` the bits from `pos` on are the number `v`, and no others have changed; nor have other places. -/
def Assigned (fs : List Val) (i pos len v : Nat) (gs : List Val) : Prop :=
  Only fs i gs ∧ ∃ ty b ty' b', fs[i]? = some (.data ty b) ∧ gs[i]? = some (.data ty' b') ∧ Holds b' pos len v ∧
    ∀ j, (j < pos ∨ pos + len ≤ j) → b' j = b j

/-- Of the place `i` the bits from `pos` on are those at the right end of `rb`, and no others have changed; nor have other places. -/
def Copied (fs : List Val) (i pos len : Nat) (rb : Bits) (gs : List Val) : Prop :=
  Only fs i gs ∧ ∃ ty b ty' b', fs[i]? = some (.data ty b) ∧ gs[i]? = some (.data ty' b') ∧
    (∀ j, j < len → b' (pos + j) = rb (96 - len + j)) ∧ ∀ j, (j < pos ∨ pos + len ≤ j) → b' j = b j

/-- The type of the value at a place. -/
def typeAt (fs : List Val) (i : Nat) : Option SlotTy :=
  match fs[i]? with
  | some (.data ty _) => some ty
  | _ => none

end Ulam.AbsAssign
