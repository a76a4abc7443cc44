import Verif.Walker.Spec
import Verif.PackKin.Model
/-! # Packing a class and its ancestors (specification for C149) -/
namespace Ulam.PackKin.Spec
open Walker Walker.Spec
variable {n : Nat}

/-- `x` is a known class, and is `c` or an ancestor of `c`. -/
def KinOf (w : World n) (c x : Fin n) : Prop := w.defined x = true ∧ SelfOrAncestor w (w.root c) x

/-- `x` is complete, and needs no packing or can be packed. -/
def Packs (i : Info n) (x : Fin n) : Prop := i.complete x = true ∧ (i.sized x = true → i.packBits x = .yes)

/-- Every entry of the tables of bases of `c` and its ancestors, the place of the superclass too, names a known class. -/
def NoGaps (w : World n) (c : Fin n) : Prop :=
  w.defined (w.root c) = true ∧ ∀ x, KinOf w c x → ∀ e ∈ w.table x, w.defined (w.root e.base) = true

end Ulam.PackKin.Spec
