import Verif.Walker.Spec
import Verif.Kin.Model
/-! # A class and its ancestors (specification for C148) -/
namespace Ulam.Kin.Spec
open Walker Walker.Spec
variable {n : Nat}

/-- `x` is a known class, and is `c` or an ancestor of `c`. -/
def KinOf (w : World n) (c x : Fin n) : Prop := w.defined x = true ∧ SelfOrAncestor w (w.root c) x

/-- Some known class among `c` and its ancestors is a stub. -/
def HasStub (w : World n) (stub : Fin n → Bool) (c : Fin n) : Prop := ∃ x, KinOf w c x ∧ stub x = true

end Ulam.Kin.Spec
