import Verif.ClassCast.Model
import Verif.Walker.Spec
/-! # What may stand for what (specification for C99) -/
namespace Ulam.ClassCast.Spec
open Ulam.ClassCast
open Ulam.Walker.Spec (Ok Acyclic Ancestor SelfOrAncestor)
variable {n : Nat}

/-- Classes are known by one number each, and no class inherits from itself. -/
structure Classes (w : World n) : Prop where
  ok : Ok w.h
  acyclic : Acyclic w.h
  root : ∀ c, w.h.root c = c

/-- Declared bases are of a kind the class may inherit from: only transients have transients as bases, and nobody has an
element as a base. -/
def Kinds (w : World n) : Prop :=
  ∀ c b, Walker.Spec.Base w.h c b → w.kind b = .quark ∨ (w.kind c = .transient ∧ w.kind b = .transient)

/-- Nothing that may not be written becomes something that may. -/
def KeepsConst (t f : Ty n) : Prop := ¬ (f.alt = .constRef ∧ t.alt = .ref)

/-- The class `c`, scalar, in some kind of reference or none. -/
def Scalar (t : Ty n) (c : Fin n) : Prop := t.base = .cls c ∧ t.arr = none

/-- `Atom`, scalar, in some kind of reference or none. -/
def ScalarAtom (t : Ty n) : Prop := t.base = .atom ∧ t.arr = none

end Ulam.ClassCast.Spec
