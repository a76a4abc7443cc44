import Verif.Walker.Model
import Mathlib.Logic.Relation
/-! # The inheritance graph (specification for C13, C14) -/
namespace Ulam.Walker.Spec
open Ulam.Walker
variable {n : Nat}

/-- `y` is a declared base of the class `x`. -/
def Base (w : World n) (x y : Fin n) : Prop :=
  w.defined x = true ∧ ∃ e ∈ w.table x, e.base ≠ w.nouti ∧ w.root e.base = y

/-- `y` is a proper ancestor of `x`. -/
def Ancestor (w : World n) : Fin n → Fin n → Prop := Relation.TransGen (Base w)

/-- `y` is `x` or an ancestor. -/
def SelfOrAncestor (w : World n) : Fin n → Fin n → Prop := Relation.ReflTransGen (Base w)

/-- Aliasing has roots, and "no type" is not a class. -/
structure Ok (w : World n) : Prop where
  root_root : ∀ x, w.root (w.root x) = w.root x
  no_class : w.defined (w.root w.nouti) = false

/-- No class inherits from itself. -/
def Acyclic (w : World n) : Prop := ∀ x, ¬ Ancestor w x x

/-- How often `y` is declared as a shared base in class `x`. -/
def sharedIn (w : World n) (y x : Fin n) : Nat :=
  ((w.table x).filter fun e => decide (e.base ≠ w.nouti ∧ e.shared > 0 ∧ w.root e.base = y)).length

end Ulam.Walker.Spec
