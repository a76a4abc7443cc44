import Verif.RefInit.Model
import Verif.GenPos.Spec
/-! # What a reference is to (specification for C137) -/
namespace Ulam.RefInit.Spec
open Ulam.GenPos Ulam.GenPos.Spec
variable {C : Type} [DecidableEq C]

/-- The positions of the members, each among those its class declares, together. -/
def offsets : List (Mem C) → Nat
  | [] => 0
  | m :: l => m.off + offsets l

/-- Each member is declared by a class that is at 0 in the type of the member before, as that type itself is. -/
def Flat (L : Lay C) : List (Mem C) → Prop
  | [] => True
  | [_] => True
  | m :: n :: l => L.rel m.ty n.decl = some 0 ∧ Flat L (n :: l)

/-- The first symbol is the reference `r` itself, or `self`, of class `c`. -/
def IsRef (me c : C) (x : Sym C) : Prop := x = .loc c true ∨ x = .self c ∧ c = me

end Ulam.RefInit.Spec
