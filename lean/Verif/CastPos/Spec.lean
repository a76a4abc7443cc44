import Verif.GenPos.Model
/-! # Casting to a base class: what the classes are assumed to be

Where a part is: `Place`, `At` and `Laid` of C103. -/
namespace Ulam.CastPos.Spec
open Ulam.GenPos
variable {C : Type}

/-- No class is a subclass of one of its subclasses. -/
def Acyclic (L : Lay C) : Prop := ∀ c d, L.sub c d = true → L.sub d c = false

/-- Related, as the compiler has checked. -/
def Kin (L : Lay C) (v b : C) : Prop := v = b ∨ L.sub v b = true ∨ L.sub b v = true

end Ulam.CastPos.Spec
