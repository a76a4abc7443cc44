import Verif.Layout.Spec
/-! # The data members of objects of a class (specification for C132) -/
namespace Ulam.ClassInfo.Spec
open Ulam.Layout Ulam.Layout.Spec Ulam.Walker Ulam.Walker.Spec
variable {n : Nat}

/-- Objects of class `c` have the `i`-th data member of class `b`, which is `m`. -/
def Has (w : World n) (L : Fin n → Class) (c b : Fin n) (i : Nat) (m : Member) : Prop :=
  SelfOrAncestor w c b ∧ (L b).members[i]? = some m

/-- Where the `i`-th member of a class is among its members: after those before it; in a union all are at 0. -/
def offset (k : Class) (i : Nat) : Nat :=
  if k.isUnion then 0 else ((k.members.take i).map size).sum

end Ulam.ClassInfo.Spec
