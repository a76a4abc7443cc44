import Verif.ClassInfo.Spec
/-! # Objects in values of the evaluator (specification for C133) -/
namespace Ulam.EvalCopy.Spec
open Ulam.Layout Ulam.Layout.Spec Ulam.Walker Ulam.Walker.Spec Ulam.ClassInfo.Spec
variable {n : Nat}

/-- In a value of class `c`, bit `j` of the `i`-th data member of class `a` is bit `q`; `rel` gives the places of the parts. -/
def IsBit (L : Fin n → Class) (rel : Fin n → Fin n → Option Nat) (c a : Fin n) (i j q : Nat) : Prop :=
  ∃ m r, (L a).members[i]? = some m ∧ j < size m ∧ rel c a = some r ∧ q = 25 + r + offset (L a) i + j

/-- Two values have the same data members of class `b` and its ancestors: `v` is of class `c`, `v'` of class `c'`. -/
def SameParts (w : World n) (L : Fin n → Class) (rel : Fin n → Fin n → Option Nat) (b c : Fin n) (v : List Bool) (c' : Fin n)
    (v' : List Bool) : Prop :=
  ∀ a i j q q', SelfOrAncestor w b a → IsBit L rel c a i j q → IsBit L rel c' a i j q' → v[q]? = v'[q']?

/-- Bit `q` of a value of class `c` is in the part of `b` or one of its ancestors. -/
def InPart (w : World n) (L : Fin n → Class) (rel : Fin n → Fin n → Option Nat) (b c : Fin n) (q : Nat) : Prop :=
  ∃ a r, SelfOrAncestor w b a ∧ rel c a = some r ∧ Covers (25 + r) (ownBits (L a)) q

end Ulam.EvalCopy.Spec
