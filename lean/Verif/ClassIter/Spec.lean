import Verif.ClassIter.Model
/-! # The bases of a class, and what is shared (specification for C100) -/
namespace Ulam.ClassIter.Spec
open Ulam.ClassIter

/-- The ids the library lists as bases of `inst`, in its order, that have `base` as a base themselves. The id of no class is
none of them. -/
def bases (k : Natives) (inst base : Nat) : List Nat :=
  ((List.range (k.count inst)).map (k.baseId inst)).filter fun ci => decide (ci ≠ maxof) && k.isBase ci base

/-- Where the data members of class `ci` start in an atom: after 25 bits of its own. -/
def start (k : Natives) (a : Atom) (ci : Nat) : Nat := 25 + (k.dataPos ci (k.elementType a.cls)).toNat

/-- Bit `i` of an atom like `a` belongs to the data members of class `ci`. -/
def Owns (k : Natives) (a : Atom) (ci i : Nat) : Prop := start k a ci ≤ i ∧ i < start k a ci + k.dataSize ci

/-- What the library answers about a class shared by two atoms: both have it, both have a place for it. -/
structure Placed (k : Natives) (frm dst : Atom) (ci : Nat) : Prop where
  fromBase : k.isBase frm.cls ci = true
  fromPos : 0 ≤ k.dataPos ci (k.elementType frm.cls)
  toPos : 0 ≤ k.dataPos ci (k.elementType dst.cls)

/-- No two classes of an atom own a bit together. -/
def Apart (k : Natives) (a : Atom) (l : List Nat) : Prop :=
  ∀ x ∈ l, ∀ y ∈ l, ∀ i, Owns k a x i → Owns k a y i → x = y

/-- Calling `next` as long as it has something to give. -/
def drain (k : Natives) (it : Iter) : List Nat :=
  match h : next k it with
  | none => []
  | some (ci, i) => ci :: drain k i
termination_by left it
decreasing_by exact left_next k it i ci h

/-- The shared classes among those listed. -/
def shared (k : Natives) (dst : Atom) (l : List Nat) : List Nat := l.filter fun ci => k.isBase dst.cls ci

end Ulam.ClassIter.Spec
