/-
Specification of class sizes, independent of the way they are computed.
-/
import Verif.Sizing.Model
import Mathlib.Logic.Relation

namespace Ulam.Sizing

variable {n : Nat}

/-- A class needs the classes of its data members and its ancestors. -/
def Needs (p : Prog n) (c d : Fin n) : Prop :=
  (∃ m ∈ p.members c, m.ty = .cls d) ∨ d ∈ p.anc c

/-- The bits of one data member of class `c`, when the classes have the sizes `g`: length times
the size of the item; an element in a transient is a whole atom of 96 bits. -/
def part (p : Prog n) (g : Fin n → Nat) (c : Fin n) (m : Member n) : Nat :=
  m.count.getD 1 *
    match m.ty with
    | .prim b => b
    | .cls d => if p.kind c = .transient ∧ p.kind d = .element then 96 else g d

/-- The bits of the data members of a class alone: their sum, for a union their maximum. -/
def own (p : Prog n) (g : Fin n → Nat) (c : Fin n) : Nat :=
  if p.union c then ((p.members c).map (part p g c)).foldr max 0
  else ((p.members c).map (part p g c)).sum

/-- `Sized p c k t`: class `c` has `k` bits of its own and `t` bits in all. The total adds the own
bits of every ancestor, once each. -/
inductive Sized (p : Prog n) : Fin n → Nat → Nat → Prop
  | mk (c : Fin n) (f g : Fin n → Nat) (h : ∀ d, Needs p c d → Sized p d (f d) (g d)) :
      Sized p c (own p g c) (own p g c + ((p.anc c).map f).sum)

/-- What the language says of the declarations: unions are quarks; no ancestor is an element;
the listed ancestors are those reached through base classes, each listed once. -/
structure Legal (p : Prog n) : Prop where
  union_quark : ∀ c, p.union c = true → p.kind c = .quark
  base_kind : ∀ c, ∀ a ∈ p.anc c, p.kind a ≠ .element
  anc_iff : ∀ c a, a ∈ p.anc c ↔ Relation.TransGen (fun x y => y ∈ p.bases x) c a
  anc_once : ∀ c, (p.anc c).Nodup

/-- Sizes in 32-bit arithmetic do not wrap: even if every class had 8192 bits, the sums stay below
two to the 31. -/
def Fits (p : Prog n) : Prop :=
  ∀ c, ((p.members c).map (part p (fun _ => 8192) c)).sum + 8192 * (p.anc c).length < 2 ^ 31

/-- No array type gets its length before the size of its item. -/
def Tied (v : View n) : Prop := v.early = []

/-- In this round every data member has a usable type, and the arrays being resolved are those of
the data members. -/
def Full (p : Prog n) (v : View n) : Prop :=
  (∀ c, ∀ m ∈ p.members c, v.typed c m = true) ∧
    ∀ a, a ∈ v.arrays ↔ ∃ c, ∃ m ∈ p.members c, m.ty = a.1 ∧ m.count = some a.2

/-- A class contains another as a data member that is no array. -/
def Contains (p : Prog n) (c d : Fin n) : Prop := ⟨.cls d, none⟩ ∈ p.members c

end Ulam.Sizing
