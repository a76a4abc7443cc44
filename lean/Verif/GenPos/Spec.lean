import Verif.GenPos.Model
/-! # Where a member of a member is (specification for C103) -/
namespace Ulam.GenPos.Spec
open Ulam.GenPos
variable {C : Type} [DecidableEq C]

/-- What C14 and C15 say of positions: a class is at 0 in itself, and has the parts it inherits. -/
structure Laid (L : Lay C) : Prop where
  self : ∀ c, L.rel c c = some 0
  sub : ∀ c d, L.sub c d = true ↔ c ≠ d ∧ (L.rel c d).isSome = true

/-- A data member: the class that declares it, its position among the members that class declares, and its type. -/
structure Mem (C : Type) where
  decl : C
  off : Nat
  ty : C

/-- Member after member, from an object of class `c` on: `p` bits from its start. -/
inductive Place (L : Lay C) : C → List (Mem C) → Nat → Prop
  | nil (c) : Place L c [] 0
  | cons {c : C} {m : Mem C} {l : List (Mem C)} {q p : Nat} : L.rel c m.decl = some q → Place L m.ty l p →
      Place L c (m :: l) (q + m.off + p)

/-- The members named by the symbols; selecting a base by name goes to a part of the object and says which member is meant. -/
def members : List (Sym C) → List (Mem C)
  | [] => []
  | .dm d o t :: l => ⟨d, o, t⟩ :: members l
  | _ :: l => members l

/-- Data members and bases, as may follow the first symbol. -/
def Follows (l : List (Sym C)) : Prop := ∀ x ∈ l, (∃ c, x = .base c) ∨ ∃ d o t, x = .dm d o t

/-- The reference is to the part `c` of an object that starts at `start`. -/
def At (L : Lay C) (r : Ref C) (c : C) (start : Int) : Prop :=
  ∃ q : Nat, L.rel r.eff c = some q ∧ r.pos = start + q ∧ r.toEff = q

end Ulam.GenPos.Spec
