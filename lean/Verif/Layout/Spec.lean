import Verif.Layout.Model
import Verif.Walker.Spec
/-! # What a layout should be (specification for C12, C15) -/
namespace Ulam.Layout.Spec
open Ulam.Layout Ulam.Walker Ulam.Walker.Spec
variable {n : Nat}

/-- Bits a member takes: elements take whole atoms. -/
def size (m : Member) : Nat :=
  (if m.element then 96 else m.bits) * (match m.array with | none => 1 | some k => k)

/-- Bits of a class's own data: the members side by side, or on top of each other in a union. -/
def ownBits (k : Class) : Nat :=
  if k.isUnion then (k.members.map size).foldr max 0 else (k.members.map size).sum

/-- Elements are data members of transients only, a union is a quark, and the symbol table holds the members declared. -/
structure Wf (k : Class) : Prop where
  element_in_transient : ∀ m ∈ k.members, m.element = true → k.kind = .transient
  union_quark : k.isUnion = true → k.kind = .quark
  table_perm : k.table.Perm k.members

/-- `[p, p + s)` contains bit `x`. -/
def Covers (p s x : Nat) : Prop := p ≤ x ∧ x < p + s

/-- What can own a bit of an object: a data member, by number, or the part of an ancestor. -/
inductive Owner (n : Nat)
  | member (i : Nat)
  | ancestor (a : Fin n)
  deriving DecidableEq

/-- Conditions the compiler establishes for base tables: entries are root types, no references, and known
classes, all bases are shared
(`Parser.cpp:653`), and none is an element (`NodeBlockClass.cpp:1120-1166`). -/
structure Tables (w : World n) (L : Fin n → Class) : Prop where
  rooted : ∀ c, ∀ e ∈ w.table c, w.root e.base = e.base
  no_reference : ∀ c, ∀ e ∈ w.table c, w.deref e.base = e.base
  known : ∀ c, ∀ e ∈ w.table c, e.base ≠ w.nouti → w.defined e.base = true
  shared : ∀ c, ∀ e ∈ w.table c, e.shared > 0
  no_element : ∀ c, ∀ e ∈ w.table c, e.base ≠ w.nouti → (L e.base).kind ≠ .element

/-- No class is listed twice among the bases of `c`. -/
def NoDuplicates (w : World n) (c : Fin n) : Prop :=
  (((w.table c).map (·.base)).filter fun b => decide (b ≠ w.nouti)).Nodup

end Ulam.Layout.Spec
