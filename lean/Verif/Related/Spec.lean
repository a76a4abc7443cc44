import Verif.Related.Model
import Verif.Layout.Spec
/-! # What related classes and pointers to parts should be (specification for C78, C79, C80) -/
namespace Ulam.Related.Spec
open Ulam.Related Ulam.Walker Ulam.Walker.Spec Ulam.Layout Ulam.Layout.Spec
variable {n : Nat}

/-- The class a type stands for: references and aliases removed. -/
def cls (w : World n) (t : Fin n) : Fin n := w.root (w.deref t)

/-- `c` is a class: not an alias, not a reference, defined. -/
structure IsClass (w : World n) (c : Fin n) : Prop where
  root : w.root c = c
  deref : w.deref c = c
  defined : w.defined c = true

/-- Objects of class `c` are laid out: every part has a place below `bound`. -/
def Laid (w : World n) (P : Fin n → Option Packed) (c : Fin n) (bound : Nat) : Prop :=
  ∀ b, SelfOrAncestor w c b → ∃ q, relativePosition w P c b = some q ∧ q < bound

/-- Registration numbers tell the classes apart (C37). -/
def Numbers (w : World n) (reg : Fin n → Nat) : Prop :=
  ∀ a b, w.defined a = true → w.defined b = true → w.root a = a → w.root b = b → reg a = reg b → a = b

/-- How types and references fit together: aliases of one type have the same class, and only references refer. -/
structure Refs (e : Env n) : Prop where
  alias_class : ∀ a b, e.w.root a = e.w.root b → cls e.w a = cls e.w b
  only_refs : ∀ t, e.isRef t = false → e.w.deref t = t

/-- The classes a class may inherit from (`NodeBlockClass.cpp:1120-1166`): quarks, and a transient also from transients. -/
def KindRules (e : Env n) : Prop :=
  ∀ x y, Base e.w x y → e.kind y = .quark ∨ e.kind x = .transient ∧ e.kind y = .transient

/-- The pointer `p` to the value `v` is to an object of class `k`, or to one of its parts. -/
structure Denotes (e : Env n) (p : Ptr n) (v : Stored n) (k : Fin n) : Prop where
  cls : IsClass e.w k
  not_atom : e.atom k = false
  value_class : e.w.deref v.type = v.type
  object : p.eff = k ∨ p.eff = e.w.nouti ∧ (e.atom v.type = true ∧ v.eff = k ∨ e.atom v.type = false ∧ e.w.root v.type = k)
  part : e.atom p.target = true ∨ SelfOrAncestor e.w k (Spec.cls e.w p.target)
  value : e.atom p.target = true ∨ e.atom v.type = true → v.eff = k

/-- An object of class `k` at `start`: a class, laid out, within the atom. -/
structure Object (e : Env n) (k : Fin n) (start : Nat) : Prop where
  cls : IsClass e.w k
  real : k ≠ e.w.nouti
  laid : ∀ b, SelfOrAncestor e.w k b → ∃ q, relativePosition e.w e.P k b = some q ∧ start + q ≤ 96

/-- Removing references and aliases once is enough. -/
def Settled (w : World n) : Prop := ∀ t, cls w (cls w t) = cls w t

/-- The pointer `p` is at the place of the part it names, in an object that starts at `start`. -/
def Points (e : Env n) (p : Ptr n) (start : Nat) : Prop :=
  ∃ q, relativePosition e.w e.P p.eff p.target = some q ∧ p.pos = start + q

end Ulam.Related.Spec
