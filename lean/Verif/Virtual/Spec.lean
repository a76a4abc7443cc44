import Verif.Virtual.Model
import Verif.Walker.Spec
/-! # Virtual functions in terms of the declarations (specification for C16) -/
namespace Ulam.Virtual.Spec
open Ulam.Walker Ulam.Walker.Spec
variable {n : Nat}

/-- A program: a hierarchy and the function declarations of every class. -/
structure Program (n : Nat) where
  w : World n
  decls : Fin n → List Decl

/-- Class `c` declares a function with signature `s`. -/
def Declares (P : Program n) (c : Fin n) (s : Nat) : Prop := ∃ d ∈ P.decls c, d.sig = s

/-- Class `c` declares it with the keyword. -/
def Marked (P : Program n) (c : Fin n) (s : Nat) : Prop := ∃ d ∈ P.decls c, d.sig = s ∧ d.virt = true

/-- The function `s` of class `c` is virtual: it or one with the same signature in an ancestor is so marked. -/
def IsVirtual (P : Program n) (c : Fin n) (s : Nat) : Prop :=
  Declares P c s ∧ ∃ a, SelfOrAncestor P.w c a ∧ Marked P a s

/-- Class `c` is where virtual function `s` begins. -/
def Begins (P : Program n) (c : Fin n) (s : Nat) : Prop :=
  IsVirtual P c s ∧ ∀ a, Ancestor P.w c a → ¬ IsVirtual P a s

open Classical in
/-- The virtual functions beginning in `c`, in order of declaration. -/
noncomputable def own (P : Program n) (c : Fin n) : List Nat := ((P.decls c).map (·.sig)).filter fun s => decide (Begins P c s)

/-- Among `c` and its ancestors, `a` declares `s` for the function begun by `o`, and no class below `a` does. -/
def MostSpecific (P : Program n) (c o : Fin n) (s : Nat) (a : Fin n) : Prop :=
  SelfOrAncestor P.w c a ∧ SelfOrAncestor P.w a o ∧ Declares P a s ∧
  ∀ b, SelfOrAncestor P.w c b → Ancestor P.w b a → ¬ Declares P b s

/-- The function `s` begins in one class only, seen from `c`. -/
def OneBeginning (P : Program n) (c : Fin n) (s : Nat) : Prop :=
  ∀ o o', SelfOrAncestor P.w c o → Begins P o s → SelfOrAncestor P.w c o' → Begins P o' s → o = o'

/-- The hierarchy is one the earlier stages accept: no cycles, bases are classes, classes are their own roots, and no
signature is declared twice in a class. -/
structure Legal (P : Program n) : Prop where
  ok : Ok P.w
  acyclic : Acyclic P.w
  bases : ∀ x, P.w.defined x = true → ∀ e ∈ P.w.table x, e.base ≠ P.w.nouti → P.w.defined (P.w.root e.base) = true
  rooted : ∀ x, P.w.defined x = true → P.w.root x = x ∧ P.w.deref x = x
  once : ∀ x, ((P.decls x).map (·.sig)).Nodup

/-- Nothing the table construction reports as an error: a declared function that is virtual begins in one class, and one
flagged `@Override` overrides. -/
structure Quiet (P : Program n) (c : Fin n) : Prop where
  one : ∀ s, Declares P c s → ∀ o o', Ancestor P.w c o → Begins P o s → Ancestor P.w c o' → Begins P o' s → o = o'
  overrides : ∀ d ∈ P.decls c, d.must = true → IsVirtual P c d.sig → ¬ Begins P c d.sig

end Ulam.Virtual.Spec
