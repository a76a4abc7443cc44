import Verif.Member.Model
import Verif.Walker.Spec
/-! # What a member name should mean (specification for C96) -/
namespace Ulam.Member.Spec
open Ulam.Walker Ulam.Walker.Spec Ulam.Member
variable {n : Nat}

/-- Class `d` declares the name: in one of its tables. -/
def Declares (E : Env n) (d : Fin n) (x : Nat) : Prop := ∃ s, (s ∈ (E.tabs d).st ∨ s ∈ (E.tabs d).funcs) ∧ s.name = x

/-- A step to a base class from a class that does not declare the name. -/
def Silent (w : World n) (E : Env n) (x : Nat) (a b : Fin n) : Prop := Base w a b ∧ ¬ Declares E a x

/-- Class `d` declares the name and is reached from `c` by way of classes that do not: it is seen from `c`. -/
def Seen (w : World n) (E : Env n) (x : Nat) (c d : Fin n) : Prop :=
  w.defined d = true ∧ Declares E d x ∧ Relation.ReflTransGen (Silent w E x) c d

/-- Between `c` and `d`, some other class declares the name too and hides the one of `d`. -/
def Hidden (w : World n) (E : Env n) (x : Nat) (c d : Fin n) : Prop :=
  ∃ e, Declares E e x ∧ SelfOrAncestor w c e ∧ Ancestor w e d

/-- Each class between `c` and `d` is the base of only one class there. -/
def OneWay (w : World n) (c d : Fin n) : Prop :=
  ∀ y a b, SelfOrAncestor w y d → SelfOrAncestor w c a → SelfOrAncestor w c b → Base w a y → Base w b y → a = b

/-- Types are their own roots. -/
def Rooted (w : World n) : Prop := ∀ c, w.root c = c

end Ulam.Member.Spec
