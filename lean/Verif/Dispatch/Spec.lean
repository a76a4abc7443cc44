import Verif.Dispatch.Model
import Verif.Virtual.Spec
import Verif.Related.Spec
/-! # What a call of a virtual function should do (specification for C86) -/
namespace Ulam.Dispatch.Spec
open Ulam.Dispatch Ulam.Walker Ulam.Walker.Spec Ulam.Related Ulam.Related.Spec
variable {n : Nat}

/-- The class whose function a call means, on an object of class `k`: `super` and a base class name theirs, everything else
means the object's own. -/
def meant (w : World n) (k : Fin n) : Lhs n → Fin n
  | .name v => if v.super then cls w v.type else k
  | .base _ t => cls w t
  | _ => k

/-- The name a left side begins with. -/
def first : Lhs n → Var n
  | .name v => v
  | .member l _ => first l
  | .base l _ => first l
  | .call l _ => first l

/-- A left side that does not name a base class and begins with a reference (as `self` is) other than `super`. -/
def ByReference (e : Env n) (l : Lhs n) : Prop :=
  (∀ l' t, l ≠ .base l' t) ∧ (first l).super = false ∧ e.isRef (first l).type = true

/-- The pointer `p` is what the left side `l` gives, in an object of class `k` that starts at `start`: at the part it names,
of the class the left side says. A variable that is no reference holds an object of its own class, and so does a data member
or the value a function returns. `self` is a reference (`Parser.cpp:5714`). -/
structure Gives (e : Env n) (l : Lhs n) (p : Ptr n) (k : Fin n) (start : Nat) : Prop where
  object : Object e k start
  eff : p.eff = k
  place : Points e p start
  part : match l with
    | .name v => (v.self = true → v.super = false ∧ e.isRef v.type = true) ∧ (v.super = true → cls e.w p.target = cls e.w v.type) ∧
        (v.super = false → e.isRef v.type = false → cls e.w v.type = k ∧ cls e.w p.target = k)
    | .member _ v => v.self = false ∧ v.super = false ∧ e.isRef v.type = false ∧ cls e.w v.type = k ∧ cls e.w p.target = k
    | .base _ t => cls e.w p.target = cls e.w t
    | .call _ t => e.isRef t = true ∨ cls e.w t = k ∧ cls e.w p.target = k

/-- What the name noted in the pointer finds in the current scope does no harm: nothing; a variable whose class does not
inherit from the part, or is the object's; or a reference whose storage type is a part at the place of the pointer. A pointer to a
part that was named by its class has no name noted. -/
def Harmless (e : Env n) (l : Lhs n) (p : Ptr n) (start : Nat) : Option (Sym n) → Prop
  | none => True
  | some s =>
    (∀ l' t, l ≠ .base l' t) ∧ (∀ v, l = .name v → v.super = false) ∧
    match s.alt with
    | .no => e.atom s.type = true ∨ ¬ Ancestor e.w (cls e.w s.type) (cls e.w p.target) ∨ s.type = p.eff
    | _ => s.super = false ∧ s.storage ≠ e.w.nouti ∧ Points e { p with target := s.storage } start ∧
        (¬ ByReference e l → cls e.w s.storage = p.eff)

end Ulam.Dispatch.Spec
