import Verif.FuncTable.Model
import Verif.Walker.Spec
/-! # What the functions of a hierarchy should agree on (specification for C101) -/
namespace Ulam.FuncTable.Spec
open Ulam.FuncTable

/-- Two functions are called in the same way. -/
def SameSignature (f g : Fun) : Prop := f.name = g.name ∧ f.params = g.params

/-- Functions called in the same way return the same type. -/
def Agree (l : List Fun) : Prop := ∀ f ∈ l, ∀ g ∈ l, SameSignature f g → f.ret = g.ret

/-- No two functions of the list, at different places, are called in the same way. -/
def Distinct (l : List Fun) : Prop := l.Pairwise fun f g => ¬ SameSignature f g

/-- As `Distinct`, excused when the first one in the list is virtual. -/
def Excused (l : List Fun) : Prop :=
  ∀ pre f suf, l = pre ++ f :: suf → (∀ g ∈ pre, ¬ SameSignature g f) → (∃ g ∈ suf, SameSignature f g) → f.virt = true

/-- The type a parameter will be compared by while parsing: its number, whether it is a reference without a type of its own,
and, as long as it is unknown, the function it is of. -/
def denotes : Param → Nat × Bool × Option Nat
  | .hazy u k => (u, false, some k)
  | .unset g r => (g, r, none)
  | .known u => (u, false, none)

end Ulam.FuncTable.Spec
