import Verif.Overload.Model
import Verif.Walker.Spec
/-! # Which function a call means (specification for C17) -/
namespace Ulam.Overload.Spec
open Ulam.Overload
open Ulam.Walker.Spec (SelfOrAncestor)
variable {n : Nat}

/-- The function takes that many arguments. -/
def Arity (f : Func) (args : List Arg) : Prop :=
  f.params.length = args.length ∨ (f.variadic = true ∧ f.params.length ≤ args.length)

/-- The argument's type is not the parameter's, but it can be passed with a safe cast: a constant by its value, and to a
reference only a constant one and not by an explicit cast; anything else by its type. -/
def Converts (T : TypeInfo) (p : Param) (a : Arg) : Prop :=
  (a.const = true ∧ a.cast p.type = .clear ∧ (T.altRef p.type = true → p.const = true ∧ a.explicit = false)) ∨
  (a.const = false ∧ T.safeCast p.type a.type = .clear ∧ ¬ (T.constRef p.type = true ∧ a.explicit = true))

/-- What holds of every parameter and the argument at its place. -/
def Each (R : Param → Arg → Prop) (f : Func) (args : List Arg) : Prop :=
  ∀ (i : Nat) (p : Param) (a : Arg), f.params[i]? = some p → args[i]? = some a → R p a

/-- The call is possible with this function. -/
def Applicable (T : TypeInfo) (f : Func) (args : List Arg) : Prop :=
  Arity f args ∧ Each (fun p a => T.compare p.type a.type = .same ∨ Converts T p a) f args

/-- The parameters have the types of the arguments. -/
def Exact (T : TypeInfo) (f : Func) (args : List Arg) : Prop :=
  Arity f args ∧ Each (fun p a => T.compare p.type a.type = .same) f args

/-- The call is possible, there are no extra arguments, and all are of the parameters' kinds (`Int`, `Unsigned`, ...; the
sizes may differ). -/
def SameKind (T : TypeInfo) (f : Func) (args : List Arg) : Prop :=
  Applicable T f args ∧ f.params.length = args.length ∧
    Each (fun p a => T.compare p.type a.type = .same ∨ T.kind p.type = T.kind a.type) f args

/-- Everything about this function and these arguments is known. -/
def Known (T : TypeInfo) (f : Func) (args : List Arg) : Prop :=
  Arity f args → Each (fun p a => T.ok p.type = true ∧ T.complete p.type = true ∧ T.ok a.type = true ∧
    T.compare p.type a.type ≠ .dontKnow ∧ a.cast p.type ≠ .hazy ∧ T.safeCast p.type a.type ≠ .hazy) f args

/-- The best function of one class: the only applicable one, or else the only one of the same kinds. -/
def Best (T : TypeInfo) (fs : List Func) (args : List Arg) (f : Func) : Prop :=
  f ∈ fs ∧ Applicable T f args ∧
    ((∀ g ∈ fs, Applicable T g args → g = f) ∨ (SameKind T f args ∧ ∀ g ∈ fs, SameKind T g args → g = f))

/-- The functions a call through class `c` can mean: those of the class and of its ancestors. -/
def Visible (P : Program n) (c x : Fin n) (f : Func) : Prop :=
  P.w.defined x = true ∧ SelfOrAncestor P.w (P.w.root c) x ∧ f ∈ P.funcs x

end Ulam.Overload.Spec
