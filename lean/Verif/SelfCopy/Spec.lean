import Verif.BaseCopy.Spec
/-
What `self` in a function of C refers to, besides what `Placed` says of a reference
to C: it points to the members of C in the object.
-/
namespace Ulam.SelfCopy
open Ulam.BaseCopy

/-- The position of the reference in the object is that of C in the class of the
object. -/
def AtOwn (C : Cls) (r : Ref) : Prop := r.relPos C.id = r.postoeff

end Ulam.SelfCopy
