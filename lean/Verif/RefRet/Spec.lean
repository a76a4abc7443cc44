import Verif.RefRet.Model
/-
What a returned reference has to be: it leads to the same slot for the caller as it did inside the
function, and that slot is still there.
-/
namespace Ulam.RefRet

/-- `now` is the call stack inside the function, `back` the one of the caller after the call. -/
def Kept (now back : Stk) (p : Ptr) : Prop := place back p = place now p ∧ place back p < back.size

end Ulam.RefRet
