import Verif.UtiMap.Model
/-! # The types of a class instance in place of those of its template (specification) -/
namespace Ulam.UtiMap

/-- No two types have the same one in their place, and those there are have been made. -/
def Apart (m : Map) (next : Nat) : Prop :=
  (∀ a b u, find m a = some u → find m b = some u → a = b) ∧ ∀ a u, find m a = some u → u < next

end Ulam.UtiMap
