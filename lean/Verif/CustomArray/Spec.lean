import Verif.CustomArray.Model
/-! # What a subscript on an object of a class should call (specification for C102) -/
namespace Ulam.CustomArray.Spec
open Ulam.CustomArray

mutual
/-- A class and its ancestors, each class before its bases, the superclass first. -/
def lineage : Tree → List Tree
  | .node c i bases => .node c i bases :: lineages bases
def lineages : List Tree → List Tree
  | [] => []
  | b :: l => lineage b ++ lineages l
end

mutual
/-- The classes with a function `aref` for the argument that no class nearer to the object on the way there has one for. -/
def providers : Tree → List Tree
  | .node c i bases => if i.hits > 0 then [.node c i bases] else providersOf bases
def providersOf : List Tree → List Tree
  | [] => []
  | b :: l => providers b ++ providersOf l
end

/-- All functions `aref` of a class return type `t`, which is not `Void`. -/
def Returns (void : Nat) (i : Info) (t : Nat) : Prop := i.rets ≠ [] ∧ t ≠ void ∧ ∀ r ∈ i.rets, r = t

/-- One class provides the function, by one function; by however many ways it is inherited. -/
def OneProvider (t : Tree) : Prop := ∃ p ∈ providers t, p.info.hits = 1 ∧ ∀ q ∈ providers t, q.cls = p.cls

end Ulam.CustomArray.Spec
