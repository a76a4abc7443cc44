import Verif.CallParse.Model
/-!
# Reading parameters and arguments of functions (specification)
-/
namespace Ulam.CallParse

/-- A list of parameters as it should be written: with commas between, perhaps an ellipsis last, and a closing parenthesis. -/
def proper : List (Nat × Nat) → Bool → List Tok
  | [], false => [.close]
  | [], true => [.ell, .close]
  | [(t, n)], false => [.ty t, .id n, .close]
  | (t, n) :: l, v => [.ty t, .id n, .comma] ++ proper l v

/-- The same with any of the commas between parameters left out, or one too many behind the last. -/
inductive Loose : List (Nat × Nat) → Bool → List Tok → Prop
  | close : Loose [] false [.close]
  | dots : Loose [] true [.ell, .close]
  | bare {t n l v w} : Loose l v w → Loose ((t, n) :: l) v (.ty t :: .id n :: w)
  | sep {t n l v w} : Loose l v w → Loose ((t, n) :: l) v (.ty t :: .id n :: .comma :: w)

/-- What a function of a kind may have: no constructor is without parameters, no operator has more than one, and only a
native function takes variable arguments. -/
def Allowed (k : Kind) (l : List (Nat × Nat)) (v : Bool) : Prop :=
  (k.constr → l ≠ []) ∧ (k.op → l.length ≤ 1) ∧ (v → k.native)

/-- The arguments of a call as they should be written. -/
def properArgs : List Nat → List Tok
  | [] => [.close]
  | [e] => [.ex e, .close]
  | e :: l => [.ex e, .comma] ++ properArgs l

/-- Places between commas, each with an argument or without. -/
def places : List (Option Nat) → List Tok
  | [] => []
  | [a] => (a.map Tok.ex).toList ++ [.close]
  | a :: l => (a.map Tok.ex).toList ++ [.comma] ++ places l

end Ulam.CallParse
