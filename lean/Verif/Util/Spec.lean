/-
How a reader takes escaped text and hexadecimal numbers apart: written from
the meaning of the notation, without using the printing functions.
-/
namespace Ulam.Util

/-- The value of a hexadecimal digit (lower case). -/
def hexVal (c : Nat) : Option Nat :=
  if 48 ≤ c ∧ c ≤ 57 then some (c - 48)
  else if 97 ≤ c ∧ c ≤ 102 then some (c - 87)
  else none

/-- Percent decoding: a percent sign is followed by two hexadecimal digits. -/
def unescape : List Nat → Option (List Nat)
  | [] => some []
  | 37 :: a :: b :: s =>
    match hexVal a, hexVal b with
    | some x, some y => (unescape s).map ((16 * x + y) :: ·)
    | _, _ => none
  | 37 :: _ => none
  | c :: s => (unescape s).map (c :: ·)

/-- The number a string of hexadecimal digits stands for. -/
def hexValue (acc : Nat) : List Nat → Option Nat
  | [] => some acc
  | c :: s =>
    match hexVal c with
    | some d => hexValue (acc * 16 + d) s
    | none => none

end Ulam.Util
