import Verif.Proxy.Model
import Verif.Types.Spec
/-!
# What type constants and declared sizes should be (specification for C75-C77)

In terms of the values of types (`Verif.Types.Spec`).
-/
namespace Ulam.Proxy.Spec
open Ulam.Types Ulam.Types.Spec

/-- The library function gives the number a stored value stands for, when C's type of the same word has it. -/
def Faithful (lib : Lib) : Prop :=
  ∀ w b n x, Numeric b → (w = 32 ∨ w = 64) → 1 ≤ n → n ≤ w → (b = .int ∨ x < 2 ^ n) →
    number b n (x % 2 ^ n) < 2 ^ (w - 1) → lib.cs w b x n = number b n (x % 2 ^ n)

/-- `raw` stands for the greatest number of the type. -/
def Greatest (b : Base) (n raw : Nat) : Prop := raw < 2 ^ n ∧ ∀ r, r < 2 ^ n → number b n r ≤ number b n raw

/-- `raw` stands for the least number of the type. -/
def Least (b : Base) (n raw : Nat) : Prop := raw < 2 ^ n ∧ ∀ r, r < 2 ^ n → number b n raw ≤ number b n r

/-- The register, a word of 32 or 64 bits, holds the stored value: an `Int` sign-extended, anything else as it is. -/
def Holds (b : Base) (n raw reg : Nat) : Prop :=
  let w := if n ≤ 32 then 32 else 64
  reg < 2 ^ w ∧ match b with
    | .int => number .int w reg = number .int n raw ∧ reg % 2 ^ n = raw
    | _ => reg = raw

/-- Largest size of a primitive type. -/
def maxBits : Base → Nat
  | .bits => 8192
  | _ => 64

end Ulam.Proxy.Spec
