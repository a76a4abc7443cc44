import Verif.Cast.Model
import Verif.Types.Spec
/-!
# What a cast means (specification for C67)

Numbers go to the nearest number the destination has. Truth values go to 1 and 0, numbers to "not zero". From and to
`Bits` only the bits count, as many low ones as the destination has. The specification knows nothing of words, functions
or immediates.
-/
namespace Ulam.Cast.Spec
open Ulam.Types Ulam.Types.Spec

/-- `w` is a number of the type, and no number of the type is nearer to `v`. -/
def Nearest (b : Base) (t : Nat) (v w : Int) : Prop :=
  InRange b t w ∧ ∀ u, InRange b t u → (v - w).natAbs ≤ (v - u).natAbs

/-- `raw'` in the destination is what the cast of `raw` should be; `valid` tells which numbers are strings. -/
def Carried (valid : Nat → Bool) (tb : Base) (t raw' : Nat) (fb : Base) (n raw : Nat) : Prop :=
  match fb, tb with
  | .bits, _ | _, .bits => raw' = raw % 2 ^ t
  | .string, .string => raw' = raw
  | .string, .bool => truth .bool t raw' = valid raw
  | .bool, .bool => truth .bool t raw' = truth .bool n raw
  | _, .bool => truth .bool t raw' = decide (number fb n raw ≠ 0)
  | .bool, _ => Nearest tb t (truth .bool n raw).toNat (number tb t raw')
  | _, _ => Nearest tb t (number fb n raw) (number tb t raw')

/-- The five sized primitive kinds. -/
def Sized (b : Base) : Prop := b = .int ∨ b = .unsigned ∨ b = .unary ∨ b = .bool ∨ b = .bits

instance (b : Base) : Decidable (Sized b) := by unfold Sized; infer_instance

/-- A scalar value type of at most 64 bits; a `String` has 18. -/
def Scalar (t : Ty) : Prop :=
  t.arr = -1 ∧ t.alt = .notRef ∧ 1 ≤ t.bits ∧ t.bits ≤ 64 ∧ (Sized t.base ∨ (t.base = .string ∧ t.bits = 18))

instance (t : Ty) : Decidable (Scalar t) := by unfold Scalar; infer_instance

/-- The conversion functions the library is assumed to provide. -/
def Provided (f : Fn) : Prop :=
  (Sized f.src ∧ Sized f.dst ∧ (f.word = 32 ∨ f.word = 64)) ∨
    f = ⟨.string, .bool, 32⟩ ∨ f = ⟨.bits, .string, 32⟩ ∨ f = ⟨.string, .bits, 32⟩

/-- The library functions do what their names say, for lengths within their word. -/
def Faithful (ext : Ext) (cnt : Nat) (valid : Nat → Bool) : Prop :=
  ∀ f, Provided f → ∀ n t raw, 1 ≤ n → n ≤ f.word → 1 ≤ t → t ≤ f.word → raw < 2 ^ n →
    Carried valid f.dst t (ext f raw n t cnt % 2 ^ t) f.src n raw

end Ulam.Cast.Spec
