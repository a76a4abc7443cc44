import Verif.Mangle.Model
import Mathlib.Data.List.Forall2
/-! # When types and template arguments are the same (specification for C02-C04) -/
namespace Ulam.Mangle.Spec
open Ulam.Mangle Ulam.Leximited

/-- Legal shapes: array size at least -1, bit size not negative, both 32-bit. -/
def Legal (k : Shape) : Prop := -1 ≤ k.arr ∧ 0 ≤ k.bits

/-- What a stored item means to the program. -/
inductive Meaning
  | num (v : Int) | truth (b : Bool) | text (bytes : List Nat)
  deriving DecidableEq

/-- Meaning of a stored item of a primitive type. -/
def meaning (pool : Nat → List Nat) (c : Code) (bs raw : Nat) : Meaning :=
  match c with
  | .int => .num (Types.Spec.twos bs raw)
  | .unary => .num (Types.Spec.ones bs raw)
  | .bool => .truth (decide (2 * Types.Spec.ones bs raw > bs))
  | .string => .text (pool raw)
  | _ => .num raw

/-- A user string as stored (`Lexer.cpp:932-936`): its length byte, its characters, a null byte; the empty string is a
single null byte. -/
def UserString (d : List Nat) : Prop :=
  ∃ cs : List Nat, d = (if cs = [] then [0] else cs.length :: (cs ++ [0])) ∧ cs.length < 256 ∧ ∀ c ∈ cs, c < 256

/-- Base types of template parameters that are not classes. -/
def ValueCode (c : Code) : Prop :=
  c = .int ∨ c = .unsigned ∨ c = .bool ∨ c = .unary ∨ c = .bits ∨ c = .string

/-- A template argument with a value of its type. -/
def WF (pool : Nat → List Nat) : Arg → Prop
  | .prim k c items => Legal k ∧ k.ref = false ∧ ValueCode c ∧ 1 ≤ k.bits ∧ k.bits ≤ 64 ∧ items.length = count k ∧
      (∀ i ∈ items, i < 2 ^ k.bits.toNat) ∧ (c = .string → ∀ i ∈ items, UserString (pool i))
  | .cls k bits => Legal k ∧ k.ref = false ∧ k.arr = -1 ∧ (bits.length : Int) = k.bits ∧ bits.length ≤ 8192

/-- Two arguments of the same type with the same value. -/
inductive SameArg (pool : Nat → List Nat) : Arg → Arg → Prop
  | prim {k c xs ys} : xs.map (meaning pool c k.bits.toNat) = ys.map (meaning pool c k.bits.toNat) →
      SameArg pool (.prim k c xs) (.prim k c ys)
  | cls {k bits} : SameArg pool (.cls k bits) (.cls k bits)

/-- Arguments whose text shows their whole value: no empty strings (written as nothing at all), and class values of
fewer than 8 bits (line 501 of `SymbolWithValue.cpp` reads the wrong bits from the second hexadecimal digit on). -/
def Small (pool : Nat → List Nat) : Arg → Prop
  | .prim _ c items => c = .string → ∀ i ∈ items, pool i ≠ [0]
  | .cls _ bits => bits.length < 8

/-- Two arguments of the same type. -/
def SameType : Arg → Arg → Prop
  | .prim k c _, .prim k' c' _ => k = k' ∧ c = c'
  | .cls k _, .cls k' _ => k = k'
  | _, _ => False

/-- As `Small`, but scalar strings may be empty. -/
def SmallItems (pool : Nat → List Nat) : Arg → Prop
  | .prim k c items => c = .string → 0 ≤ k.arr → ∀ i ∈ items, pool i ≠ [0]
  | .cls _ bits => bits.length < 8

/-- A parameter type as the parser makes it; class names do not start with a lower case letter and are at most 255
characters. -/
def WFTy (pool : Nat → List Nat) (isTemplate : Str → Bool) : PTy → Prop
  | .prim k _ => Legal k
  | .cls k name args => Legal k ∧ name.length ≤ 255 ∧ (∃ c t, name = c :: t ∧ 'A' ≤ c ∧ c ≤ 'Z') ∧
      (∀ a ∈ args, WF pool a) ∧ (isTemplate name = false → args = [])

/-- Two parameters of the same type. -/
inductive SameTy (pool : Nat → List Nat) : PTy → PTy → Prop
  | prim {k c} : SameTy pool (.prim k c) (.prim k c)
  | cls {k name as bs} : List.Forall₂ (SameArg pool) as bs → SameTy pool (.cls k name as) (.cls k name bs)

def SmallTy (pool : Nat → List Nat) : PTy → Prop
  | .prim .. => True
  | .cls _ _ args => ∀ a ∈ args, Small pool a

end Ulam.Mangle.Spec
