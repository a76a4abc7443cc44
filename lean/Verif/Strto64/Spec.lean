/-!
# What a number literal denotes (specification for C05, C06)

Independent of the model: a literal is white space with at most one sign among it, then a body. The body's digits
are given by a grammar; its value is positional.
-/
namespace Ulam.Strto64.Spec

/-- Text of an ASCII string as bytes. -/
def bytes (s : String) : List Nat := s.toList.map Char.toNat

/-- The value of a digit character in a base, if it is one (letters in either case). -/
inductive IsDigit (base : Nat) : Nat → Nat → Prop
  | dec {c} : 48 ≤ c → c ≤ 57 → c - 48 < base → IsDigit base c (c - 48)
  | lower {c} : 97 ≤ c → c ≤ 122 → c - 87 < base → IsDigit base c (c - 87)
  | upper {c} : 65 ≤ c → c ≤ 90 → c - 55 < base → IsDigit base c (c - 55)

/-- `Digits base ds cs`: the characters `cs` are the digits `ds` in base `base`. -/
inductive Digits (base : Nat) : List Nat → List Nat → Prop
  | nil : Digits base [] []
  | cons {d ds c cs} : IsDigit base c d → Digits base ds cs → Digits base (d :: ds) (c :: cs)

/-- Positional value, most significant digit first. -/
def value (base : Nat) : List Nat → Nat
  | [] => 0
  | d :: ds => d * base ^ ds.length + value base ds

/-- Optional unsigned suffix. -/
inductive Suffix : List Nat → Prop
  | none : Suffix []
  | u : Suffix [117]
  | U : Suffix [85]

/-- `Body cs n`: the unsigned literal text `cs` denotes `n`. -/
inductive Body : List Nat → Nat → Prop
  /-- `0`, `0u` -/
  | zero {t} : Suffix t → Body (48 :: t) 0
  /-- decimal: first digit 1-9 -/
  | decimal {d ds cs t} : 1 ≤ d → Digits 10 (d :: ds) cs → Suffix t → Body (cs ++ t) (value 10 (d :: ds))
  /-- hexadecimal `0x...` (the code also accepts no digits at all) -/
  | hex {x ds cs t} : x = 120 ∨ x = 88 → Digits 16 ds cs → Suffix t → Body (48 :: x :: (cs ++ t)) (value 16 ds)
  /-- binary `0b...` -/
  | binary {x ds cs t} : x = 98 ∨ x = 66 → Digits 2 ds cs → Suffix t → Body (48 :: x :: (cs ++ t)) (value 2 ds)
  /-- octal `0` followed by at least one octal digit -/
  | octal {d ds cs t} : Digits 8 (d :: ds) cs → Suffix t → Body (48 :: (cs ++ t)) (value 8 (d :: ds))

/-- White space characters. -/
def IsWs (c : Nat) : Prop := c = 32 ∨ (9 ≤ c ∧ c ≤ 13)

/-- `Signed cs neg body`: `cs` is white space and at most one sign followed by `body`; `neg` iff the sign is `-`. -/
inductive Signed : List Nat → Bool → List Nat → Prop
  | plain {w body} : (∀ c ∈ w, IsWs c) → Signed (w ++ body) false body
  | plus {w w' body} : (∀ c ∈ w, IsWs c) → (∀ c ∈ w', IsWs c) → Signed (w ++ 43 :: (w' ++ body)) false body
  | minus {w w' body} : (∀ c ∈ w, IsWs c) → (∀ c ∈ w', IsWs c) → Signed (w ++ 45 :: (w' ++ body)) true body

/-- `Denotes cs neg n`: the literal `cs` denotes `n`, negated iff `neg`. -/
def Denotes (cs : List Nat) (neg : Bool) (n : Nat) : Prop := ∃ body, Signed cs neg body ∧ Body body n

/-- The integer a literal denotes. -/
def signedValue (neg : Bool) (n : Nat) : Int := if neg then -(n : Int) else n

end Ulam.Strto64.Spec
