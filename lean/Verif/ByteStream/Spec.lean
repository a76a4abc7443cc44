import Verif.ByteStream.Model
/-! What a byte stream is for, and what a printed number is. -/
namespace Ulam.ByteStream.Spec

/-- What a bounded stream holds: the bytes accepted since it was last emptied, and how many of them have been read. -/
structure Queue where
  bytes : List Nat
  taken : Nat

/-- The bytes and answers a bounded first-in first-out stream gives. -/
def next (len : Nat) (q : Queue) : Op → Queue × Int
  | .write x => if q.bytes.length < len then (⟨q.bytes ++ [x], q.taken⟩, 0) else (q, -1)
  | .read => match q.bytes[q.taken]? with
    | some b => (⟨q.bytes, q.taken + 1⟩, b)
    | none => (q, if q.bytes.length < len then -2 else -1)
  | .reread => (⟨q.bytes, 0⟩, 0)
  | .rewrite => (⟨[], q.taken⟩, 0)
  | .reset => (⟨[], 0⟩, 0)

def answers (len : Nat) (q : Queue) : List Op → List Int
  | [] => []
  | o :: os => (next len q o).2 :: answers len (next len q o).1 os

/-- The bytes offered by the writes of a history. -/
def offered : List Op → List Nat
  | [] => []
  | .write x :: os => x :: offered os
  | _ :: os => offered os

/-- The bytes answered by the reads of a history. -/
def got : List Op → List Int → List Nat
  | .read :: os, a :: as => if 0 ≤ a then a.toNat :: got os as else got os as
  | _ :: os, _ :: as => got os as
  | _, _ => []

def OnlyReadsAndWrites (os : List Op) : Prop := ∀ o ∈ os, o = .read ∨ ∃ x, o = .write x

/-- The number a list of digits stands for. -/
def value (base : Nat) (ds : List Nat) : Nat := ds.foldl (fun v d => v * base + d) 0

/-- The character of a digit: `0` to `9`, then `a` onwards. -/
def digitChar (d : Nat) : Nat := if d < 10 then 48 + d else 97 + (d - 10)

/-- These characters are the numeral of `n`: its digits, without leading zeros. -/
def Numeral (base : Nat) (cs : List Nat) (n : Nat) : Prop :=
  ∃ ds : List Nat, cs = ds.map digitChar ∧ (∀ d ∈ ds, d < base) ∧ value base ds = n ∧ ds ≠ [] ∧ (ds.head? = some 0 → ds = [0])

/-- The same for integers, with a minus sign (45). -/
def SignedNumeral (cs : List Nat) (n : Int) : Prop :=
  if n < 0 then ∃ ds, cs = 45 :: ds ∧ Numeral 10 ds n.natAbs else Numeral 10 cs n.natAbs

/-- The bytes sent to a stream: what is printed. -/
def sink (s : List Nat) (x : Nat) : Option (List Nat) := some (s ++ [x])

end Ulam.ByteStream.Spec
