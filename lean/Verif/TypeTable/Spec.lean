import Verif.TypeTable.Model
/-! What type numbers are for, said without the tables of the model. -/
namespace Ulam.TypeTable.Spec
open Ulam.Keys (Key)

/-- In this state, number `u` stands for the type with signature `k`. -/
def Denotes (s : State) (u : Nat) (k : Key) : Prop := s.keys[u]? = some k

/-- The number whose meaning an operation is asked to change. -/
def subject : Op → Option Nat
  | .make .. => none
  | .holder => none
  | .fromHolder _ _ u _ => some u
  | .replace old _ => some old
  | .cleanup huti _ _ _ => some huti
  | .sizes u _ _ _ => some u
  | .holderSize u _ _ => some u
  | .classSize u _ _ _ _ _ => some u
  | .forget u => some u

/-- Operations as the compiler uses them: never on number 0, which stands for "no type", and a number is not replaced by
itself. -/
def Proper (o : Op) : Prop := subject o ≠ some 0 ∧ ∀ a b, o = .replace a b → a ≠ b

/-- Requests only: for a number for a type, or for a type to be named later. -/
def Request : Op → Prop
  | .make .. => True
  | .holder => True
  | _ => False

/-- Sizes known. -/
def Known (k : Key) : Prop := k.bits > -2 ∧ k.arraySize ≠ -2

/-- The signature of a type that is not a class. -/
def Plain (k : Key) : Prop := k.classInstanceIdx = 0

/-- The state the compiler starts from: only the first type, "no type", has been made (Parser.cpp:7160-7165). -/
def start (no : Key) : State := ⟨[no], [(no, 0)], [(no, [0])], [0]⟩

/-- Reached from there by operations as the compiler uses them. -/
def Reachable (no : Key) (s : State) : Prop := ∃ os, (∀ o ∈ os, Proper o) ∧ run (start no) os = some s

/-- The types behind the numbers the compiler uses by name (enum of include/Constants.h:57-61, sizes in include/UlamType.inc; the rest
in include/Constants.h and Parser.cpp:7227-7276): kinds in order, then pointer and atom by reference, ASCII, and the 64-bit ones.
`nm` gives the string ids of the names. -/
def wellKnown (nm : Nat → Nat) (i : Nat) : Key :=
  if i = 15 then ⟨nm 11, 71, -1, 0, 2⟩ -- pointer, by reference
  else if i = 16 then ⟨nm 10, 96, -1, 0, 2⟩ -- atom, by reference
  else if i = 17 then ⟨nm 5, 8, -1, 0, 0⟩ -- ASCII is Unsigned(8)
  else if i = 18 then ⟨nm 4, 64, -1, 0, 0⟩ -- Int(64)
  else if i = 19 then ⟨nm 5, 64, -1, 0, 0⟩ -- Unsigned(64)
  else if i = 20 then ⟨nm 8, 64, -1, 0, 0⟩ -- Bits(64)
  else ⟨nm i, if i = 1 ∨ i = 2 ∨ i = 12 then -2 else if i = 4 ∨ i = 5 ∨ i = 7 ∨ i = 8 then 32 else if i = 6 then 1
    else if i = 10 then 96 else if i = 11 then 71 else if i = 14 then 18 else 0, -1, if i = 9 then 9 else 0, 0⟩

end Ulam.TypeTable.Spec
