import Verif.Virtual.Model
/-!
# The tables of virtual functions in the generated code (model)

`NodeBlockClass.cpp:4311-4620`: the table of functions, the table of starts by registration number, the enumerators, and the
accessors written for a class; `NodeFunctionCall.cpp:1408-1751`: what a call passes to them, and the calls decided when compiling.
The tables they are written from are those of `Verif.Virtual.Model`.

Simplifications. A class has the number of its symbol as name. The position of a class in another
(`getABaseClassRelativePositionInAClass`, C15), the registration numbers (C37) and the mangled names of functions (C03) are
parameters. `UlamRef` is in the MFM library: it is taken that it looks up, in the class asked, the entry at the start for the
registration number plus the index. A stored 16 bit start is taken modulo 2^16, as the compiler that does not refuse it would.
-/
namespace Ulam.VtGen
open Ulam.Virtual
variable {n : Nat}

/-- An entry `VTentry` of the table: `PureVirtualFunctionCalled` with the instance of `Empty`, or a function of a class with the
instance of that class. -/
inductive Slot (n : Nat)
  | pure
  | fn (cls : Fin n) (name : Nat)
  deriving DecidableEq

/-- The entry written for `e`, `NodeBlockClass.cpp:4398-4453`; the position of the class is asserted to be known. -/
def slot (rel : Fin n → Fin n → Option Nat) (name : Nat → Nat) (c : Fin n) (e : VTEntry n) : Option (Slot n) :=
  if e.pure then some .pure
  else if (rel c e.ofClass).isSome then some (.fn e.ofClass (name e.func.2))
  else none

/-- What a loop writes, `none` if an assertion fails in one of its turns. -/
def collect {α : Type} : List (Option α) → Option (List α)
  | [] => some []
  | none :: _ => none
  | some x :: l => (collect l).map (x :: ·)

/-- The loop `NodeBlockClass.cpp:4396-4454` over the entries; `none` is a failed assertion (in an accessor of the symbol, that the
index is inside of the table). -/
def table (rel : Fin n → Fin n → Option Nat) (name : Nat → Nat) (c : Fin n) (k : ClassSt n) (maxidx : Nat) : Option (List (Slot n)) :=
  collect ((List.range maxidx).map fun i => (k.vtable[i]?).bind (slot rel name c))

/-- `SymbolClass.cpp:1942-1960` `convertVTstartoffsetmap`: `none` if two classes have one number. -/
def convert (reg : Fin n → Nat) : List (Fin n × Nat) → List (Nat × Nat) → Option (List (Nat × Nat))
  | [], m => some m
  | (o, t) :: l, m => if m.any fun x => x.1 == reg o then none else convert reg l (m ++ [(reg o, t)])

/-- `NodeBlockClass.cpp:4583-4595`, as `u16`. -/
def starts (reg : Fin n → Nat) (maxreg : Nat) (k : ClassSt n) : Option (List Nat) :=
  (convert reg k.starts []).map fun m =>
    (List.range maxreg).map fun i => ((m.find? fun x => x.1 == i).map Prod.snd).getD 0 % 65536

/-- `NodeBlockClass.cpp:4333-4350`: the enumerators `VOWNED_IDX_…` of class `c`, in order from 0. -/
def enumerators (name : Nat → Nat) (c : Fin n) (k : ClassSt n) : Option (List Nat) :=
  (startOf k c).bind fun t => collect ((List.range k.owned.length).map fun i => (k.vtable[i + t]?).map fun e => name e.func.2)

/-- What is written for a class. -/
structure Gen (n : Nat) where
  table : List (Slot n)
  starts : List Nat
  names : List Nat

/-- What is written for class `c`: nothing if there are no virtual functions (`NodeBlockClass.cpp:4324-4328`, `4533-4537`); `none` is a
failed assertion. -/
def gen (rel : Fin n → Fin n → Option Nat) (reg : Fin n → Nat) (maxreg : Nat) (name : Nat → Nat) (c : Fin n) (k : ClassSt n) :
    Option (Option (Gen n)) :=
  match k.max with
  | none => none
  | some m =>
    if m = 0 then some none
    else match table rel name c k m, starts reg maxreg k, enumerators name c k with
    | some t, some s, some e => some (some ⟨t, s, e⟩)
    | _, _, _ => none

/-- The accessor for the starts, `NodeBlockClass.cpp:4600-4619`: `none` is `FAIL(ARRAY_INDEX_OUT_OF_BOUNDS)`. -/
def getStart (g : Gen n) (rn : Nat) : Option Nat := if rn ≥ g.starts.length then none else g.starts[rn]?

/-- The accessor for the entries, `NodeBlockClass.cpp:4461-4516`. -/
def getEntry (g : Gen n) (idx : Nat) : Option (Slot n) := if idx ≥ g.table.length then none else g.table[idx]?

/-- The entry at the start for the registration number plus the index (`UlamRef` of the MFM library). -/
def lookup (g : Gen n) (rn idx : Nat) : Option (Slot n) := (getStart g rn).bind fun s => getEntry g (s + idx)

/-- The value of the enumerator `VOWNED_IDX_` of a name. -/
def enumValue (g : Gen n) (name : Nat) : Option Nat :=
  if name ∈ g.names then some (g.names.idxOf name) else none

/-- What a call of the function `f` gets when the table of a class is looked up as the program runs:
`NodeFunctionCall.cpp:1596-1699`, `1701-1751`; `g` is what was written for the class whose table is used (the effective self, or the
class named), `go` for the class the function begins in. -/
def callEntry (reg : Fin n → Nat) (name : Nat → Nat) (g go : Gen n) (f : Func n) : Option (Slot n) :=
  match f.orig with
  | none => none
  | some o => (enumValue go (name f.sig)).bind fun i => lookup g (reg o) i

/-- A call decided when compiling, `NodeFunctionCall.cpp:1525-1592`: the entry of the table of class `c`; `Slot.pure` is the error
message. `none`: no such entry. -/
def staticEntry (name : Nat → Nat) (k : ClassSt n) (f : Func n) : Option (Slot n) :=
  match f.orig with
  | none => none
  | some o => (startOf k o).bind fun s => (k.vtable[f.vidx + s]?).map fun e =>
      if e.pure then .pure else .fn e.ofClass (name e.func.2)

end Ulam.VtGen
