import Verif.VarInit.Model
/-!
# Constants on the constant stack of the evaluator (model)

What is put on the constant stack for a named constant: /repo/src/ulam/NodeConstantDef.cpp:1310-1339 (assignConstantSlotIndex),
1341-1445 (setupStackWithPrimitiveForEval), 1447-1593 (setupStackWithConstantClassForEval);
/repo/src/ulam/SymbolWithValue.cpp:96-117 (the folded value); /repo/src/ulam/SymbolClass.cpp:663-675 (getDefaultQuark).

Simplifications. As for variables (`VarInit`). A constant has its folded value, ready; atoms are left out, and so is a constant
array of primitives of more than 64 bits defined by the name of another. The items of a list of initialisers are their values,
already of the type of the items. The default of the class is ready.
-/
namespace Ulam.ConstSlot
open Ulam.Packed Ulam.VarInit

/-- How a constant array of primitives is defined: nothing, or a list of values. -/
inductive Init where
  | nothing
  | list (vals : List Nat)

/-- A value of one item made of a number: what `NodeList::eval` leaves on the stack. -/
def itemValue (t : VTy) (v : Nat) : Option Bits :=
  if t.bits ≤ 32 then makeImmediate t.scalar v else if t.bits ≤ 64 then makeImmediateLong t.scalar v else none

/-- `setupStackWithPrimitiveForEval`; NodeConstantDef.cpp:1341-1445, `value` being the folded value. -/
def constPrimitive (t : VTy) (value : Bits) (init : Init) : Out :=
  if packFit t = .loadable then
    let dval := readBits value 0 t.total
    Out.one (if t.total ≤ 32 then makeImmediate t (dval % 2 ^ 32)
      else if t.total ≤ 64 then makeImmediateLong t dval else none)
  else
    match init with
    | .nothing =>
      match itemValue t 0 with
      | none => .abort
      | some b => .ok (List.replicate (slotsNeeded t) b)
    | .list vals =>
      match itemValue t 0 with
      | none => .abort
      | some b =>
        let n := vals.length
        if n = 0 then .ok (List.replicate (slotsNeeded t) b)
        else Out.all (fill (fun j => (vals[if j < n then j else n - 1]?).bind (itemValue t)) (slotsNeeded t))

/-- The value of item `j` of a class constant; NodeConstantDef.cpp:1517-1589. -/
def constItem (t : VTy) (value : Bits) (j : Nat) : Option Bits :=
  match t.kind with
  | .quark =>
    if t.bits ≤ 32 then makeImmediateClass (readBits value (j * t.bits) t.bits) t.bits
    else if t.bits ≤ 64 then makeImmediateLongClass (readBits value (j * t.bits) t.bits) t.bits else none
  | .element => putDataBig clear 0 96 fun i => value (j * 96 + i)
  | .transient =>
    if t.bits ≤ 32 then makeImmediateClass (readBits value (j * t.bits) t.bits) t.bits
    else if t.bits ≤ 64 then makeImmediateLongClass (readBits value (j * t.bits) t.bits) t.bits
    else if t.bits ≤ 71 then putDataBig clear 25 t.bits fun i => value (j * t.bits + i) else none
  | .prim => none

/-- The default of a class constant without initialisers; NodeConstantDef.cpp:1486-1497. -/
def constDefault (t : VTy) (dv : Bits) : Option Bits :=
  match t.kind with
  | .quark => makeImmediateLongClass (readBits dv 0 t.bits % 2 ^ 32) t.bits
  | .element => makeDefaultAtom t.scalar dv
  | _ => none

/-- `setupStackWithConstantClassForEval`; NodeConstantDef.cpp:1447-1593; `empty`: the list of initialisers is empty. -/
def constClass (t : VTy) (value dv : Bits) (empty : Bool) : Out :=
  if packFit t = .loadable then
    let dval := readBits value 0 t.total
    Out.one (if t.total ≤ 32 then makeImmediateClass (dval % 2 ^ 32) t.total
      else if t.total ≤ 64 then makeImmediateLongClass dval t.total else none)
  else if empty then
    match constDefault t dv with
    | none => .abort
    | some b => .ok (List.replicate (slotsNeeded t) b)
  else Out.all (fill (constItem t value) (slotsNeeded t))

/-- `assignConstantSlotIndex`; NodeConstantDef.cpp:1310-1339: the slots, and the index for the next constant. -/
def assignSlots (t : VTy) (value dv : Bits) (init : Init) (empty : Bool) (idx : Nat) : Out × Nat :=
  if t.kind = .prim then (constPrimitive t value init, idx + slotsNeeded t)
  else if t.kind = .element ∨ t.kind = .quark ∨ t.bits ≤ 71 then (constClass t value dv empty, idx + slotsNeeded t)
  else (.unevaluable, idx)

end Ulam.ConstSlot
