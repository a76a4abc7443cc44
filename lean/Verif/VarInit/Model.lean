import Verif.Packed.Model
/-!
# Local variables of the evaluator (model)

What `NodeVarDecl::eval` puts on the stack for a new local variable: /repo/src/ulam/NodeVarDecl.cpp:955-1229 (eval,
setupStackWithPrimitiveForEval, setupStackWithClassForEval), 1235-1236 and 1241-1242 (evalInitExpr, where an initialised
array, or a class with an initialiser in braces, is left as it is); /repo/src/ulam/UlamValue.cpp:46-70 (makeDefaultAtom), 91-147
(makeImmediate and its relatives), 1004-1011 (putDataBig); /repo/src/ulam/CompilerState.cpp:1730-1775 (the default of a packed
array), 2560-2577 (slotsNeeded); /repo/src/ulam/SymbolWithValue.cpp:177-199, 220-273 (initial values);
/repo/src/ulam/SymbolClass.cpp:677-687 (getPackedDefaultValue).

Simplifications. A value is its 96 bits (`Packed.Bits`); the types and effective types stored beside them are left out, as are
atoms, references, `self`, and initial values that are evaluated (an expression, a function call, a constructor). An initial value
is ready. The default value of the class is given: its bits from 0 on, for an element with the type in the first 25.
-/
namespace Ulam.VarInit
open Ulam.Packed

/-- What a type is; Constants.h, `ULAMCLASSTYPE`. -/
inductive Kind where
  | prim
  | quark
  | element
  | transient
deriving DecidableEq

/-- A type: its kind, the bits of an item, and the array size, if any; `bitsTy` if it is `Bits`. -/
structure VTy where
  kind : Kind
  bits : Nat
  arr : Option Nat
  bitsTy : Bool
deriving DecidableEq

/-- Whether the type is of a class (`getUlamTypeEnum() == Class`). -/
def VTy.cls (t : VTy) : Bool := t.kind != .prim

/-- `getTotalBitSize`; UlamType.cpp:464-472. -/
def VTy.total (t : VTy) : Nat := t.bits * t.arr.getD 1

/-- `getUlamTypeAsScalar`. -/
def VTy.scalar (t : VTy) : VTy := { t with arr := none }

/-- `getPackable`; UlamType.cpp:756-768, UlamTypeClassElement.cpp:83-87. -/
def packFit (t : VTy) : Pack := if t.kind = .element then .unpacked else packable t.total

/-- `getSizeofUlamType`; UlamType.cpp:474-477, UlamTypeClassElement.cpp:89-97. -/
def sizeof (t : VTy) : Nat := if t.kind = .element then 96 * t.arr.getD 1 else t.total

/-- `slotsNeeded`; CompilerState.cpp:2560-2577, `WritePacked` of Constants.h:126. -/
def slotsNeeded (t : VTy) : Nat :=
  match packFit t with
  | .unpacked => t.arr.getD 1
  | _ => 1

/-- Cleared storage; UlamValue.cpp:26-32. -/
def clear : Bits := fun _ => false

/-- `makeImmediate`, with the class's; UlamValue.cpp:91-112. -/
def makeImmediate (t : VTy) (v : Nat) : Option Bits :=
  if t.total ≤ 32 then putData clear (if t.cls then 25 else 96 - t.total) t.total v else none

/-- `makeImmediateClass`; UlamValue.cpp:114-123. -/
def makeImmediateClass (v len : Nat) : Option Bits := if len ≤ 32 then putData clear 25 len v else none

/-- `makeImmediateLong`, with the class's; UlamValue.cpp:125-145. -/
def makeImmediateLong (t : VTy) (v : Nat) : Option Bits :=
  if t.total ≤ 64 then putDataLong clear (if t.cls then 25 else 96 - t.total) t.total v else none

/-- `makeImmediateLongClass`; UlamValue.cpp:147-156. -/
def makeImmediateLongClass (v len : Nat) : Option Bits := if len ≤ 64 then putDataLong clear 25 len v else none

/-- `putDataBig`; UlamValue.cpp:1004-1011. -/
def putDataBig (b : Bits) (pos len : Nat) (bv : Bits) : Option Bits :=
  if pos + len ≤ 96 then some fun i => if pos ≤ i ∧ i < pos + len then bv (i - pos) else b i else none

/-- `makeDefaultAtom` of a scalar class; UlamValue.cpp:46-70. -/
def makeDefaultAtom (t : VTy) (dv : Bits) : Option Bits :=
  let pos := if t.kind = .element then 0 else 25
  let len := if t.kind = .element then 96 else t.total
  if t.kind = .transient ∧ len > 71 then some clear else putDataBig clear pos len dv

/-- The loop of `getDefaultAsPackedArray`, from item `j` on; CompilerState.cpp:1773-1774: u64. -/
def defaultLoop (len bitsize dval : Nat) : Nat → Nat → Nat → Nat
  | 0, _, acc => acc
  | k + 1, j, acc => defaultLoop len bitsize dval k (j + 1) (acc ||| (dval <<< (len - j * bitsize)) % 2 ^ 64)

/-- `getDefaultAsPackedArray`; CompilerState.cpp:1748-1775. -/
def defaultAsPackedArray (t : VTy) (dval : Nat) : Nat :=
  if dval = 0 then 0
  else
    let n := if t.arr.getD 1 > 0 then t.arr.getD 1 else 1
    defaultLoop t.total t.bits (dval % 2 ^ t.bits) (n - 1) 1 dval

/-- `getPackedDefaultClass`; CompilerState.cpp:1730-1746, SymbolClass.cpp:677-687. -/
def packedDefaultClass (t : VTy) (dv : Bits) : Option Nat :=
  if packFit t.scalar = .loadable then some (readBits dv 0 t.bits) else none

/-- What happens at a declaration. -/
inductive Out where
  | unevaluable
  | abort
  | ok (slots : List Bits)

/-- One slot, if the value could be made. -/
def Out.one : Option Bits → Out
  | some b => .ok [b]
  | none => .abort

/-- The slots filled one after the other. -/
def fill (f : Nat → Option Bits) : Nat → Option (List Bits)
  | 0 => some []
  | k + 1 => (fill f k).bind fun l => (f k).map fun b => l ++ [b]

/-- Some slots, if the values could be made. -/
def Out.all : Option (List Bits) → Out
  | some l => .ok l
  | none => .abort

/-- `getArrayItemInitValue` up to 64 bits; SymbolWithValue.cpp:220-253. -/
def itemInit (t : VTy) (iv : Bits) (j : Nat) : Nat := readBits iv (j * t.bits) t.bits

/-- `setupStackWithPrimitiveForEval`; NodeVarDecl.cpp:1008-1088. -/
def setupPrimitive (t : VTy) (init : Option Bits) : Out :=
  if packFit t = .loadable then
    let dval := match init with
      | some iv => readBits iv 0 t.total
      | none => 0
    Out.one (if t.total ≤ 32 then makeImmediate t (dval % 2 ^ 32)
      else if t.total ≤ 64 then makeImmediateLong t dval else none)
  else
    match init with
    | none =>
      let imm := if t.bits ≤ 32 then makeImmediate t.scalar 0
        else if t.bits ≤ 64 then makeImmediateLong t.scalar 0 else none
      match imm with
      | none => .abort
      | some b => .ok (List.replicate (slotsNeeded t) b)
    | some iv =>
      Out.all (fill (fun j =>
        if t.bits ≤ 32 then makeImmediate t.scalar (itemInit t iv j)
        else if t.bits ≤ 64 then makeImmediateLong t.scalar (itemInit t iv j) else none) (slotsNeeded t))

/-- `setupStackWithClassForEval`; NodeVarDecl.cpp:1090-1229.  `abortNeedsATest` (lines 1171 and 1219) is an abort. -/
def setupClass (t : VTy) (dv : Bits) (init : Option Bits) : Out :=
  match t.arr with
  | none =>
    match init with
    | none => Out.one (makeDefaultAtom t dv)
    | some iv =>
      if packFit t = .loadable then Out.one (makeImmediateLong t (readBits iv 0 t.total))
      else Out.one (putDataBig clear 0 (sizeof t) iv)
  | some _ =>
    if packFit t = .loadable then
      match packedDefaultClass t dv with
      | none => .abort
      | some dval =>
        match init with
        | none =>
          let darr := defaultAsPackedArray t dval
          Out.one (if t.total ≤ 32 then makeImmediateClass (darr % 2 ^ 32) t.total
            else if t.total ≤ 64 then makeImmediateLongClass darr t.total else none)
        | some _ => .abort
    else
      match init with
      | none =>
        match makeDefaultAtom t.scalar dv with
        | none => .abort
        | some b => .ok (List.replicate (slotsNeeded t) b)
      | some iv =>
        Out.all (fill (fun j =>
          if t.bits ≤ 32 then makeImmediate t.scalar (itemInit t iv j)
          else if t.bits ≤ 64 then makeImmediateLong t.scalar (itemInit t iv j)
          else none) (slotsNeeded t))

/-- `eval`; NodeVarDecl.cpp:955-1006, for what is not an atom. -/
def declare (t : VTy) (dv : Bits) (init : Option Bits) : Out :=
  if t.kind = .transient ∧ t.bits > 71 then .unevaluable
  else if t.bitsTy ∧ t.arr = none ∧ t.bits > 64 then .unevaluable
  else if t.kind = .prim then setupPrimitive t init
  else setupClass t dv init

end Ulam.VarInit
