import Verif.Packed.Model
/-!
# Assignments through pointers to the call stack (model)

`CallStack::assignUlamValue` is for the slots of the current frame, `assignUlamValueAtAbsoluteIndex` for pointers that were made
absolute, those of parameters that are references. The bits are put as in the model of C33.

Simplifications: of a type only whether it is none, primitive, or a class; the comparison of types in `putDataIntoAtom`
(`UlamValue.cpp:866-867`) is left out; a pointer in a slot is absolute. `none` is a failed assertion, an abort, or an index beyond the
stack, which is not checked where a whole slot is assigned.
-/
namespace Ulam.AbsAssign
open Packed (Bits)

/-- The type of the value in a slot: `Nouti`, a primitive type, or a class, by number. -/
inductive SlotTy where
  | none
  | prim (id : Nat)
  | cls (id : Nat)
  deriving DecidableEq, Repr

/-- A slot: a value with its 96 bits, or a pointer to an index of the stack. -/
inductive Val where
  | data (ty : SlotTy) (b : Bits)
  | ptr (n : Nat)

/-- The index on the stack of a slot of the frame (`CallStack.cpp:69-72` `getAbsoluteStackIndexOfSlot`). -/
def index (cur : Nat) (slot : Int) : Option Nat := if 0 ≤ (cur : Int) + slot then some ((cur : Int) + slot).toNat else none

/-- `CompilerState.cpp:6138-6189` `getPtrTarget`, with the number of pointers to follow. -/
def follow (fs : List Val) : Nat → Val → Option Val
  | 0, v => some v
  | _ + 1, .data ty b => some (.data ty b)
  | k + 1, .ptr n => (fs[n]?).bind (follow fs k)

/-- `CompilerState.cpp:6118-6124` `getPtrTarget`: `cntref` is 0 at first and `PTR_LOOP_MAX` is 5. -/
def getPtrTarget (fs : List Val) (v : Val) : Option Val := follow fs 6 v

/-- Whether the whole slot is replaced (`CallStack.cpp:120-127` in `assignUlamValue`, 181-188 in `assignUlamValueAtAbsoluteIndex`). -/
def whole (p : Packed.Ptr) : Bool := p.pack == .unpacked || (p.pack == .packed && p.scalar)

/-- `m_frames[index] = uv`. -/
def setAt (fs : List Val) (i : Nat) (v : Val) : Option (List Val) := if i < fs.length then some (fs.set i v) else none

/-- The value to put the bits into, by a slot of the frame (`CallStack.cpp:132-149` in `assignUlamValue`). -/
def prepRel (fs : List Val) (tty : SlotTy) : Val → Option Val
  | .data .none b => some (.data tty b)
  | .ptr n => getPtrTarget fs (.ptr n)
  | .data (.prim i) b =>
    match tty with
    | .cls c => some (.data (.cls c) b)
    | _ => some (.data (.prim i) b)
  | v => some v

/-- The value to put the bits into, by an absolute index (`CallStack.cpp:193-199` in `assignUlamValueAtAbsoluteIndex`). -/
def prepAbs (tty : SlotTy) : Val → Option Val
  | .data .none b => some (.data tty b)
  | v => some v

/-- `putDataIntoAtom` with the checks of length and the store into the slot (`CallStack.cpp:151-171` in `assignUlamValue`,
201-218 in `assignUlamValueAtAbsoluteIndex`, which differ in the length `max` allowed). -/
def put (fs : List Val) (i max : Nat) (t : Packed.Ty) (p : Packed.Ptr) (rb : Bits) : Val → Option (List Val)
  | .ptr _ => none
  | .data ty b =>
    if p.len ≤ max then (Packed.putDataIntoAtom t p rb b).bind fun b' => setAt fs i (.data ty b') else none

/-- `CallStack.cpp:110-172` `assignUlamValue` with a pointer to a slot of the frame: `tty` is the type of its target, `rty` and `rb` are
the value to be assigned. -/
def assignRel (fs : List Val) (cur : Nat) (slot : Int) (tty : SlotTy) (t : Packed.Ty) (p : Packed.Ptr) (rty : SlotTy) (rb : Bits) :
    Option (List Val) :=
  (index cur slot).bind fun i =>
    if whole p then setAt fs i (.data rty rb)
    else (fs[i]?).bind fun v => (prepRel fs tty v).bind fun w => put fs i 71 t p rb w

/-- `CallStack.cpp:174-219` `assignUlamValueAtAbsoluteIndex`. -/
def assignAbs (fs : List Val) (i : Nat) (tty : SlotTy) (t : Packed.Ty) (p : Packed.Ptr) (rty : SlotTy) (rb : Bits) :
    Option (List Val) :=
  if whole p then setAt fs i (.data rty rb)
  else (fs[i]?).bind fun v => (prepAbs tty v).bind fun w => put fs i 64 t p rb w

end Ulam.AbsAssign
