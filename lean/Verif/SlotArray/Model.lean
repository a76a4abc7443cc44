import Mathlib.Data.List.Basic
/-!
# Arrays with a slot for each item in the evaluator (model)

Subscripts of arrays that are not packed, and their copies.

Simplifications: a value is in one slot and is no pointer; types fit, so that a value read is the value in its slot. The array is on the
call stack or the node evaluation stack, not in the event window. `none` is a failed assertion, or an access outside of the stack.
-/
namespace Ulam.SlotArray

/-- `STORAGE`. -/
inductive Place where
  | stack
  | evalReturn
  deriving DecidableEq, Repr

/-- The two stacks: slots, and the current frame pointer of each. -/
structure Mem (α : Type) where
  frames : Place → List α
  cur : Place → Nat

/-- A pointer to an item: `Ptr` (from the current frame) or `PtrAbs`. -/
structure Ptr where
  abs : Bool
  place : Place
  slot : Int
  deriving DecidableEq, Repr

/-- `m_slotIndex` is an `s16` (`include/UlamValue.h`). -/
def wrap16 (i : Int) : Int := (i + 32768) % 65536 - 32768

/-- The index in the stack; `getAbsoluteStackIndexOfSlot` (`CallStack.cpp:69-72`). A negative one is a large `u32`. -/
def index {α : Type} (m : Mem α) (p : Ptr) : Int := if p.abs then p.slot else m.cur p.place + p.slot

/-- The new pointer, and whether it is one; `UlamValue.cpp:503-573` `incrementPtr`, of an item that is not packed. -/
def increment {α : Type} (m : Mem α) (p : Ptr) (offset : Int) : Ptr × Bool :=
  let q := { p with slot := wrap16 (p.slot + offset) }
  (q, if p.abs then decide (0 < q.slot ∧ q.slot < (m.frames p.place).length)
    else decide (0 ≤ index m q ∧ index m q < (m.frames p.place).length))

/-- The value a pointer leads to; `CompilerState.cpp:6138-6189` `getPtrTarget`. -/
def target {α : Type} (m : Mem α) (p : Ptr) : Option α :=
  if 0 ≤ index m p then (m.frames p.place)[(index m p).toNat]? else none

/-- `CallStack.cpp:110-123` in `assignUlamValue` and `CallStack.cpp:174-184` in `assignUlamValueAtAbsoluteIndex`. There is no assertion;
a write outside is undefined. -/
def assign {α : Type} (m : Mem α) (p : Ptr) (v : α) : Option (Mem α) :=
  if 0 ≤ index m p ∧ index m p < (m.frames p.place).length then
    some { m with frames := fun k => if k = p.place then (m.frames k).set (index m p).toNat v else m.frames k }
  else none

/-- What comes of a subscript. -/
inductive Res (β : Type) where
  | ok (b : β)
  | error
  | fails
  deriving DecidableEq, Repr

/-- Reading an item of an array of `n`: `NodeSquareBracket.cpp:613-650` in `eval`, then `UlamValue.cpp:302-306` in `getValAt`. -/
def read {α : Type} (m : Mem α) (p : Ptr) (n : Nat) (offset : Int) : Res α :=
  if offset ≥ n then .error
  else if (increment m p offset).2 then
    match target m (increment m p offset).1 with
    | some v => .ok v
    | none => .fails
  else .fails

/-- The place of an item to store into, whatever the size: `NodeSquareBracket.cpp:744-762` in `evalToStoreInto`. -/
def place {α : Type} (m : Mem α) (p : Ptr) (offset : Int) : Res Ptr :=
  if (increment m p offset).2 then .ok (increment m p offset).1 else .error

/-- Storing an item. -/
def store {α : Type} (m : Mem α) (p : Ptr) (offset : Int) (v : α) : Res (Mem α) :=
  match place m p offset with
  | .ok q =>
    match assign m q v with
    | some m' => .ok m'
    | none => .fails
  | .error => .error
  | .fails => .fails

/-- The loop of `CompilerState.cpp:6342-6369` in `assignArrayValues`, with the items left to do. -/
def copyLoop {α : Type} : Nat → Mem α → Ptr → Ptr → Option (Mem α)
  | 0, m, _, _ => some m
  | k + 1, m, l, r =>
    (target m r).bind fun v => (assign m l v).bind fun m =>
    if ((increment m l 1).2 || k == 0) && ((increment m r 1).2 || k == 0) then
      copyLoop k m (increment m l 1).1 (increment m r 1).1
    else none

/-- Copying an array of `n` items: `CompilerState.cpp:6334-6370` in `assignArrayValues`. -/
def copy {α : Type} (m : Mem α) (n : Nat) (l r : Ptr) : Option (Mem α) := copyLoop n m l r

end Ulam.SlotArray
