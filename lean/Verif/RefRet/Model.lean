import Verif.Frame.Model
/-
Model of how the evaluator returns a reference from a function.

/repo/src/ulam/NodeReturnStatement.cpp:315-353, CompilerState.cpp:6191-6247,
CallStack.cpp:69-72, 227-237, NodeFunctionCall.cpp:898-909, 955-962.
The making of the frame and its end are those of the model of calls (Verif/Frame/Model.lean).

Simplifications.  Of a pointer only its storage, whether it is absolute, and its index are kept:
position, length and types do not matter to the test.  The stacks are given by their size and the
place of the current frame.  The storages that end in `abortUndefinedCallStack` are left out.
What the generated code does (`_IsLocal`, of the MFM library) is not modelled.
-/
namespace Ulam.RefRet

/-- `STORAGE`. -/
inductive Stor
  | stack
  | evalReturn
  | eventWindow
  | constants
deriving DecidableEq

/-- A pointer: `idx` is a slot relative to the current frame, or an index of the stack when `abs`
(the type `PtrAbs`). -/
structure Ptr where
  stor : Stor
  abs : Bool
  idx : Int
deriving DecidableEq

/-- A `CallStack`: `m_frames.size()` and `m_currentFrame`. -/
structure Stk where
  size : Nat
  cur : Nat
deriving DecidableEq

/-- The stacks and `m_currentSelfPtr`. -/
structure St where
  calls : Stk
  evals : Stk
  consts : Stk
  self : Ptr
deriving DecidableEq

/-- CallStack.cpp:69-72 `getAbsoluteStackIndexOfSlot`: an unsigned number of 32 bits. -/
def absSlot (k : Stk) (slot : Int) : Nat := ((k.cur + slot) % 2 ^ 32).toNat

/-- The argument of `isLocalStackIndex` is an unsigned number of 32 bits. -/
def u32 (i : Int) : Nat := (i % 2 ^ 32).toNat

/-- CallStack.cpp:232-237 `isLocalStackIndex`. -/
def localIndex (k : Stk) (i : Nat) : Bool := decide (i > k.cur) && decide (i < k.size)

/-- CallStack.cpp:227-230 `isLocalSlot`. -/
def localSlot (k : Stk) (slot : Int) : Bool := localIndex k (absSlot k slot)

/-- CompilerState.cpp:6223-6247 `isLocalUnreturnableAbsoluteReferenceForEval`. -/
def unreturnableAbs (s : St) (p : Ptr) : Bool :=
  match p.stor with
  | .stack => localIndex s.calls (u32 p.idx)
  | .evalReturn => localIndex s.evals (u32 p.idx)
  | .constants => localIndex s.consts (u32 p.idx)
  | .eventWindow => false

/-- CompilerState.cpp:6191-6221 `isLocalUnreturnableReferenceForEval`. -/
def unreturnable (s : St) (p : Ptr) : Bool :=
  if p = s.self then false
  else if p.abs then unreturnableAbs s p
  else
    match p.stor with
    | .stack => localSlot s.calls p.idx
    | .evalReturn => localSlot s.evals p.idx
    | .constants => localIndex s.consts (u32 p.idx)
    | .eventWindow => false

/-- NodeReturnStatement.cpp:342-352, the end of `evalToStoreInto`: `none` is the status ERROR.
The pointer goes unchanged through slot -1 of the frame (Node.cpp:826-837,
NodeBlockFunctionDefinition.cpp:420, NodeFunctionCall.cpp:822-824) to the caller. -/
def returned (s : St) (p : Ptr) : Option Ptr := if unreturnable s p then none else some p

/-- NodeFunctionCall.cpp:898-909, and 955-961 for the object: a pointer on the call stack is made
absolute when it is passed on. -/
def toAbs (k : Stk) (p : Ptr) : Ptr :=
  if p.stor = .stack ∧ p.abs = false then { p with abs := true, idx := absSlot k p.idx } else p

/-- The slot of the call stack a pointer leads to: CompilerState.cpp:6147-6154 in `getPtrTarget`. -/
def place (k : Stk) (p : Ptr) : Nat := if p.abs then u32 p.idx else absSlot k p.idx

section call
variable {V : Type}

/-- The state when the body of a function runs: the call stack made by
`Frame.enter` and `self`, the object made absolute (NodeFunctionCall.cpp:955-969, 670). -/
def inside (w : Nat → Nat) (f : Frame.Func) (fp z obj : V) (stk : List V) (args : List (List V))
    (evals consts : Stk) (self : Ptr) : St where
  calls := ⟨(Frame.enter w f fp z obj stk args).1.length, (Frame.enter w f fp z obj stk args).2⟩
  evals := evals
  consts := consts
  self := self

end call

end Ulam.RefRet
