/-
Model of the evaluator's stacks and of the evaluation of expressions on them.

/repo/src/ulam/CallStack.cpp:17-107, 239-258 and /repo/src/ulam/Node.cpp:730-797;
the eval functions of NodeBinaryOp.cpp:627-655, NodeBinaryOpLogicalAnd.cpp:34-75,
NodeBinaryOpLogicalOr.cpp:34-73, NodeQuestionColon.cpp:407-450, NodeUnaryOp.cpp:378-400
NodeTerminal.cpp:206-; the genCode functions of the two logical operators and of `?:`.

Simplifications.  A slot holds a frame pointer or a value; values are opaque.
The evaluator writes the frame pointer as an Int(32) constant and reads it back,
which is exact below 2^31.  An assertion that fails, or an access outside of the
vector, is `none`.  Only scalar operands of one slot (`slotsNeeded` = 1) are
modelled, not unpacked arrays.  Pointer arithmetic is on unbounded numbers; the
code adds an `s32` slot to a `u32` index modulo 2^32.  `assignUlamValue` (packed
parts of a slot) is left out; property C33 is about those.
-/
namespace Ulam.CallStack

/-- A slot of the stack. -/
inductive Slot (α : Type) where
  | fp (n : Nat)
  | val (a : α)
deriving DecidableEq

/-- `m_frames` and `m_currentFrame`. -/
structure CS (α : Type) where
  frames : List (Slot α)
  cur : Nat
deriving DecidableEq

variable {α : Type}

/-- `init`; CallStack.cpp:17-24 (`ret` stands for the constant -1). -/
def init (ret : α) : CS α := ⟨[.val ret], 0⟩

/-- `addFrameSlots`; CallStack.cpp:26-40 (`zero` stands for the constant 0). -/
def addFrame (zero : α) (s : CS α) (depth : Nat) : CS α :=
  ⟨s.frames ++ .fp s.cur :: List.replicate depth (.val zero), s.frames.length⟩

/-- `returnFrame`; CallStack.cpp:42-52. -/
def returnFrame (s : CS α) : Option (CS α) :=
  match s.frames[s.cur]? with
  | some (.fp prev) => if prev < s.frames.length then some ⟨s.frames.take s.cur, prev⟩ else none
  | _ => none

/-- `getRelativeTopOfStackNextSlot`; CallStack.cpp:59-62. -/
def relTop (s : CS α) : Nat := s.frames.length - s.cur

/-- `getAbsoluteStackIndexOfSlot`; CallStack.cpp:69-72.  `none` for an index below the stack, which is
a very large number in the code. -/
def absIndex (s : CS α) (slot : Int) : Option Nat :=
  if 0 ≤ (s.cur : Int) + slot then some ((s.cur : Int) + slot).toNat else none

/-- `storeUlamValueAtStackIndex`; CallStack.cpp:74-78. -/
def storeAt (s : CS α) (v : Slot α) (i : Nat) : Option (CS α) :=
  if i < s.frames.length then some { s with frames := s.frames.set i v } else none

/-- `loadUlamValueFromStackIndex`; CallStack.cpp:80-84. -/
def loadAt (s : CS α) (i : Nat) : Option (Slot α) := s.frames[i]?

/-- `storeUlamValueInSlot`; CallStack.cpp:86-90. -/
def storeSlot (s : CS α) (v : Slot α) (slot : Int) : Option (CS α) := (absIndex s slot).bind (storeAt s v)

/-- `loadUlamValueFromSlot`; CallStack.cpp:92-95 and 102-107. -/
def loadSlot (s : CS α) (slot : Int) : Option (Slot α) := (absIndex s slot).bind (loadAt s)

/-- `pushArg`; CallStack.cpp:239-242. -/
def pushArg (s : CS α) (v : Slot α) : CS α := { s with frames := s.frames ++ [v] }

/-- `popArg`; CallStack.cpp:252-258. -/
def popArg (s : CS α) : Option (Slot α × CS α) :=
  match s.frames.getLast? with
  | some v => some (v, { s with frames := s.frames.dropLast })
  | none => none

/-- The operations of the stack. -/
inductive Op (α : Type) where
  | call (depth : Nat)
  | ret
  | push (v : α)
  | pop
  | store (v : α) (slot : Int)
  | storeAbs (v : α) (i : Nat)

/-- One operation. -/
def step (zero : α) (s : CS α) : Op α → Option (CS α)
  | .call d => some (addFrame zero s d)
  | .ret => returnFrame s
  | .push v => some (pushArg s (.val v))
  | .pop => (popArg s).map (·.2)
  | .store v i => storeSlot s (.val v) i
  | .storeAbs v i => storeAt s (.val v) i

/-- Several operations. -/
def steps (zero : α) (s : CS α) : List (Op α) → Option (CS α)
  | [] => some s
  | o :: os => (step zero s o).bind fun s => steps zero s os

/-! ### Expressions -/

/-- Expression nodes.  `len` is the bit size of the Bool the operands were cast to
(NodeBinaryOpLogical.cpp:20-71). -/
inductive Expr where
  | leaf (k : Nat)
  | un (op : Nat) (e : Expr)
  | bin (op : Nat) (l r : Expr)
  | and (len : Nat) (l r : Expr)
  | or (len : Nat) (l r : Expr)
  | cond (c l r : Expr)

/-- `EvalStatus`: NORMAL or another one. -/
inductive Status where
  | normal | bad (why : Nat)
deriving DecidableEq

/-- What leaves and operators do: a leaf may change the store and may fail, an operator may fail.
`cbool` is `_Bool32ToCbool`, `nonzero` the conversion `(bool) getImmediateData()`. -/
structure Sem (σ α : Type) where
  leaf : Nat → σ → Except Nat α × σ
  un : Nat → α → Except Nat α
  bin : Nat → α → α → Except Nat α
  cbool : Nat → α → Bool
  nonzero : α → Bool
  zero : α
  /-- the value written for `false` -/
  false : α

/-- `makeRoomForNodeType` for one slot: pushes a dummy; Node.cpp:769-797. -/
def room {σ} (S : Sem σ α) (s : CS α) : CS α := pushArg s (.val S.zero)

/-- `evalNodeEpilog` and the status; Node.cpp:740-744, 763-767. -/
def finish {σ} (st : Status) (s : CS α) (x : σ) : Option (Status × CS α × σ) :=
  (returnFrame s).map fun s => (st, s, x)

/-- The end of NodeQuestionColon's eval: the second slot of the frame is the result. -/
def handBack {σ} : Option (Status × CS α × σ) → Option (Status × CS α × σ)
  | none => none
  | some (.bad w, s, x) => finish (.bad w) s x
  | some (.normal, s, x) =>
    match loadSlot s 2 with
    | some (.val b) => (storeSlot s (.val b) (-1)).bind fun s => finish .normal s x
    | _ => none

/-- `eval` of the node classes.  `none`: an assertion failed. -/
def eval {σ} (S : Sem σ α) : Expr → CS α → σ → Option (Status × CS α × σ)
  | .leaf k, s, x =>
    let s := addFrame S.zero s 0
    match S.leaf k x with
    | (.error e, x) => finish (.bad e) s x
    | (.ok v, x) => (storeSlot s (.val v) (-1)).bind fun s => finish .normal s x
  | .un op e, s, x =>
    let s := addFrame S.zero s 0
    match eval S e (room S s) x with
    | none => none
    | some (.bad w, s, x) => finish (.bad w) s x
    | some (.normal, s, x) =>
      match loadSlot s 1 with
      | some (.val v) =>
        match S.un op v with
        | .error w => finish (.bad w) s x
        | .ok r => (storeSlot s (.val r) (-1)).bind fun s => finish .normal s x
      | _ => none
  | .bin op l r, s, x =>
    let s := addFrame S.zero s 0
    match eval S l (room S s) x with
    | none => none
    | some (.bad w, s, x) => finish (.bad w) s x
    | some (.normal, s, x) =>
      match eval S r (room S s) x with
      | none => none
      | some (.bad w, s, x) => finish (.bad w) s x
      | some (.normal, s, x) =>
        match loadSlot s 1, loadSlot s 2 with
        | some (.val a), some (.val b) =>
          match S.bin op a b with
          | .error w => finish (.bad w) s x
          | .ok v => (storeSlot s (.val v) (-1)).bind fun s => finish .normal s x
        | _, _ => none
  | .and len l r, s, x =>
    let s := addFrame S.zero s 0
    match eval S l (room S s) x with
    | none => none
    | some (.bad w, s, x) => finish (.bad w) s x
    | some (.normal, s, x) =>
      match loadSlot s 1 with
      | some (.val a) =>
        if S.cbool len a = false then (storeSlot s (.val a) (-1)).bind fun s => finish .normal s x
        else
          match eval S r (room S s) x with
          | none => none
          | some (.bad w, s, x) => finish (.bad w) s x
          | some (.normal, s, x) =>
            match loadSlot s 2 with
            | some (.val b) => (storeSlot s (.val b) (-1)).bind fun s => finish .normal s x
            | _ => none
      | _ => none
  | .or len l r, s, x =>
    let s := addFrame S.zero s 0
    match eval S l (room S s) x with
    | none => none
    | some (.bad w, s, x) => finish (.bad w) s x
    | some (.normal, s, x) =>
      match loadSlot s 1 with
      | some (.val a) =>
        if S.cbool len a = true then (storeSlot s (.val a) (-1)).bind fun s => finish .normal s x
        else
          match eval S r (room S s) x with
          | none => none
          | some (.bad w, s, x) => finish (.bad w) s x
          | some (.normal, s, x) =>
            match loadSlot s 2 with
            | some (.val b) => (storeSlot s (.val b) (-1)).bind fun s => finish .normal s x
            | _ => none
      | _ => none
  | .cond c l r, s, x =>
    let s := addFrame S.zero s 0
    match eval S c (room S s) x with
    | none => none
    | some (.bad w, s, x) => finish (.bad w) s x
    | some (.normal, s, x) =>
      let s := room S s
      match loadSlot s 1 with
      | some (.val a) =>
        handBack (if S.nonzero a = false then eval S r s x else eval S l s x)
      | _ => none

/-- The C++ code generated for an expression, run: a value in a temporary.  For the logical operators
NodeBinaryOpLogicalAnd.cpp:93-149 and NodeBinaryOpLogicalOr.cpp:90-160; other binary operators compute their
right operand first, NodeBinaryOp.cpp:772-830 and NodeBinaryOpCompare.cpp:386-; for `?:`
NodeQuestionColon.cpp:491-.  A failure ends the program. -/
def gen {σ} (S : Sem σ α) : Expr → σ → Except Nat α × σ
  | .leaf k, x => S.leaf k x
  | .un op e, x =>
    match gen S e x with
    | (.ok v, x) => (S.un op v, x)
    | r => r
  | .bin op l r, x =>
    match gen S r x with
    | (.ok b, x) =>
      match gen S l x with
      | (.ok a, x) => (S.bin op a b, x)
      | r => r
    | r => r
  | .and len l r, x =>
    let tmp := S.false
    match gen S l x with
    | (.ok a, x) => if S.cbool len a then gen S r x else (.ok tmp, x)
    | r => r
  | .or len l r, x =>
    match gen S l x with
    | (.ok a, x) => if !S.cbool len a then gen S r x else (.ok a, x)
    | r => r
  | .cond c l r, x =>
    match gen S c x with
    | (.ok a, x) => if S.nonzero a then gen S l x else gen S r x
    | r => r

end Ulam.CallStack
