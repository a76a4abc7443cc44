import Mathlib.Data.List.Basic
/-!
# Selecting members (model)

`NodeMemberSelect`: `checkAndLabelType`, `checkVarUsedBeforeDeclared`, `getConstantMemberValue`, `getPositionOf`
(`NodeMemberSelect.cpp:171-480`), with `checkStoreIntoAble` (482-505) and `NodeIdent::getPositionOf` (`NodeIdent.cpp:179-209`).

Simplified: labelling the right side is a function of whether constants are asked for and of the class in which names are looked up; it
answers with a type, messages, and whether another round is wanted. The text of messages is left out, their number by severity is kept.
Positions are those of classes already packed; the second attempt after packing (`NodeMemberSelect.cpp:394-402`, `444-453`, `468-477`)
is left out.
-/
namespace Ulam.Select

/-- `TBOOL`. -/
inductive Tri
  | no | yes | hazy
  deriving DecidableEq, Repr

/-- A type as label of a node: `Nav`, `Hzy`, `Nouti` or one to go on with (`okUTItoContinue`, `CompilerState.cpp:7718-7721`). -/
inductive Ty
  | nav | hzy | nouti
  | ty (n : Nat)
  deriving DecidableEq, Repr

/-- A type to go on with. -/
def Ty.good : Ty → Bool
  | .ty _ => true
  | _ => false

/-- What labelling the right side comes to. -/
structure Right where
  type : Ty
  errs : Nat := 0
  waits : Nat := 0
  again : Bool := false
  deriving DecidableEq, Repr

/-- What matters of a selection `left.right` when it is labelled. -/
structure Node where
  /-- The type it had before. -/
  was : Ty
  /-- What labelling the left side comes to. -/
  left : Right
  complete : Bool
  /-- `getStoreIntoAble()` of the left side. -/
  leftStore : Tri
  leftRefer : Tri
  /-- The left side selects by class id (`isAMemberSelectByRegNum`). -/
  byId : Bool
  /-- The left type is a class, or a holder. -/
  isClass : Bool
  scalar : Bool
  defined : Bool
  /-- The type of the left class's block. -/
  block : Ty
  leftConst : Tri
  /-- The left class. -/
  cls : Nat
  call : Bool
  virtual : Bool
  rightStore : Tri
  rightRefer : Tri
  /-- Labelling the right side, given whether constants are asked for, and the stack of classes in which names are looked up. -/
  right : Bool → List Nat → Right

/-- What labelling comes to: type, messages, another round, whether constants are asked for and the stack of classes afterwards, whether it
can be stored into and referred to (if that was set), and what the right side was given (if it was labelled). -/
structure Out where
  type : Ty
  errs : Nat
  waits : Nat
  again : Bool
  flag : Bool
  stack : List Nat
  store : Option (Tri × Tri) := none
  asked : Option (Bool × List Nat) := none
  deriving DecidableEq, Repr

/-- `Node::minTBOOL` (`Node.cpp:200-208`): no, if one is; otherwise hazy, if one is. -/
def minTri : Tri → Tri → Tri
  | .no, _ | _, .no => .no
  | .hazy, _ | _, .hazy => .hazy
  | .yes, .yes => .yes

/-- A node done with. -/
def done (x : Node) (t : Ty) (errs waits : Nat) (again flag : Bool) (stack : List Nat) : Out :=
  { type := t, errs := x.left.errs + errs, waits := x.left.waits + waits, again := x.left.again || again, flag := flag, stack := stack }

/-- `NodeMemberSelect.cpp:482-505` `checkStoreIntoAble`: errors and waits. -/
def storeMsgs (x : Node) : Nat × Nat :=
  if x.call then match x.leftStore with | .yes => (0, 0) | .hazy => (0, 1) | .no => (1, 0) else (0, 0)

/-- The flag while the right side is labelled; `none`: abort (`NodeMemberSelect.cpp:284-297`). -/
def rightFlag (x : Node) (flag : Bool) : Option Bool :=
  match x.leftConst with
  | .yes => some false
  | .hazy => none
  | .no => some flag

/-- `NodeMemberSelect.cpp:300-330`: the right side, and the end. -/
def finish (x : Node) (e w : Nat) (flag f : Bool) (stack : List Nat) : Out :=
  if (x.right f (x.cls :: stack)).type.good then
    if x.call && x.byId && !x.virtual then
      { type := .nav, errs := x.left.errs + e + (x.right f (x.cls :: stack)).errs + 1
        waits := x.left.waits + w + (x.right f (x.cls :: stack)).waits
        again := x.left.again || (x.right f (x.cls :: stack)).again, flag := flag, stack := stack
        store := some (minTri x.leftStore x.rightStore, minTri x.leftRefer x.rightRefer), asked := some (f, x.cls :: stack) }
    else
      { type := (x.right f (x.cls :: stack)).type, errs := x.left.errs + e + (x.right f (x.cls :: stack)).errs
        waits := x.left.waits + w + (x.right f (x.cls :: stack)).waits
        again := x.left.again || (x.right f (x.cls :: stack)).again, flag := flag, stack := stack
        store := some (minTri x.leftStore x.rightStore, minTri x.leftRefer x.rightRefer), asked := some (f, x.cls :: stack) }
  else
    { type := (x.right f (x.cls :: stack)).type, errs := x.left.errs + e + (x.right f (x.cls :: stack)).errs
      waits := x.left.waits + w + (x.right f (x.cls :: stack)).waits
      again := x.left.again || (x.right f (x.cls :: stack)).again, flag := flag, stack := stack
      asked := some (f, x.cls :: stack) }

/-- `NodeMemberSelect.cpp:171-331` `checkAndLabelType`; `flag`: `m_initSubtreeSymbolsWithConstantsOnly`; `none`: abort. What lines 207 and
209 make of `nuti` is not used again. -/
def label (x : Node) (flag : Bool) (stack : List Nat) : Option Out :=
  if !(x.left.type.good && x.complete) then
    if x.left.type = .nav then some (done x .nav 1 0 false flag stack)
    else if x.was = .nav then some (done x .nav 0 1 false flag stack)
    else some (done x .hzy 0 1 true flag stack)
  else if !x.call && x.byId then some (done x .nav 1 0 false flag stack)
  else if !x.isClass || !x.scalar then some (done x .nav ((storeMsgs x).1 + 1) (storeMsgs x).2 false flag stack)
  else if !x.defined then some (done x .nav ((storeMsgs x).1 + 1) (storeMsgs x).2 false flag stack)
  else if !x.block.good then
    if x.block = .nav then none else some (done x .hzy (storeMsgs x).1 ((storeMsgs x).2 + 1) true flag stack)
  else
    match rightFlag x flag with
    | none => none
    | some f => some (finish x (storeMsgs x).1 (storeMsgs x).2 flag f stack)

/-- `NodeMemberSelect.cpp:333-364` `checkVarUsedBeforeDeclared`: the answer (yes: used before declared), and the flag afterwards. -/
def usedBefore (left leftConst : Tri) (right : Bool → Tri) (flag : Bool) : Tri × Bool :=
  if left = .yes then (.yes, flag)
  else
    match leftConst with
    | .hazy => (.hazy, flag)
    | c =>
      if right (if c = .yes then false else flag) = .yes then (.yes, flag)
      else if left = .no ∧ right (if c = .yes then false else flag) = .no then (.no, flag)
      else (.hazy, flag)

/-! ## Values and positions -/

/-- A member selected: `pos` is its position in the class that declares it, `rel` that of this class in the left class
(`getABaseClassRelativePositionInAClass`, C20; 0 for the class itself; `none`: not a base), `len` its size. -/
structure Mem where
  pos : Option Nat
  rel : Option Nat
  len : Nat
  deriving DecidableEq, Repr

/-- A constant of a class, and selections from it. The flag of a selection: whether the left class is an element. -/
inductive Expr
  | named (value : Option (List Bool))
  | data (left : Expr) (element : Bool) (m : Mem)
  /-- The right side is a constant itself. -/
  | const (left : Expr) (value : Option (List Bool))
  deriving Repr

/-- `NodeMemberSelect.cpp:366-434` `getConstantMemberValue`, `getConstantValue`; `none`: no value. `ATOMFIRSTSTATEBITPOS` is 25. -/
def value : Expr → Option (List Bool)
  | .named v => v
  | .const _ v => v
  | .data l element m =>
    match m.pos with
    | none => none
    | some p =>
      match value l with
      | none => none
      | some v => some ((v.drop (if element then p + 25 else p)).take m.len)

/-- `NodeIdent.cpp:179-209` `getPositionOf`, in the context of the left class. -/
def identPos (element : Bool) (m : Mem) : Option Nat :=
  match m.pos with
  | none => none
  | some p =>
    match m.rel with
    | none => none
    | some r => some (if element then p + r + 25 else p + r)

/-- `NodeMemberSelect.cpp:436-480` `getPositionOf`; `NodeIdent.cpp:208` for the constant itself. `none`: `UNRELIABLEPOS`. -/
def position : Expr → Option Nat
  | .named _ => some 0
  | .const _ _ => none
  | .data l element m =>
    match position l with
    | none => none
    | some a =>
      match identPos element m with
      | none => none
      | some b => some (a + b)

end Ulam.Select
