/-!
# References of functions that call themselves (model)

How the evaluator finds what a local reference is to: `NodeVarRef::eval` keeps the pointer with the symbol, of which there is one for
all activations of the function.

An execution is given by the declarations of references, the uses of names, and the calls with what their bodies execute, in order:
conditions and loops are resolved in it. Simplifications: variables have one slot; of a pointer only its index and whether it is
absolute are kept (as for C98); the type of the pointer kept is that of the reference, else the pointer is looked up in the slot of the
reference (`NodeIdent.cpp:1060-1062`); casts in the initial value, where `m_currentAutoObjPtr` is kept instead
(`NodeVarRef.cpp:365-374`), and pointers to the window are left out.
-/
namespace Ulam.RefRec

/-- A name used to initialize a reference, as an argument for a reference, or otherwise: a variable or parameter by value in its
slot, a parameter that is a reference, a local reference, or a data member of the object on the stack (by its index there). -/
inductive Src where
  | var (slot : Int)
  | param (i : Nat)
  | ref (r : Nat)
  | data (n : Int)
  deriving DecidableEq, Repr

/-- What is executed: `T& r = s;`, a use of a name, a call of a function for all of whose parameters, being references, names are given.
`room` is for the hidden arguments and the returned value, `depth` the slots of its variables. -/
inductive Acts where
  | done
  | decl (r : Nat) (s : Src) (rest : Acts)
  | use (s : Src) (rest : Acts)
  | call (room depth : Nat) (args : List Src) (body rest : Acts)

/-- A pointer to the call stack: `Ptr` with a slot of the current frame, or `PtrAbs`. -/
inductive Ptr where
  | rel (slot : Int)
  | abs (n : Int)
  deriving DecidableEq, Repr

/-- `m_autoPtrForEval` of the symbols (`SymbolVariableStack.cpp:58-67` `getAutoPtrForEval`, `setAutoPtrForEval`). -/
abbrev Auto := Nat → Option Ptr

/-- `setAutoPtrForEval`. -/
def Auto.set (a : Auto) (r : Nat) (p : Option Ptr) : Auto := fun q => if q = r then p else a q

/-- `NodeIdent.cpp:910-975` `evalToStoreInto` with `makeUlamValuePtr` (`NodeIdent.cpp:977-1145`): a reference by the pointer kept with its
symbol; a parameter, having none, by the pointer in its slot (`getPtrTargetOnce`). -/
def resolve (a : Auto) (ps : List (Option Ptr)) : Src → Option Ptr
  | .var k => some (.rel k)
  | .param i => (ps[i]?).join
  | .ref r => a r
  | .data n => some (.abs n)

/-- The index on the call stack a pointer leads to (`CompilerState.cpp:6147-6154` in `getPtrTarget`). -/
def place (cur : Int) : Ptr → Int
  | .rel k => cur + k
  | .abs n => n

/-- `NodeFunctionCall.cpp:898-909` in `evalArgumentsInReverseOrder`: a pointer passed is made absolute. -/
def toAbs (cur : Int) : Ptr → Ptr
  | .rel k => .abs (cur + k)
  | .abs n => .abs n

/-- The execution: the pointers kept with the symbols afterwards, and for every use the index on the call stack that it leads to.
`cur` and `size` are `m_currentFrame` and the size of the stack, `ps` the pointers passed. A declaration: `NodeVarRef.cpp:343-385` `eval`;
a call: `NodeFunctionCall.cpp:660-760` `eval` and `CallStack.cpp:26-40` `addFrameSlots`; on return the frame is as before
(`CallStack.cpp:42-52` `returnFrame`), the symbols are not. -/
def run (a : Auto) (cur size : Int) (ps : List (Option Ptr)) : Acts → Auto × List (Option Int)
  | .done => (a, [])
  | .decl r s rest => run (a.set r (resolve a ps s)) cur size ps rest
  | .use s rest =>
    let y := run a cur size ps rest
    (y.1, (resolve a ps s).map (place cur) :: y.2)
  | .call room depth args body rest =>
    let args' := args.map fun s => (resolve a ps s).map (toAbs cur)
    let cur' := size + args.length + room
    let x := run a cur' (cur' + 1 + depth) args' body
    let y := run x.1 cur size ps rest
    (y.1, x.2 ++ y.2)

end Ulam.RefRec
