import Verif.CallStack.Model
/-!
# Functions and their statements on the node evaluation stack (model)

The expressions of C54 with calls of functions, whose bodies are declarations with initial values, expression statements, and a return.
The stack is that of C32.

Simplifications: values of one slot, added up; no arguments; the variables of a function, on the call stack, are a list of values; the pointer
to the variable that a declaration has on the stack is a value there; a list of initial values has one item; the value returned goes to the function definition by the call stack
(C98), here directly. `none` is a failed assertion.
-/
namespace Ulam.EvalStmt
open CallStack (CS Slot addFrame pushArg popArg returnFrame storeSlot loadSlot)

mutual
/-- Expressions: a constant, a variable of the function, an addition, a call. -/
inductive Expr where
  | lit (v : Int)
  | var (k : Nat)
  | add (l r : Expr)
  | call (body : Body)
/-- The statements of a function: `return e;`, `T x = e;`, `T x[n] = { v };` for a packed array with the value known
from check and label (`hasInitValue`), the same with the value not known, `e;`. It seems that the value of a list is always known
(`NodeVarDecl.cpp:641-646` in `checkAndLabelType`; `NodeListArrayInitialization.cpp:130-187` `checkAndLabelType` refuses others). -/
inductive Body where
  | ret (e : Expr)
  | decl (e : Expr) (rest : Body)
  | constList (v : Int) (rest : Body)
  | list (e : Expr) (rest : Body)
  | expr (e : Expr) (rest : Body)
end

/-- `evalNodeProlog(0)` (`Node.cpp:757-761`). -/
def prolog (s : CS Int) : CS Int := addFrame 0 s 0

/-- `makeRoomForNodeType` for one slot (`Node.cpp:769-796`, with `makeRoomForSlots`). -/
def room (s : CS Int) : CS Int := pushArg s (.val 0)

/-- The value in a slot. -/
def load (s : CS Int) (i : Int) : Option Int :=
  match loadSlot s i with
  | some (.val v) => some v
  | _ => none

/-- `assignReturnValueToStack` for one slot (`Node.cpp:799-823`). -/
def handUp (s : CS Int) (v : Int) : Option (CS Int) := storeSlot s (.val v) (-1)

mutual
/-- Expressions. A constant: `NodeTerminal::eval`; a variable: `NodeIdent::eval`; an addition: `NodeBinaryOp.cpp:627-653` `eval`; a call:
`NodeFunctionCall.cpp:660-760` `eval`, with the room for the result made in `evalHiddenArguments` (`NodeFunctionCall.cpp:936-981`),
and `NodeBlockFunctionDefinition.cpp:376-459` `eval`. -/
def evalE (env : List Int) : Expr → CS Int → Option (CS Int)
  | .lit v, s => (handUp (prolog s) v).bind returnFrame
  | .var k, s => (env[k]?).bind fun v => (handUp (prolog s) v).bind returnFrame
  | .add l r, s =>
    (evalE env l (room (prolog s))).bind fun s =>
    (evalE env r (room s)).bind fun s =>
    (load s 1).bind fun a => (load s 2).bind fun b => (handUp s (a + b)).bind returnFrame
  | .call body, s =>
    (evalB [] body (room (prolog (room (prolog s))))).bind fun x =>
    (handUp x.2 x.1).bind fun s => (returnFrame s).bind fun s =>
    (load s 1).bind fun v => (handUp s v).bind returnFrame
/-- Statements, each with the frame of its `NodeStatements.cpp:226-247` `eval`. A return: `NodeReturnStatement.cpp:276-318` `eval`; a
declaration: `NodeVarDecl.cpp:1231-1379` `evalInitExpr`, which returns at once for an array with a value known (set before, `NodeVarDecl.cpp:1008-1088`
`setupStackWithPrimitiveForEval`), evaluates its initial value if `doeval`, and otherwise, for lists, takes it from
`buildArrayItemInitialValue` (`NodeListArrayInitialization.cpp:351-394`), and in this case has no `evalNodeEpilog` (line 1376);
an expression: `NodeSimpleStatement.cpp:114-123` `eval`. -/
def evalB (env : List Int) : Body → CS Int → Option (Int × CS Int)
  | .ret e, s =>
    (evalE env e (room (prolog (room (prolog s))))).bind fun s =>
    (load s 1).bind fun v => (returnFrame s).bind fun s => (returnFrame s).map fun s => (v, s)
  | .decl e rest, s =>
    (evalE env e (room (room (prolog (room (prolog s)))))).bind fun s =>
    (load s 2).bind fun v => (handUp s v).bind fun s => (returnFrame s).bind fun s => (returnFrame s).bind fun s =>
    evalB (env ++ [v]) rest s
  | .constList v rest, s => (returnFrame (room (prolog s))).bind fun s => evalB (env ++ [v]) rest s
  | .list e rest, s =>
    (evalE env e (room (prolog (room (prolog (room (prolog s))))))).bind fun s =>
    (load s 1).bind fun v => (returnFrame s).bind fun s => (handUp s v).bind fun s => (returnFrame s).bind fun s =>
    evalB (env ++ [v]) rest s
  | .expr e rest, s =>
    (evalE env e (room (prolog (prolog s)))).bind fun s => (returnFrame s).bind fun s => (returnFrame s).bind fun s =>
    evalB env rest s
end

end Ulam.EvalStmt
