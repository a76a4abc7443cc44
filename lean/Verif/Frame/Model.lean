/-
The frames of the evaluator: the slots of local variables and parameters, what a call leaves on the
call stack, and the references kept with their symbols.

Simplifications. A node is what it adds to the depth; types are the number of slots they need
(CompilerState.cpp:2560-2577 `slotsNeeded`). Lists of initial values are leaves, as their depth is
dropped (NodeList.cpp:229-243) and nothing is declared in them; so are all nodes that do not override
`Node::calcMaxDepth` (Node.cpp:893-896). An absent node is a leaf or `none`.
-/
import Mathlib.Logic.Function.Basic

namespace Ulam.Frame

/-! ### Depth -/

mutual
/-- Expressions, by their part in the computation of the depth. -/
inductive Expr
  | leaf
  /-- NodeUnaryOp, NodeCast, NodeReturnStatement. -/
  | un (e : Expr)
  /-- NodeBinaryOp and with it assignments, member selects and subscripts. -/
  | bin (l r : Expr)
  /-- NodeQuestionColon. -/
  | ques (c l r : Expr)
  /-- NodeStorageof, NodeAtomof, NodeInstanceof with the slots of the type. -/
  | stor (n : Nat) (e : Expr)
  /-- NodeFunctionCall with the slots of what it returns. -/
  | call (as : Args) (ret : Nat)
/-- Arguments, each with the slots of its type. -/
inductive Args
  | nil
  | cons (e : Expr) (n : Nat) (as : Args)
end

/-- Statements. -/
inductive Stmt
  | none
  | expr (e : Expr)
  /-- The declaration of the variable with the symbol `x` that needs `n` slots. -/
  | decl (x n : Nat) (init : Expr)
  | block (s : Stmt)
  /-- NodeStatements. -/
  | seq (s t : Stmt)
  /-- NodeControlIf. -/
  | ifc (c : Expr) (b e : Stmt)
  /-- NodeControl, for while. -/
  | ctl (c : Expr) (b : Stmt)

mutual
/-- `calcMaxDepth` of an expression: the depth after it; `w` is what an addition does to its result.
NodeUnaryOp.cpp:451-456, NodeCast.cpp:994-999, NodeReturnStatement.cpp:388-393,
NodeBinaryOp.cpp:764-770, NodeQuestionColon.cpp:318-330, NodeStorageof.cpp:306-312,
NodeFunctionCall.cpp:614-632. No expression changes the maximal depth. -/
def exprDepth (w : Nat → Nat) : Expr → Nat → Nat
  | .leaf, d => d
  | .un e, d => exprDepth w e d
  | .bin l r, d => exprDepth w r (exprDepth w l d)
  | .ques c l r, d =>
    w (exprDepth w c d + max (exprDepth w l (exprDepth w c d)) (exprDepth w r (exprDepth w c d)))
  | .stor n e, d => exprDepth w e (w (d + n))
  | .call as ret, d => w (d + w (w (w (argsDepth w as 0 + ret) + 1) + 1))
/-- NodeFunctionCall.cpp:619-627: each argument starts from zero. -/
def argsDepth (w : Nat → Nat) : Args → Nat → Nat
  | .nil, b => b
  | .cons e n as, b => argsDepth w as (w (b + max (exprDepth w e 0) n))
end

/-- What `u32` makes of a number. -/
def w32 (n : Nat) : Nat := n % 2 ^ 32

/-- What `s32` makes of it. -/
def s32 (n : Nat) : Int := if n % 2 ^ 32 < 2 ^ 31 then n % 2 ^ 32 else n % 2 ^ 32 - 2 ^ 32

structure Out where
  depth : Nat
  maxd : Nat
  /-- The slots given: the symbol, its first slot, and how many it needs. -/
  slots : List (Nat × Int × Nat)
  deriving DecidableEq, Repr

/-- `calcMaxDepth` of a statement: NodeVarDecl.cpp:916-925, NodeBlock.cpp:169-177,
NodeStatements.cpp:289-299, NodeControlIf.cpp:116-129, NodeControl.cpp:166-172. -/
def depthOf (w : Nat → Nat) (base : Nat) : Stmt → Nat → Nat → Out
  | .none, d, m => ⟨d, m, []⟩
  | .expr e, d, m => ⟨exprDepth w e d, m, []⟩
  | .decl x n i, d, m => ⟨exprDepth w i (w (d + n)), m, [(x, s32 (d + base), n)]⟩
  | .block s, d, m =>
    let o := depthOf w base s d m
    ⟨d, max o.depth o.maxd, o.slots⟩
  | .seq s t, d, m =>
    let o := depthOf w base s d m
    let p := depthOf w base t o.depth o.maxd
    ⟨max p.depth d, p.maxd, o.slots ++ p.slots⟩
  | .ifc c b e, d, m =>
    let d1 := exprDepth w c d
    let o := depthOf w base b d1 m
    let p := depthOf w base e d1 o.maxd
    ⟨w (d1 + max o.depth p.depth), p.maxd, o.slots ++ p.slots⟩
  | .ctl c b, d, m => depthOf w base b (exprDepth w c d) m

/-- A function: the slots of its parameters and of what it returns, and its statements. -/
structure Func where
  params : List Nat
  ret : Nat
  body : Stmt

/-- SymbolFunctionName.cpp:313-317 (in `calcMaxDepthOfFunctions`). -/
def Func.base (f : Func) : Nat := f.ret + 2 + f.params.sum

/-- NodeBlockFunctionDefinition.cpp:505: locals begin above the frame pointer. -/
def Func.locals (w : Nat → Nat) (f : Func) : Out := depthOf w 1 (.block f.body) 0 0

/-- SymbolFunctionName.cpp:318-321: the slots a frame gets (NodeBlockFunctionDefinition.cpp:403). -/
def Func.size (w : Nat → Nat) (f : Func) : Nat := w (w ((f.locals w).maxd + 1) + f.base)

/-! ### A call -/

/-- NodeList.cpp:229-243 for parameters: from the last to the first, upwards. -/
def slotsUp : List Nat → Int → List Int
  | [], _ => []
  | n :: ns, s => s :: slotsUp ns (s + n)

/-- The slots of the parameters (NodeBlockFunctionDefinition.cpp:496-507, NodeVarDecl.cpp:916-925). -/
def Func.paramSlots (f : Func) : List Int := (slotsUp f.params.reverse (-f.base)).reverse

/-- NodeBlockFunctionDefinition.cpp:253-254 (in `checkAndLabelType`). -/
def Func.selfSlot (f : Func) : Int := -2 - f.ret

section call
variable {V : Type}

/-- NodeFunctionCall.cpp:861-934 `evalArgumentsInReverseOrder`: the values of the last argument
first, each argument's in order. -/
def pushArgs (stk : List V) (args : List (List V)) : List V := args.reverse.foldl (· ++ ·) stk

/-- NodeFunctionCall.cpp:936-981 `evalHiddenArguments`: the object, a place for the context, and the
place for what is returned; `z` is the temporary value of Node.cpp:783. -/
def pushHidden (f : Func) (z self : V) (stk : List V) : List V :=
  stk ++ [self] ++ [z] ++ List.replicate f.ret z

/-- CallStack.cpp:27-41 `addFrameSlots`. -/
def addFrame (fp : V) (z : V) (n : Nat) (stk : List V) : List V := stk ++ [fp] ++ List.replicate n z

/-- The call stack when the body of the function begins, and where its frame is. -/
def enter (w : Nat → Nat) (f : Func) (fp z self : V) (stk : List V) (args : List (List V)) :
    List V × Nat :=
  let s := pushHidden f z self (pushArgs stk args)
  (addFrame fp z (f.size w) s, s.length)

/-- CallStack.cpp:103-108 `loadUlamValueSingleFromSlot`. -/
def load (s : List V) (frame : Nat) (slot : Int) : Option V :=
  if 0 ≤ frame + slot then s[(frame + slot).toNat]? else none

/-- CallStack.cpp:86-90 `storeUlamValueInSlot`; `none` is the failed assertion. -/
def store (s : List V) (frame : Nat) (slot : Int) (v : V) : Option (List V) :=
  if 0 ≤ frame + slot ∧ frame + slot < s.length then some (s.set (frame + slot).toNat v) else none

/-- NodeFunctionCall.cpp:911, 920, 970, 974 (`argsPushed`) with the slots of what is returned. -/
def pushed (f : Func) (args : List (List V)) : Nat := (args.map List.length).sum + 1 + 1 + f.ret

/-- CallStack.cpp:42-52 `returnFrame`, then `popArgs` (NodeFunctionCall.cpp:751). -/
def leave (s : List V) (frame n : Nat) : List V := (s.take frame).take (frame - n)

end call

/-! ### References -/

/-- What is named: a variable by its slot, a reference parameter by its number, a local reference by
its symbol. -/
inductive Tgt
  | loc (x : Nat)
  | par (i : Nat)
  | ref (r : Nat)
  deriving DecidableEq, Repr

/-- Statements about references. -/
inductive RStmt
  | skip
  | seq (s t : RStmt)
  /-- `Int & r = t;` -/
  | bind (r : Nat) (t : Tgt)
  /-- `t = v;` -/
  | set (t : Tgt) (v : Int)
  /-- `f(t, ..);` -/
  | call (f : Nat) (ts : List Tgt)
  /-- `if(t != 0) s` -/
  | cond (t : Tgt) (s : RStmt)

structure RFunc where
  /-- How many slots its frame has. -/
  slots : Nat
  body : RStmt

abbrev RProg := Nat → RFunc

/-- A pointer: to a slot of the current frame, or to a place on the stack (`PtrAbs`). -/
inductive Ptr
  | rel (x : Nat)
  | abs (p : Nat)
  deriving DecidableEq, Repr

/-- A running function: which, where its frame is, and its reference arguments, which are made
absolute by the caller (NodeFunctionCall.cpp:897-909). -/
structure Act where
  f : Nat
  fp : Nat
  pars : List Nat

/-- The stack, its top, and the pointer kept with the symbol of each local reference of each
function: SymbolVariableStack.cpp:58-67 `getAutoPtrForEval`, `setAutoPtrForEval`. -/
structure RSt where
  mem : Nat → Int
  top : Nat
  auto : Nat → Nat → Option Ptr

def place (a : Act) : Ptr → Nat
  | .rel x => a.fp + x
  | .abs p => p

/-- NodeIdent.cpp:1052-1066, 1135-1137 (in `makeUlamValuePtr`) with 953-957 (in `evalToStoreInto`): a
local reference is the pointer last kept with its symbol. -/
def resolve (s : RSt) (a : Act) : Tgt → Option Ptr
  | .loc x => some (.rel x)
  | .par i => a.pars[i]?.map .abs
  | .ref r => s.auto a.f r

def places (s : RSt) (a : Act) : List Tgt → Option (List Nat)
  | [] => some []
  | t :: ts => (resolve s a t).bind fun p => (places s a ts).map (place a p :: ·)

/-- The evaluator. NodeVarRef.cpp:343-385 `eval` for `bind`. -/
def run (G : RProg) : Nat → Act → RSt → RStmt → Option RSt
  | 0, _, _, _ => none
  | n + 1, a, s, t =>
    match t with
    | .skip => some s
    | .seq t u => (run G n a s t).bind fun s' => run G n a s' u
    | .bind r t => (resolve s a t).map fun p =>
        { s with auto := Function.update s.auto a.f (Function.update (s.auto a.f) r (some p)) }
    | .set t v => (resolve s a t).map fun p => { s with mem := Function.update s.mem (place a p) v }
    | .call f ts => (places s a ts).bind fun ps =>
        (run G n ⟨f, s.top, ps⟩ { s with top := s.top + (G f).slots } (G f).body).map fun s' =>
          { s' with top := s.top }
    | .cond t u => (resolve s a t).bind fun p =>
        if s.mem (place a p) ≠ 0 then run G n a s u else some s

end Ulam.Frame
