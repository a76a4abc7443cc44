import Verif.Control.Model
/-
Model of return statements: how they are labelled, the check of a function's
return statements, and what a call gives back in the generated code and in
the evaluator.

/repo/src/ulam/NodeReturnStatement.cpp:99-268 (checkAndLabelType), 277-316
(eval), 395-422 (genCode);
/repo/src/ulam/CompilerState.cpp:5579-5676 (checkFunctionReturnNodeTypes);
/repo/src/ulam/NodeBlockFunctionDefinition.cpp:171-275 (checkAndLabelType),
377-450 (eval); /repo/src/ulam/Node.cpp:769-796 (room for a result).

Statements are those of the model of loops and `which` (Verif.Control), with
an expression added to the return statement.  Types and their comparisons, the
forecast of casts, and the values of expressions are parameters.

Simplifications.  The result is one value; returning a reference
(genCodeToStoreInto, evalToStoreInto) is left out, though its type checks are
not.  Evaluation of an expression always succeeds.  Constant folding before a
cast is left out: the forecast is the one after it.  The texts of messages and
the type of the symbol being reset are left out.
-/
namespace Ulam.Returns
open Ulam.Control

mutual
/-- Statements as written; `ret none` is `return;`. -/
inductive RStmt where
  | act (a : Nat)
  | ret (e : Option Nat)
  | brk
  | cont
  | block (ss : RStmts)
  | ite (c : Nat) (t : RStmt)
  | iteElse (c : Nat) (t e : RStmt)
  | whil (c : Nat) (b : RStmt)
  | forr (init c step : Option Nat) (b : RStmt)
  | which (e : Option Nat) (gs : RGroups)
inductive RStmts where
  | nil
  | cons (s : RStmt) (ss : RStmts)
inductive RGroups where
  | nil
  | cons (l : Option Nat) (ls : List (Option Nat)) (b : RStmt) (gs : RGroups)
end

/-- Forecast of a cast; include/UlamType.h, `FORECAST`. -/
inductive Forecast where
  | clear | bad | hazy
deriving DecidableEq

/-- Three-valued answer; `TBOOL`. -/
inductive TB where
  | no | yes | hazy
deriving DecidableEq

/-- The questions asked about types, and what they depend on. -/
structure Ops (τ : Type) where
  isVoid : τ → Bool
  complete : τ → Bool
  scalar : τ → Bool
  /-- `compareForAssignment(a, b) == UTIC_SAME` -/
  sameAssign : τ → τ → Bool
  /-- `compareForArgumentMatching(a, b) == UTIC_SAME` -/
  sameArg : τ → τ → Bool
  altRef : τ → Bool
  constRef : τ → Bool
  base : τ → Nat
  arraySize : τ → Int
  bitSize : τ → Nat
  refKind : τ → Nat
  /-- the type of the missing expression (NodeStatementEmpty) -/
  voidTy : τ

/-- What is known of an expression: its type, whether it is a constant, and the forecast and the
success of casting it to the return type. -/
structure Expr (τ : Type) where
  ty : τ
  isConst : TB
  safe : Forecast
  castOk : Bool

/-- The type of a node: `Nav`, `Hzy` or another. -/
inductive NTy (τ : Type) where
  | nav | hzy | ty (t : τ)

/-- A labelled return statement: its type, whether its expression was put under a cast, the errors. -/
structure Lab (τ : Type) where
  nty : NTy τ
  cast : Bool
  errs : Nat

/-- The type after making a casting node: NodeReturnStatement.cpp:138-141, 218-221. -/
def castTo {τ} (rt : τ) (ok : Bool) : Lab τ := if ok then ⟨.ty rt, true, 0⟩ else ⟨.nav, false, 0⟩

/-- What follows a forecast: NodeReturnStatement.cpp:135-170, 214-243. -/
def byForecast {τ} (rt : τ) (e : Expr τ) : Lab τ :=
  match e.safe with
  | .clear => castTo rt e.castOk
  | .bad => ⟨.nav, false, 1⟩
  | .hazy => ⟨.hzy, false, 0⟩

/-- The types are the same for assignment; NodeReturnStatement.cpp:183-246. -/
def labelSame {τ} (O : Ops τ) (rt : τ) (e : Expr τ) : Lab τ :=
  if O.altRef rt && O.altRef e.ty then
    if O.constRef e.ty then ⟨.nav, false, 1⟩ else ⟨.ty e.ty, false, 0⟩
  else if O.altRef rt && !O.constRef rt && decide (e.isConst ≠ .no) then
    if e.isConst = .hazy then ⟨.hzy, false, 0⟩ else ⟨.nav, false, 1⟩
  else if O.altRef rt || O.altRef e.ty then byForecast rt e
  else ⟨.ty e.ty, false, 0⟩

/-- The types differ; NodeReturnStatement.cpp:119-181. -/
def labelDiff {τ} (O : Ops τ) (rt : τ) (e : Expr τ) : Lab τ :=
  if !O.isVoid rt then
    if O.isVoid e.ty then ⟨.nav, false, 1⟩ else byForecast rt e
  else ⟨.nav, false, 1⟩

/-- `NodeReturnStatement::checkAndLabelType`; NodeReturnStatement.cpp:99-268.  The return type is
complete (NodeBlockFunctionDefinition.cpp:191-227 gives up otherwise). -/
def label1 {τ} (O : Ops τ) (rt : τ) (e : Expr τ) : Lab τ :=
  if O.complete e.ty && O.complete rt then
    if O.scalar e.ty != O.scalar rt then ⟨.nav, false, 1⟩
    else if !O.sameAssign e.ty rt then labelDiff O rt e
    else labelSame O rt e
  else ⟨.hzy, false, 0⟩

/-- Kinds of functions the check knows. -/
structure Kind where
  native : Bool
  virt : Bool
  pure : Bool
  ctor : Bool
deriving DecidableEq

/-- One return statement, CompilerState.cpp:5599-5673: is it right, and the errors.  A type that is
not complete is passed over; a different base type is only a warning, but not right either. -/
def check1 {τ} (O : Ops τ) (rt : τ) (l : Lab τ) : Bool × Nat :=
  match l.nty with
  | .nav => (true, 0)
  | .hzy => (true, 0)
  | .ty t =>
    if !O.complete t then (true, 0)
    else if O.sameArg t rt then (true, 0)
    else if O.base t ≠ O.base rt then (false, 0)
    else (false, (if O.arraySize t ≠ O.arraySize rt then 1 else 0) + (if O.bitSize t ≠ O.bitSize rt then 1 else 0) +
      (if O.refKind t ≠ O.refKind rt then 1 else 0))

/-- `checkFunctionReturnNodeTypes`; CompilerState.cpp:5581-5676. -/
def checkAll {τ} (O : Ops τ) (rt : τ) (k : Kind) : List (Lab τ) → Bool × Nat
  | [] =>
    if !O.isVoid rt && !k.native && (!k.virt || !k.pure) && !k.ctor then (false, 1) else (true, 0)
  | ls => ((ls.map fun l => (check1 O rt l).1).all id, ((ls.map fun l => (check1 O rt l).2).sum))

mutual
/-- The return statements of a body, in the order they are labelled: NodeStatements, NodeBlock,
NodeControlIf and NodeControlWhile label every part of them, reached or not. -/
def rets : RStmt → List (Option Nat)
  | .ret e => [e]
  | .block ss => retss ss
  | .ite _ t => rets t
  | .iteElse _ t e => rets t ++ rets e
  | .whil _ b => rets b
  | .forr _ _ _ b => rets b
  | .which _ gs => retsG gs
  | _ => []
def retss : RStmts → List (Option Nat)
  | .nil => []
  | .cons s ss => rets s ++ retss ss
def retsG : RGroups → List (Option Nat)
  | .nil => []
  | .cons _ _ b gs => rets b ++ retsG gs
end

/-- A function: its return type, its kind, its expressions and its body. -/
structure Fn (τ : Type) where
  rt : τ
  kind : Kind
  ex : Nat → Expr τ
  body : RStmt

/-- The expression of a return statement; a missing one is a NodeStatementEmpty of type Void
(Parser.cpp:3701-3707), which casts to nothing else. -/
def exprOf {τ} (O : Ops τ) (f : Fn τ) : Option Nat → Expr τ
  | some e => f.ex e
  | none => ⟨O.voidTy, .no, .bad, false⟩

/-- The labelled return statements; `m_currentFunctionReturnNodes` after
NodeBlockFunctionDefinition.cpp:256-263. -/
def labels {τ} (O : Ops τ) (f : Fn τ) : List (Lab τ) := (rets f.body).map fun e => label1 O f.rt (exprOf O f e)

/-- Is the type one that ends the resolving of types? -/
def NTy.known {τ} : NTy τ → Bool
  | .ty _ => true
  | _ => false

/-- No errors from the function's return statements, all of them typed, and the function's own node
too: countNavHzyNoutiNodes finds nothing (NodeReturnStatement.cpp:270-275), and
NodeBlockFunctionDefinition.cpp:263-264. -/
def accepted {τ} (O : Ops τ) (f : Fn τ) : Bool :=
  (labels O f).all (fun l => l.nty.known && l.errs == 0) && (checkAll O f.rt f.kind (labels O f)).1 &&
    (checkAll O f.rt f.kind (labels O f)).2 == 0

mutual
/-- A return statement as the model of control flow sees it: its value is put where the caller finds
it, then the function is left (NodeReturnStatement.cpp:296-315 in the evaluator, `return (x);` in the
code, 403-414).  Actions have even numbers, the settings of the result odd ones. -/
def lower : RStmt → Stmt
  | .act a => .act (2 * a)
  | .ret none => .ret
  | .ret (some e) => .block (.cons (.act (2 * e + 1)) (.cons .ret .nil))
  | .brk => .brk
  | .cont => .cont
  | .block ss => .block (lowers ss)
  | .ite c t => .ite c (lower t)
  | .iteElse c t e => .iteElse c (lower t) (lower e)
  | .whil c b => .whil c (lower b)
  | .forr i c s b => .forr (i.map (2 * ·)) c (s.map (2 * ·)) (lower b)
  | .which e gs => .which e (lowerG gs)
def lowers : RStmts → Stmts
  | .nil => .nil
  | .cons s ss => .cons (lower s) (lowers ss)
def lowerG : RGroups → Groups
  | .nil => .nil
  | .cons l ls b gs => .cons l ls (lower b) (lowerG gs)
end

/-- The store with the place for the result; `conv e` is what the cast put over expression `e`, if
any, does to its value. -/
def lift {σ} (S : Sem σ) (conv : Nat → Int → Int) : Sem (σ × Option Int) where
  act n s := if n % 2 = 0 then (S.act (n / 2) s.1, s.2)
    else ((S.val (n / 2) s.1).2, some (conv (n / 2) (S.val (n / 2) s.1).1))
  cond c s := ((S.cond c s.1).1, ((S.cond c s.1).2, s.2))
  val e s := ((S.val e s.1).1, ((S.val e s.1).2, s.2))

/-- The cast put over an expression; `cv t t'` casts a value. -/
def convOf {τ} (O : Ops τ) (cv : τ → τ → Int → Int) (f : Fn τ) (e : Nat) (v : Int) : Int :=
  if (label1 O f.rt (f.ex e)).cast then cv (f.ex e).ty f.rt v else v

/-- How a call ends. -/
inductive CallRes where
  /-- with this value; `none` for a `return;` -/
  | value (v : Option Int)
  /-- after the last statement of the body, in C++: no value (undefined when one is used) -/
  | end
  /-- after the last statement of the body, in the evaluator: the cleared room made for the result,
  Node.cpp:780-784 -/
  | room
  /-- the evaluator does not run native functions -/
  | unevaluable
  /-- a break, a continue or a goto out of the function -/
  | stray
deriving DecidableEq

/-- A call in the generated code: the function's C++ body. -/
def cCall {σ τ} (O : Ops τ) (cv : τ → τ → Int → Int) (S : Sem σ) (fuel : Nat) (nd : Bool) (p : PS) (f : Fn τ)
    (ρ : Nat → Int) (x : σ) : Option (CallRes × σ) :=
  match cexec (lift S (convOf O cv f)) fuel (parse nd (lower f.body) p).1 ρ (x, none) with
  | none => none
  | some (.ret, s) => some (.value s.2, s.1)
  | some (.normal, s) => some (.end, s.1)
  | some (_, s) => some (.stray, s.1)

/-- A call in the evaluator: `NodeBlockFunctionDefinition::eval`, NodeBlockFunctionDefinition.cpp:377-450. -/
def eCall {σ τ} (O : Ops τ) (cv : τ → τ → Int → Int) (S : Sem σ) (fuel : Nat) (nd : Bool) (p : PS) (f : Fn τ)
    (ρ : Nat → Int) (x : σ) : Option (CallRes × σ) :=
  if f.kind.native && !O.isVoid f.rt then some (.unevaluable, x)
  else
    match eval (lift S (convOf O cv f)) fuel (parse nd (lower f.body) p).1 ρ (x, none) with
    | none => none
    | some (.ret, s) => some (.value s.2, s.1)
    | some (.normal, s) => some (.room, s.1)
    | some (_, s) => some (.stray, s.1)

end Ulam.Returns
