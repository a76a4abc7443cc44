import Verif.EvalStmt.Model
/-!
# Conditions, loops, and leaving them, on the node evaluation stack (model)

The statements of a function with `if`, `while`, `break`, `continue` and `return`, on the stack of C32.

Simplifications: expressions are by number, and what they are worth and do to the variables is given (that they are evaluated in
their room is C143); errors, and breaks out of a `switch`, are left out; a block is its statements (`NodeBlock.cpp:158-167`); `fuel` bounds the depth of the execution, `none` is a failed assertion or that there is not enough
of it.
-/
namespace Ulam.EvalCtl
open CallStack (CS Slot popArg returnFrame)
open EvalStmt (prolog room load handUp)

/-- Statements. `seq` and `last` are `NodeStatements`, with and without a next one. -/
inductive Stmt where
  | skip
  | expr (k : Nat)
  | brk
  | cont
  | ret (k : Nat)
  | ite (k : Nat) (t f : Stmt)
  | loop (k : Nat) (body : Stmt)
  | seq (a rest : Stmt)
  | last (a : Stmt)

/-- Whether it is a `NodeStatements`, as the next one of another is. -/
def isStatements : Stmt → Bool
  | .seq _ _ => true
  | .last _ => true
  | _ => false

/-- The trees there are: the next one (`NodeStatements::setNextNode`) is a `NodeStatements`. -/
def WF : Stmt → Prop
  | .ite _ t f => WF t ∧ WF f
  | .loop _ b => WF b
  | .seq a r => WF a ∧ WF r ∧ isStatements r = true
  | .last a => WF a
  | _ => True

/-- `EvalStatus` without errors; the value of a return is on the call stack. -/
inductive Status where
  | normal
  | brk
  | cont
  | ret (v : Int)
  deriving DecidableEq, Repr

/-- The slots of the type of a statement: conditions and loops are `Bool` (`NodeControl::checkAndLabelType`), a return has the type of
its value (here one slot), the others are `Void`. -/
def slots : Stmt → Nat
  | .ret _ => 1
  | .ite _ _ _ => 1
  | .loop _ _ => 1
  | _ => 0

/-- `makeRoomForNodeType` (`Node.cpp:769-778`). -/
def roomFor (p : Stmt) (s : CS Int) : CS Int := if slots p = 1 then room s else s

/-- The other way round: `popArgs(slots)` (`CallStack.cpp:244-250`). -/
def unroomFor (p : Stmt) (s : CS Int) : Option (CS Int) := if slots p = 1 then (popArg s).map (·.2) else some s

/-- An expression in its room. -/
def evalX {σ : Type} (ev : Nat → σ → Int × σ) (k : Nat) (x : σ) (s : CS Int) : Option (σ × CS Int) :=
  (handUp (prolog s) (ev k x).1).bind fun s => (returnFrame s).map fun s => ((ev k x).2, s)

/-- `popArg` of a value. -/
def popVal (s : CS Int) : Option (Int × CS Int) :=
  match popArg s with
  | some (.val v, s) => some (v, s)
  | _ => none

/-- The end of a statement: `evalStatusReturn` or `evalNodeEpilog` (`Node.cpp:740-744`, 763-767). -/
def finish {σ : Type} (st : Status) (x : σ) (s : CS Int) : Option (Status × σ × CS Int) := (returnFrame s).map fun s => (st, x, s)

mutual
/-- Statements. Empty: `NodeStatementEmpty.cpp:59-62`; expression: `NodeSimpleStatement.cpp:114-123`; break: `NodeBreakStatement.cpp:57-62`;
continue: `NodeContinueStatement.cpp:53-56`; return: `NodeReturnStatement.cpp:276-318`; if: `NodeControlIf.cpp:138-179`; while:
`NodeControlWhile.cpp:36-79`; sequences: `NodeStatements.cpp:226-247`, all of them `eval`. -/
def eval {σ : Type} (ev : Nat → σ → Int × σ) : Nat → Stmt → σ → CS Int → Option (Status × σ × CS Int)
  | 0, _, _, _ => none
  | _ + 1, .skip, x, s => some (.normal, x, s)
  | _ + 1, .expr k, x, s => (evalX ev k x (room (prolog s))).bind fun y => finish .normal y.1 y.2
  | _ + 1, .brk, x, s => some (.brk, x, s)
  | _ + 1, .cont, x, s => some (.cont, x, s)
  | _ + 1, .ret k, x, s =>
    (evalX ev k x (room (prolog s))).bind fun y => (load y.2 1).bind fun v => finish (.ret v) y.1 y.2
  | n + 1, .ite k t f, x, s =>
    (evalX ev k x (room (prolog s))).bind fun y => (load y.2 1).bind fun c =>
    (if c = 0 then eval ev n f y.1 (roomFor f y.2) else eval ev n t y.1 (roomFor t y.2)).bind fun z =>
    (handUp z.2.2 c).bind fun s => finish z.1 z.2.1 s
  | n + 1, .loop k body, x, s =>
    (evalX ev k x (room (prolog s))).bind fun y => (popVal y.2).bind fun c => evalLoop ev n k body c.1 y.1 c.2
  | n + 1, .seq a rest, x, s =>
    (eval ev n a x (roomFor a (prolog s))).bind fun z =>
    match z.1 with
    | .normal => (returnFrame z.2.2).bind fun s => eval ev n rest z.2.1 s
    | st => finish st z.2.1 z.2.2
  | n + 1, .last a, x, s => (eval ev n a x (roomFor a (prolog s))).bind fun z => finish z.1 z.2.1 z.2.2
/-- The loop of `NodeControlWhile.cpp:50-78` in `eval`, with the value of the condition. -/
def evalLoop {σ : Type} (ev : Nat → σ → Int × σ) : Nat → Nat → Stmt → Int → σ → CS Int → Option (Status × σ × CS Int)
  | 0, _, _, _, _, _ => none
  | n + 1, k, body, c, x, s =>
    if c = 0 then (handUp s c).bind fun s => finish .normal x s
    else (eval ev n body x (roomFor body s)).bind fun z =>
      match z.1 with
      | .brk => (handUp z.2.2 c).bind fun s => finish .normal z.2.1 s
      | .ret v => finish (.ret v) z.2.1 z.2.2
      | _ => (unroomFor body z.2.2).bind fun s =>
        (evalX ev k z.2.1 (room s)).bind fun y => (popVal y.2).bind fun c => evalLoop ev n k body c.1 y.1 c.2
end

end Ulam.EvalCtl
