/-!
# The order of evaluation (model)

Expressions with effects, as the evaluator computes them and as the code the compiler generates computes them. The
generated code is a list of instructions over numbered temporaries.

Simplifications: values are integers and operators are arbitrary functions of them (their meaning is the subject of C67
and C69); a variable is an array of items, a scalar variable one of one item; functions take values (no reference
parameters), have a result, and are arbitrary partial functions of arguments and memory. Places are variables and items
of arrays. The object of a method call and class members are not modelled.
-/
namespace Ulam.Order

/-- Variables with their items. -/
abbrev Mem := Nat → Int → Int

/-- Operators, casts, truth of a `Bool`, functions: the same for both sides. -/
structure Env where
  bin : Nat → Int → Int → Int
  un : Nat → Int → Int
  truth : Int → Bool
  fn : Nat → List Int → Mem → Option (Int × Mem)
  /-- Declared array sizes. -/
  size : Nat → Nat

mutual
/-- What can be stored into. -/
inductive Place
  /-- A variable; `NodeIdent`. -/
  | var (x : Nat)
  /-- An item of an array; `NodeSquareBracket`. -/
  | item (x : Nat) (i : Expr)
/-- Expressions. -/
inductive Expr
  | const (v : Int)
  | read (p : Place)
  /-- Casts, signs, `!`. -/
  | un (op : Nat) (e : Expr)
  /-- Arithmetic, bitwise, shift and comparison operators; `NodeBinaryOp`, `NodeBinaryOpCompare`. -/
  | bin (op : Nat) (l r : Expr)
  | and (l r : Expr)
  | or (l r : Expr)
  /-- `c ? a : b`. -/
  | cond (c a b : Expr)
  /-- `p = e`. -/
  | assign (p : Place) (e : Expr)
  /-- `p op= e`, also `++p`. -/
  | upd (op : Nat) (p : Place) (e : Expr)
  /-- `p++`, where `e` is 1. -/
  | post (op : Nat) (p : Place) (e : Expr)
  /-- A call; `extra` are the arguments beyond the parameters of a function that takes a variable number. -/
  | call (f : Nat) (args extra : Args)
/-- Argument lists. -/
inductive Args
  | nil
  | cons (e : Expr) (as : Args)
end

/-- The memory with an item changed. -/
def put (m : Mem) (x : Nat) (i v : Int) : Mem := fun y j => if y = x ∧ j = i then v else m y j

/-- Subscripts must be inside; NodeSquareBracket.cpp:630-638 and 744-762 (evaluator), 1046-1058 (generated: `FAIL`).
Subscripts that get past these tests wrongly are the subject of C71; here they stop both sides. -/
def inside (E : Env) (x : Nat) (i : Int) : Bool := decide (0 ≤ i ∧ i < E.size x)

mutual
/-- `evalToStoreInto`: `NodeIdent`, `NodeSquareBracket::evalToStoreInto`, NodeSquareBracket.cpp:718-766. -/
def evPlace (E : Env) : Place → Mem → Option ((Nat × Int) × Mem)
  | .var x, m => some ((x, 0), m)
  | .item x i, m =>
    match ev E i m with
    | none => none
    | some (k, m) => if inside E x k then some ((x, k), m) else none
/-- `eval`: `NodeBinaryOp::eval` NodeBinaryOp.cpp:627-653 (left, then right); `NodeBinaryOpLogicalAnd::eval`
NodeBinaryOpLogicalAnd.cpp:34-72; `NodeBinaryOpLogicalOr::eval` NodeBinaryOpLogicalOr.cpp:34-69; `NodeQuestionColon::eval`
NodeQuestionColon.cpp:407-450; `NodeBinaryOpEqual::eval` NodeBinaryOpEqual.cpp:392-420 (place, right, then the operation
reads and writes the place, 434-545 and 547-612); `NodeBinaryOpEqualArithPostIncr::doBinaryOperation`
NodeBinaryOpEqualArithPostIncr.cpp:35-73; `NodeFunctionCall::eval` NodeFunctionCall.cpp:660-760. -/
def ev (E : Env) : Expr → Mem → Option (Int × Mem)
  | .const v, m => some (v, m)
  | .read p, m =>
    match evPlace E p m with
    | none => none
    | some ((x, k), m) => some (m x k, m)
  | .un op e, m =>
    match ev E e m with
    | none => none
    | some (v, m) => some (E.un op v, m)
  | .bin op l r, m =>
    match ev E l m with
    | none => none
    | some (a, m) =>
      match ev E r m with
      | none => none
      | some (b, m) => some (E.bin op a b, m)
  | .and l r, m =>
    match ev E l m with
    | none => none
    | some (a, m) => if E.truth a then ev E r m else some (a, m)
  | .or l r, m =>
    match ev E l m with
    | none => none
    | some (a, m) => if E.truth a then some (a, m) else ev E r m
  | .cond c a b, m =>
    match ev E c m with
    | none => none
    | some (v, m) => if E.truth v then ev E a m else ev E b m
  | .assign p e, m =>
    match evPlace E p m with
    | none => none
    | some ((x, k), m) =>
      match ev E e m with
      | none => none
      | some (v, m) => some (v, put m x k v)
  | .upd op p e, m =>
    match evPlace E p m with
    | none => none
    | some ((x, k), m) =>
      match ev E e m with
      | none => none
      | some (v, m) => some (E.bin op (m x k) v, put m x k (E.bin op (m x k) v))
  | .post op p e, m =>
    match evPlace E p m with
    | none => none
    | some ((x, k), m) =>
      match ev E e m with
      | none => none
      | some (v, m) => some (m x k, put m x k (E.bin op (m x k) v))
  | .call f args _, m =>
    match evArgs E args m with
    | none => none
    | some (vs, m) => E.fn f vs m
/-- `evalArgumentsInReverseOrder`; NodeFunctionCall.cpp:861-945: the last parameter's argument first; arguments beyond the
parameters are not evaluated (871-877). -/
def evArgs (E : Env) : Args → Mem → Option (List Int × Mem)
  | .nil, m => some ([], m)
  | .cons e as, m =>
    match evArgs E as m with
    | none => none
    | some (vs, m) =>
      match ev E e m with
      | none => none
      | some (v, m) => some (v :: vs, m)
end

/-! ## Generated code -/

/-- Where a generated place is: a variable, or an item whose subscript is in a temporary. -/
inductive Ref
  | var (x : Nat)
  | item (x t : Nat)
  deriving DecidableEq, Repr

/-- One generated statement; temporaries are numbers. -/
inductive Instr
  | const (t : Nat) (v : Int)
  | un (t op a : Nat)
  | bin (t op a b : Nat)
  | copy (t a : Nat)
  | check (x t : Nat)
  | load (t : Nat) (p : Ref)
  | store (p : Ref) (t : Nat)
  | call (t f : Nat) (args : List Nat)
  deriving DecidableEq, Repr

/-- Generated code. -/
inductive Code
  | skip
  | one (i : Instr)
  | seq (a b : Code)
  | ite (t : Nat) (a b : Code)
  deriving DecidableEq, Repr

mutual
/-- `genCodeToStoreInto`: `NodeSquareBracket::genCodeToStoreInto`, NodeSquareBracket.cpp:1026-1108. -/
def genPlace : Place → Nat → Code × Ref × Nat
  | .var x, n => (.skip, .var x, n)
  | .item x i, n =>
    let (c, t, n) := gen i n
    (.seq c (.one (.check x t)), .item x t, n)
/-- `genCode`; the number is `getNextTmpVarNumber`'s counter. `NodeBinaryOp::genCode` NodeBinaryOp.cpp:772-830 and
`NodeBinaryOpCompare::genCode` NodeBinaryOpCompare.cpp:386-442 (right operand first); `NodeBinaryOpLogicalAnd::genCode`
NodeBinaryOpLogicalAnd.cpp:93-149; `NodeBinaryOpLogicalOr::genCode` NodeBinaryOpLogicalOr.cpp:90-160;
`NodeQuestionColon::genCode` NodeQuestionColon.cpp:491-605; `NodeBinaryOpEqual::genCode` NodeBinaryOpEqual.cpp:721-745;
`NodeBinaryOpEqualArith::genCode` NodeBinaryOpEqualArith.cpp:190-241 (likewise bitwise and shift);
`NodeBinaryOpEqualArithPostIncr::genCode` NodeBinaryOpEqualArithPostIncr.cpp:153-205; `NodeFunctionCall::genCode`
NodeFunctionCall.cpp:1168-1320. -/
def gen : Expr → Nat → Code × Nat × Nat
  | .const v, n => (.one (.const n v), n, n + 1)
  | .read p, n =>
    let (c, p, n) := genPlace p n
    (.seq c (.one (.load n p)), n, n + 1)
  | .un op e, n =>
    let (c, t, n) := gen e n
    (.seq c (.one (.un n op t)), n, n + 1)
  | .bin op l r, n =>
    let (cr, tr, n) := gen r n
    let (cl, tl, n) := gen l n
    (.seq cr (.seq cl (.one (.bin n op tl tr))), n, n + 1)
  | .and l r, t =>
    let (cl, tl, n) := gen l (t + 1)
    let (cr, tr, n) := gen r n
    (.seq (.one (.const t 0)) (.seq cl (.ite tl (.seq cr (.one (.copy t tr))) .skip)), t, n)
  | .or l r, t =>
    let (cl, tl, n) := gen l (t + 1)
    let (cr, tr, n) := gen r n
    (.seq (.one (.const t 0)) (.seq cl (.ite tl (.one (.copy t tl)) (.seq cr (.one (.copy t tr))))), t, n)
  | .cond c a b, t =>
    let (cc, tc, n) := gen c (t + 1)
    let (ca, ta, n) := gen a n
    let (cb, tb, n) := gen b n
    (.seq cc (.ite tc (.seq ca (.one (.copy t ta))) (.seq cb (.one (.copy t tb)))), t, n)
  | .assign p e, n =>
    let (ce, te, n) := gen e n
    let (cp, p, n) := genPlace p n
    (.seq ce (.seq cp (.one (.store p te))), te, n)
  | .upd op p e, n =>
    let (ce, te, n) := gen e n
    let (cp, p, n) := genPlace p n
    (.seq ce (.seq cp (.seq (.one (.load n p)) (.seq (.one (.bin (n + 1) op n te)) (.one (.store p (n + 1)))))), n + 1, n + 2)
  | .post op p e, n =>
    let (ce, te, n) := gen e n
    let (cp, p, n) := genPlace p n
    (.seq ce (.seq cp (.seq (.one (.load n p)) (.seq (.one (.bin (n + 1) op n te)) (.one (.store p (n + 1)))))), n, n + 2)
  | .call f args extra, n =>
    let (ca, ts, n) := genArgs args n
    let (cx, _, n) := genArgs extra n
    (.seq ca (.seq cx (.one (.call n f ts))), n, n + 1)
/-- `genRestOfFunctionArgs`; NodeFunctionCall.cpp:1986-2052: first argument first, those beyond the parameters last. -/
def genArgs : Args → Nat → Code × List Nat × Nat
  | .nil, n => (.skip, [], n)
  | .cons e as, n =>
    let (c, t, n) := gen e n
    let (cs, ts, n) := genArgs as n
    (.seq c cs, t :: ts, n)
end

/-- The state of the generated program. -/
abbrev St := Mem × (Nat → Int)

/-- A temporary set. -/
def set (τ : Nat → Int) (t : Nat) (v : Int) : Nat → Int := fun k => if k = t then v else τ k

/-- Subscript of a place. -/
def Ref.at (τ : Nat → Int) : Ref → Nat × Int
  | .var x => (x, 0)
  | .item x t => (x, τ t)

/-- What a statement does. -/
def step (E : Env) (i : Instr) (s : St) : Option St :=
  match i with
  | .const t v => some (s.1, set s.2 t v)
  | .un t op a => some (s.1, set s.2 t (E.un op (s.2 a)))
  | .bin t op a b => some (s.1, set s.2 t (E.bin op (s.2 a) (s.2 b)))
  | .copy t a => some (s.1, set s.2 t (s.2 a))
  | .check x t => if inside E x (s.2 t) then some s else none
  | .load t p => some (s.1, set s.2 t (s.1 (p.at s.2).1 (p.at s.2).2))
  | .store p t => some (put s.1 (p.at s.2).1 (p.at s.2).2 (s.2 t), s.2)
  | .call t f args =>
    match E.fn f (args.map s.2) s.1 with
    | none => none
    | some (v, m) => some (m, set s.2 t v)

/-- Running generated code. -/
def run (E : Env) : Code → St → Option St
  | .skip, s => some s
  | .one i, s => step E i s
  | .seq a b, s =>
    match run E a s with
    | none => none
    | some s => run E b s
  | .ite t a b, s => if E.truth (s.2 t) then run E a s else run E b s

/-- The generated program's value of an expression. -/
def genValue (E : Env) (e : Expr) (m : Mem) : Option (Int × Mem) :=
  match run E (gen e 0).1 (m, fun _ => 0) with
  | none => none
  | some s => some (s.2 (gen e 0).2.1, s.1)

end Ulam.Order
