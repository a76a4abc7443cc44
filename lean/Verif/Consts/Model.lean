/-
Named constants: how they get their values.

A constant definition `constant T n = e;` of a class or of the scope of a file is
labelled in every pass over the program until its expression could be folded to
a value.  A name in the expression first becomes a constant node, then takes the
value of the constant as soon as that has one.  The compiler repeats the passes
until nothing waits, an error was counted, or the number of rounds is used up.

Modelled: `Compiler::checkAndTypeLabelProgram` (first pass and the resolving
loop), `NodeConstantDef::checkAndLabelType`/`foldConstantExpression` for
primitive scalars, and the labelling of the expressions (`NodeIdent`,
`NodeConstant`, `NodeUnaryOp`, `NodeBinaryOp`, `NodeQuestionColon`).
Not modelled: types that wait (sizes of types that depend on constants), arrays
and classes as constants, templates, casts inserted between the operands.
-/

namespace Ulam.Consts

/-- The operations on values.  What an operator computes, and whether a value can
be stored in the declared type of constant `n`, is taken as given here: `none`
stands for an evaluation with status `ERROR` (/repo/src/ulam/NodeBinaryOp.cpp:584-592,
/repo/src/ulam/NodeUnaryOp.cpp:333-341) and for a value that does not fit
(/repo/src/ulam/NodeConstantDef.cpp:1045-1074). -/
structure Sem (O V : Type) where
  un : O → V → Option V
  bin : O → V → V → Option V
  truth : V → Bool
  store : Nat → V → Option V

/-- The expression trees: terminals, `NodeIdent` (a name not yet looked at),
`NodeConstant` (with `m_constant` once `m_ready`), unary and binary operators, `?:`. -/
inductive Tree (O V : Type) where
  | lit (v : V)
  | ident (n : Nat)
  | cnst (n : Nat) (cache : Option V)
  | un (o : O) (a : Tree O V)
  | bin (o : O) (a b : Tree O V)
  | cond (c a b : Tree O V)

/-- What labelling answers: `Nav` (error), `Hzy` (not yet), or a type. -/
inductive Stat where
  | nav
  | hzy
  | ok
  deriving DecidableEq

/-- The result of labelling a node: the node that stands in its place, the
answer, and how many messages of kind ERR and WAIT were given. -/
structure Out (O V : Type) where
  tree : Tree O V
  stat : Stat
  errs : Nat
  waits : Nat

/-- A program: the constants with their expressions, in the order in which the
passes meet them: those of the classes (the class table, and in a class the
statements in order, /repo/src/ulam/NodeStatements.cpp:183-196) and those of the file scopes. -/
structure Prog (O V : Type) where
  sem : Sem O V
  body : Nat → Option (Tree O V)
  classes : List Nat
  locals : List Nat

/-- The value of a node that can be evaluated: a terminal or a ready constant
(/repo/src/ulam/NodeConstant.cpp:612-621). -/
def valOf {O V : Type} : Tree O V → Option V
  | .lit v => some v
  | .cnst _ c => c
  | _ => none

/-- `NodeIdent::checkAndLabelType` for the name of a constant
(/repo/src/ulam/NodeIdent.cpp:298-415): it is replaced by a constant node and waits without
a message; an unknown name is an error. -/
def labIdent {O V : Type} (P : Prog O V) (n : Nat) : Out O V :=
  match P.body n with
  | some _ => ⟨.cnst n none, .hzy, 0, 0⟩
  | none => ⟨.ident n, .nav, 1, 0⟩

/-- `NodeConstant::checkAndLabelType` (/repo/src/ulam/NodeConstant.cpp:173-320) with
`updateConstant` (/repo/src/ulam/NodeConstant.cpp:680-695): a node that is not ready takes the
value of its symbol if that has one, else it waits; an unknown name is an error
besides (/repo/src/ulam/NodeConstant.cpp:322-381). -/
def labCnst {O V : Type} (P : Prog O V) (env : Nat → Option V) (n : Nat) (c : Option V) : Out O V :=
  match c with
  | some v => ⟨.cnst n (some v), .ok, 0, 0⟩
  | none =>
    match env n with
    | some v => ⟨.cnst n (some v), .ok, 0, 0⟩
    | none => ⟨.cnst n none, .hzy, if (P.body n).isNone then 1 else 0, 1⟩

/-- `NodeUnaryOp::checkAndLabelType` and `constantFold` (/repo/src/ulam/NodeUnaryOp.cpp:127-195,
/repo/src/ulam/NodeUnaryOp.cpp:301-376): an operand in error makes the node wait (the error is
counted already); a ready operand is folded. -/
def labUn {O V : Type} (P : Prog O V) (o : O) (r : Out O V) : Out O V :=
  match r.stat, valOf r.tree with
  | .ok, some v =>
    match P.sem.un o v with
    | some w => ⟨.lit w, .ok, r.errs, r.waits⟩
    | none => ⟨.un o r.tree, .nav, r.errs + 1, r.waits⟩
  | .ok, none => ⟨.un o r.tree, .hzy, r.errs, r.waits + 1⟩
  | _, _ => ⟨.un o r.tree, .hzy, r.errs, r.waits⟩

/-- `NodeBinaryOp::constantFold` (/repo/src/ulam/NodeBinaryOp.cpp:543-625). -/
def foldBin {O V : Type} (P : Prog O V) (o : O) (a b : Out O V) : Out O V :=
  match valOf a.tree, valOf b.tree with
  | some x, some y =>
    match P.sem.bin o x y with
    | some w => ⟨.lit w, .ok, a.errs + b.errs, a.waits + b.waits⟩
    | none => ⟨.bin o a.tree b.tree, .nav, a.errs + b.errs + 1, a.waits + b.waits⟩
  | _, _ => ⟨.bin o a.tree b.tree, .hzy, a.errs + b.errs, a.waits + b.waits + 1⟩

/-- `NodeBinaryOp::checkAndLabelType` (/repo/src/ulam/NodeBinaryOp.cpp:163-231): both operands are
labelled, then the answer of the left, then of the right one counts. -/
def labBin {O V : Type} (P : Prog O V) (o : O) (a b : Out O V) : Out O V :=
  if a.stat ≠ .ok then ⟨.bin o a.tree b.tree, a.stat, a.errs + b.errs, a.waits + b.waits⟩
  else if b.stat ≠ .ok then ⟨.bin o a.tree b.tree, b.stat, a.errs + b.errs, a.waits + b.waits⟩
  else foldBin P o a b

/-- `NodeQuestionColon::calcNodeType` (/repo/src/ulam/NodeQuestionColon.cpp:142-148, the part about types that
are not there), and the condition that comes first (/repo/src/ulam/NodeQuestionColon.cpp:271-283;
a condition in error waits, its error is counted already). -/
def condStat (c a b : Stat) : Stat :=
  if c ≠ .ok then .hzy
  else if a = .nav ∨ b = .nav then .nav
  else if a = .hzy ∨ b = .hzy then .hzy
  else .ok

/-- `NodeQuestionColon::checkAndLabelType` and `constantFold`
(/repo/src/ulam/NodeQuestionColon.cpp:233-316, /repo/src/ulam/NodeQuestionColon.cpp:339-405): all three parts
are labelled; once all are there the chosen branch takes the place of the node,
which waits once more. -/
def labCond {O V : Type} (P : Prog O V) (c a b : Out O V) : Out O V :=
  match condStat c.stat a.stat b.stat, valOf c.tree with
  | .ok, some v =>
    ⟨if P.sem.truth v then a.tree else b.tree, .hzy, c.errs + a.errs + b.errs, c.waits + a.waits + b.waits⟩
  | .ok, none => ⟨.cond c.tree a.tree b.tree, .hzy, c.errs + a.errs + b.errs, c.waits + a.waits + b.waits + 1⟩
  | st, _ => ⟨.cond c.tree a.tree b.tree, st, c.errs + a.errs + b.errs, c.waits + a.waits + b.waits⟩

/-- Labelling an expression, with the values the constants have now. -/
def label {O V : Type} (P : Prog O V) (env : Nat → Option V) : Tree O V → Out O V
  | .lit v => ⟨.lit v, .ok, 0, 0⟩
  | .ident n => labIdent P n
  | .cnst n c => labCnst P env n c
  | .un o a => labUn P o (label P env a)
  | .bin o a b => labBin P o (label P env a) (label P env b)
  | .cond c a b => labCond P (label P env c) (label P env a) (label P env b)

/-- A constant definition during labelling: its expression, the value of its
symbol once it has one, and whether the definition is in error (`Nav`). -/
structure Cell (O V : Type) where
  tree : Tree O V
  val : Option V
  bad : Bool

/-- All the constant definitions. -/
abbrev State (O V : Type) := Nat → Cell O V

/-- The values of the symbols. -/
def env {O V : Type} (s : State O V) : Nat → Option V := fun n => (s n).val

/-- Replacing one definition. -/
def upd {O V : Type} (s : State O V) (n : Nat) (c : Cell O V) : State O V :=
  fun m => if m = n then c else s m

/-- The definitions after some passes with the counts of messages and the flag
`m_goAgainResolveLoop`. -/
structure Acc (O V : Type) where
  st : State O V
  errs : Nat
  waits : Nat
  again : Bool

/-- `NodeConstantDef::foldConstantExpression` for a primitive scalar, with what
`checkAndLabelType` makes of the answer (/repo/src/ulam/NodeConstantDef.cpp:1012-1107,
/repo/src/ulam/NodeConstantDef.cpp:756-795): the value must fit the declared type; then the
expression becomes a terminal and the symbol has its value. -/
def foldDef {O V : Type} (P : Prog O V) (s : Acc O V) (n : Nat) (r : Out O V) : Acc O V :=
  match valOf r.tree with
  | some v =>
    match P.sem.store n v with
    | some w => ⟨upd s.st n ⟨.lit w, some w, false⟩, s.errs + r.errs, s.waits + r.waits, s.again⟩
    | none => ⟨upd s.st n ⟨r.tree, none, true⟩, s.errs + r.errs + 2, s.waits + r.waits, s.again⟩
  | none => ⟨upd s.st n ⟨r.tree, none, false⟩, s.errs + r.errs, s.waits + r.waits + 2, true⟩

/-- `NodeConstantDef::checkAndLabelType` (/repo/src/ulam/NodeConstantDef.cpp:358-797): a definition in
error is passed over, one with a value stays as it is; otherwise the expression is
labelled: in error, waiting with a message and another round asked for, or folded. -/
def defStep {O V : Type} (P : Prog O V) (s : Acc O V) (n : Nat) : Acc O V :=
  if (s.st n).bad then s
  else if (s.st n).val.isSome then s
  else
    let r := label P (env s.st) (s.st n).tree
    match r.stat with
    | .nav => ⟨upd s.st n ⟨r.tree, none, true⟩, s.errs + r.errs + 1, s.waits + r.waits, s.again⟩
    | .hzy => ⟨upd s.st n ⟨r.tree, none, false⟩, s.errs + r.errs, s.waits + r.waits + 1, true⟩
    | .ok => foldDef P s n r

/-- A pass over a list of definitions. -/
def pass {O V : Type} (P : Prog O V) (ns : List Nat) (s : State O V) : Acc O V :=
  ns.foldl (defStep P) ⟨s, 0, 0, false⟩

/-- The definitions as parsed. -/
def start {O V : Type} [Inhabited V] (P : Prog O V) : State O V :=
  fun n => ⟨(P.body n).getD (.lit default), none, false⟩

/-- The result of a round: the definitions, the errors counted, another round wanted. -/
structure Round (O V : Type) where
  st : State O V
  errs : Nat
  again : Bool

/-- `CompilerState::updateLineageAndFirstCheckAndLabelPass` (/repo/src/ulam/CompilerState.cpp:3716-3738):
the first pass, the classes before the scopes of the files. -/
def firstPass {O V : Type} (P : Prog O V) (s : State O V) : Round O V :=
  let c := pass P P.classes s
  let l := pass P P.locals c.st
  ⟨l.st, c.errs + l.errs, c.again || l.again⟩

/-- `Compiler::resolvingLoop` (/repo/src/ulam/Compiler.cpp:374-390): a round, the scopes of the
files before the classes.  In the last round a WAIT message counts as an error
(/repo/src/ulam/ErrorMessageHandler.cpp:82-96), except while labelling the scope of a file, which
is not a class (`turnWaitMessageIntoErrorMessage`, /repo/src/ulam/CompilerState.cpp:3008-3018,
/repo/src/ulam/UlamTypeInternalLocalsFileScope.cpp:11-14). -/
def round {O V : Type} (P : Prog O V) (last : Bool) (s : State O V) : Round O V :=
  let l := pass P P.locals s
  let c := pass P P.classes l.st
  ⟨c.st, l.errs + c.errs + (if last then c.waits else 0), l.again || c.again⟩

/-- The number of rounds: the loop breaks after round `MAX_ITERATIONS + 1`, the
one before it having changed the waits to errors (/repo/include/Constants.h:205-207,
/repo/src/ulam/Compiler.cpp:249-263). -/
def maxRounds : Nat := 100

/-- The loop of `Compiler::checkAndTypeLabelProgram` (/repo/src/ulam/Compiler.cpp:245-265) with
`k` rounds left: `none` when errors were counted.  What is still unresolved after
it is only counted and reported as information
(`countNavHzyNoutiNodesPass`, /repo/src/ulam/CompilerState.cpp:4365-4415, whose answer
/repo/src/ulam/Compiler.cpp:338-341 does not use). -/
def loop {O V : Type} (P : Prog O V) : Nat → State O V → Option (State O V)
  | 0, s => some s
  | k + 1, s =>
    let r := round P (k == 0) s
    if r.errs > 0 then none
    else if r.again then loop P k r.st
    else some r.st

/-- `Compiler::checkAndTypeLabelProgram` (/repo/src/ulam/Compiler.cpp:233-265): the constants with
their values, or `none` when the program is refused. -/
def compile {O V : Type} [Inhabited V] (P : Prog O V) : Option (State O V) :=
  let f := firstPass P (start P)
  if f.errs > 0 then none else loop P maxRounds f.st

end Ulam.Consts
