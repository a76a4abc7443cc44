/-
Resolution of names in the body of a function.

The parser gives every node it makes the next node number, enters each declared
name into the symbol table of the block it is reading, and refuses a name that is
already in that table.  The labelling passes run over the whole class after it is
parsed, when all tables are full: a use that finds a declaration further down the
text is moved out one block and looked up again in the next pass.

The types of the names are not modelled: a pass is taken to be held up by nothing
but the search for names.
-/
namespace Ulam.Scope

/-- What a name stands for: a variable, a named constant, or something that is
neither (a function or a type name). `NodeIdent.cpp:317`, `NodeIdent.cpp:511`. -/
inductive Kind
  | var | con | other
  deriving DecidableEq, Repr

/-- A declaration in the text; `loc` is the place of its token
(`Symbol::getLoc`, `Symbol.cpp`). -/
structure Decl where
  name : Nat
  kind : Kind
  loc : Nat
  deriving DecidableEq, Repr

/-- A symbol: its declaration, whether it was declared in a function
(`!isDataMember()` for variables, `NodeIdent.cpp:696`; `isALocalConstantDef()` for
constants, `SymbolConstantValue.cpp:170-173`), the number of the declaring node
(`SymbolWithValue::getDeclNodeNo`, `SymbolWithValue.cpp:916-925`), and the number of
the block whose table holds it (`Symbol::getBlockNoOfST`). -/
structure Sym where
  decl : Decl
  isLocal : Bool
  declNo : Nat
  blockNo : Nat
  deriving DecidableEq, Repr

/-- A block: its node number and its symbol table
(`NodeBlock.h`, `SymbolTable.h`). -/
structure Blk where
  no : Nat
  table : List Sym
  deriving DecidableEq, Repr

/-- What surrounds the function: the number of the class block, the members of the
class, those of its ancestors in the order in which `BaseclassWalker` visits them,
and the definitions at file scope. -/
structure Outer where
  classNo : Nat
  members : List Decl
  bases : List (List Decl)
  file : List Decl
  deriving Repr

/-- `SymbolTable::isInTable`, `SymbolTable.cpp`; `NodeBlock::isIdInScope`,
`NodeBlock.cpp:179-182`. -/
def inTable (t : List Sym) (x : Nat) : Option Sym :=
  t.find? fun s => s.decl.name == x

/-- A symbol that was not declared in a function. -/
def outerSym (blk : Nat) (d : Decl) : Sym :=
  { decl := d, isLocal := false, declNo := 0, blockNo := blk }

/-- The class block, with the table of the members of the class;
`NodeBlockClass::isIdInScope`, `NodeBlockClass.cpp:1939-1942`. -/
def classBlk (o : Outer) : Blk :=
  { no := o.classNo, table := o.members.map (outerSym o.classNo) }

/-- The search through the block and those around it, out to the class block:
`CompilerState::alreadyDefinedSymbolHere`, `CompilerState.cpp:4629-4663`. The flag
under which only constants are found is off, as it is in the statements of a
function (it is set while constants and array sizes are worked out). -/
def here : List Blk → Nat → Option Sym
  | [], _ => none
  | b :: bs, x =>
    match inTable b.table x with
    | some s => some s
    | none => here bs x

/-- The first ancestor that has the name:
`CompilerState::alreadyDefinedSymbolByAncestorOf`, `CompilerState.cpp:4475-4511`. -/
def byAncestor : List (List Decl) → Nat → Option Sym
  | [], _ => none
  | ds :: rest, x =>
    match ds.find? fun d => d.name == x with
    | some d => some (outerSym 0 d)
    | none => byAncestor rest x

/-- `CompilerState::isIdInLocalFileScope`, `CompilerState.cpp:4692-4710`. -/
def inFile (ds : List Decl) (x : Nat) : Option Sym :=
  (ds.find? fun d => d.name == x).map (outerSym 0)

/-- `CompilerState::alreadyDefinedSymbol`, `CompilerState.cpp:4435-4473`, outside a
member selection. -/
def lookup (o : Outer) (bs : List Blk) (x : Nat) : Option Sym :=
  match here bs x with
  | some s => some s
  | none =>
    match byAncestor o.bases x with
    | some s => some s
    | none => inFile o.file x

/-! ### The text -/

/-- An expression, as far as names go: something without names, a name, an operator
or list with two parts, the arguments of a function call. A name is `sel` when it is
followed by a dot (`Parser::parseIdentExpr`, `Parser.cpp:3777-3804`). -/
inductive Expr
  | lit
  | ident (sel : Bool) (x : Nat)
  | op (l r : Expr)
  | call (args : Expr)
  deriving Repr

/-- The statements of a block: a variable with its initial value (`lit` when it has
none), a named constant with a literal value, a statement that uses names, and an
inner block. The parameters of the function are the first variables of its block. -/
inductive Stmts
  | done
  | var (loc x : Nat) (init : Expr) (rest : Stmts)
  | con (loc x : Nat) (rest : Stmts)
  | use (e : Expr) (rest : Stmts)
  | block (body rest : Stmts)
  deriving Repr

/-! ### The tree -/

/-- A `NodeIdent`, or the `NodeConstant` that took its place (`isCon`): its name and
number, `m_currBlockNo` (`none` while zero), `m_currBlockPtr`, and the symbol it has
found (`m_varSymbol`, `m_constSymbol`). -/
structure Occ where
  name : Nat
  no : Nat
  isCon : Bool
  start : Option Nat
  ptr : Option Nat
  bound : Option Sym
  deriving DecidableEq, Repr

inductive PExpr
  | lit
  | ident (o : Occ)
  | op (l r : PExpr)
  | call (args : PExpr)
  deriving Repr

inductive PStmts
  | done
  | var (s : Sym) (init : PExpr) (rest : PStmts)
  | con (s : Sym) (rest : PStmts)
  | use (e : PExpr) (rest : PStmts)
  | block (b : Blk) (body rest : PStmts)
  deriving Repr

/-! ### The parser -/

/-- Nodes get consecutive numbers as they are made (`Node::Node`, `Node.cpp:19`;
`CompilerState::getNextNodeNo`, `CompilerState.cpp:7116`). A name already in the table
of the current block is bound at once (`Parser::parseLvalExpr`, `Parser.cpp:3729-3774`;
`NodeIdent::NodeIdent`, `NodeIdent.cpp:20-25`), except before a dot
(`Parser.cpp:3789-3795`). -/
def parseE (t : List Sym) : Expr → Nat → PExpr × Nat
  | .lit, n => (.lit, n + 1)
  | .ident sel x, n =>
    let b := if sel then none else inTable t x
    (.ident { name := x, no := n, isCon := false, start := b.map (·.blockNo),
              ptr := none, bound := b }, n + 1)
  | .op l r, n =>
    let a := parseE t l n
    let b := parseE t r a.2
    (.op a.1 b.1, b.2 + 1)
  | .call e, n =>
    let a := parseE t e n
    (.call a.1, a.2 + 1)

/-- The symbol of a declaration read in block `blk`. -/
def localSym (blk no : Nat) (k : Kind) (loc x : Nat) : Sym :=
  { decl := ⟨x, k, loc⟩, isLocal := true, declNo := no, blockNo := blk }

/-- `Parser::parseBlock` and `Parser::parseStatements`, `Parser.cpp:1216-1298`; a
declaration is entered in the table (`NodeIdent::installSymbolVariable`,
`NodeIdent.cpp:1613-1729`) and its node is made (`Parser::makeVariableSymbol`,
`Parser.cpp:6085-6172`; `NodeVarDecl.cpp:14-22`, `NodeConstantDef.cpp:20`) before its
initial value is read. `none`: the name is in the table of the block already, an
error (`NodeIdent.cpp:1619-1622`, `Parser.cpp:6097-6118`). -/
def parseS (blk : Nat) : Stmts → List Sym → Nat → Option (PStmts × List Sym × Nat)
  | .done, t, n => some (.done, t, n)
  | .var loc x e rest, t, n =>
    match inTable t x with
    | some _ => none
    | none =>
      let s := localSym blk (n + 1) .var loc x
      let e' := parseE (t ++ [s]) e (n + 2)
      match parseS blk rest (t ++ [s]) e'.2 with
      | none => none
      | some (r, t', n') => some (.var s e'.1 r, t', n')
  | .con loc x rest, t, n =>
    match inTable t x with
    | some _ => none
    | none =>
      let s := localSym blk (n + 1) .con loc x
      match parseS blk rest (t ++ [s]) (n + 3) with
      | none => none
      | some (r, t', n') => some (.con s r, t', n')
  | .use e rest, t, n =>
    let e' := parseE t e n
    match parseS blk rest t e'.2 with
    | none => none
    | some (r, t', n') => some (.use e'.1 r, t', n')
  | .block body rest, t, n =>
    match parseS n body [] (n + 1) with
    | none => none
    | some (b, tb, n1) =>
      match parseS blk rest t n1 with
      | none => none
      | some (r, t', n') => some (.block ⟨n, tb⟩ b r, t', n')

/-- The function block, read as the first node after the class block. -/
def parseFn (o : Outer) (f : Stmts) : Option PStmts :=
  match parseS (o.classNo + 1) f [] (o.classNo + 2) with
  | none => none
  | some (p, t, _) => some (.block ⟨o.classNo + 1, t⟩ p .done)

/-! ### A labelling pass -/

/-- What a pass makes of a node: its type is known, it has to be tried again
(`Hzy`), or an error was reported (`Nav`). -/
inductive St
  | ok | hazy | err
  deriving DecidableEq, Repr

def St.join : St → St → St
  | .err, _ => .err
  | _, .err => .err
  | .hazy, _ => .hazy
  | _, .hazy => .hazy
  | .ok, .ok => .ok

/-- The block with number `n` and the blocks around it. -/
def suffixAt : List Blk → Nat → List Blk
  | [], _ => []
  | b :: bs, n => if b.no = n then b :: bs else suffixAt bs n

/-- The number of the current block. -/
def headNo : List Blk → Nat
  | [] => 0
  | b :: _ => b.no

/-- `NodeIdent::getBlock`, `NodeIdent.cpp:244-258`, after `setupBlockNo`,
`NodeIdent.cpp:211-225`: the block held by pointer, otherwise the one whose number is
held, otherwise the current one. -/
def blockOf (chain : List Blk) (o : Occ) : List Blk :=
  match o.ptr with
  | some p => suffixAt chain p
  | none =>
    match o.start with
    | some p => suffixAt chain p
    | none => chain

/-- `NodeBlock::getPreviousBlockPointer`, `NodeBlock.cpp:208-211`. -/
def prevNo (bs : List Blk) : Option Nat :=
  match bs.tail with
  | [] => none
  | b :: _ => some b.no

/-- `NodeIdent::checkUsedBeforeDeclared`, `NodeIdent.cpp:686-717`, and
`NodeConstant::checkUsedBeforeDeclared`, `NodeConstant.cpp:454-482`. -/
def usedBefore (chain : List Blk) (o : Occ) (s : Sym) : Occ × St :=
  if s.isLocal && decide (o.no < s.declNo) then
    match prevNo (blockOf chain o) with
    | some p => ({ o with start := some p, ptr := none, bound := none }, .hazy)
    | none => (o, .err)
  else (o, .ok)

/-- `NodeIdent::replaceOurselves`, `NodeIdent.cpp:503-566`, for a symbol of a scalar
type: a `NodeConstant` with the same number takes the place of the name, and starts
from the block that holds the constant. Where that is not a block of the function,
the constant found there again is the same one, and is bound here already. -/
def become (o : Occ) (s : Sym) : Occ :=
  if s.isLocal then { o with isCon := true, start := some s.blockNo, ptr := none, bound := none }
  else { o with isCon := true, bound := some s }

/-- `NodeIdent::checkAndLabelType`, `NodeIdent.cpp:298-502`, and, once it is a
constant, `NodeConstant::checkAndLabelType` and `checkForSymbol`,
`NodeConstant.cpp:173-381`. -/
def labelOcc (out : Outer) (chain : List Blk) (o : Occ) : Occ × St :=
  let bs := blockOf chain o
  match o.isCon, o.bound with
  | true, none =>
    match lookup out bs o.name with
    | none => (o, .err)
    | some s =>
      if s.decl.kind = .con then
        usedBefore chain { o with ptr := some (headNo bs), bound := some s } s
      else (o, .err)
  | true, some s => usedBefore chain o s
  | false, none =>
    match lookup out bs o.name with
    | none => (o, .err)
    | some s =>
      match s.decl.kind with
      | .var =>
        usedBefore chain
          { o with start := some s.blockNo, ptr := some (headNo bs), bound := some s } s
      | .con => (become o s, .hazy)
      | .other => (o, .err)
  | false, some s =>
    if s.decl.kind = .con then (become o s, .hazy) else usedBefore chain o s

/-- The parts of an expression are labelled one after the other:
`NodeBinaryOp::checkAndLabelType`, `NodeFunctionCall::checkAndLabelType`. -/
def labelE (out : Outer) (chain : List Blk) : PExpr → PExpr × St
  | .lit => (.lit, .ok)
  | .ident o => (.ident (labelOcc out chain o).1, (labelOcc out chain o).2)
  | .op l r =>
    (.op (labelE out chain l).1 (labelE out chain r).1,
      St.join (labelE out chain l).2 (labelE out chain r).2)
  | .call e => (.call (labelE out chain e).1, (labelE out chain e).2)

/-- `NodeIdent::checkVarUsedBeforeDeclared`, `NodeIdent.cpp:719-769`, and
`NodeConstant::checkVarUsedBeforeDeclared`, `NodeConstant.cpp:484-525`: `ok` for
`TBOOL_FALSE`, `hazy` for `TBOOL_HAZY`, `err` for `TBOOL_TRUE`. -/
def checkOcc (chain : List Blk) (x declBlock : Nat) (o : Occ) : Occ × St :=
  if o.name ≠ x then (o, .ok)
  else
    match o.bound with
    | none => (o, .hazy)
    | some s =>
      if !s.isLocal then (o, .ok)
      else if o.start.getD (headNo chain) < declBlock then (o, .ok)
      else
        match prevNo (blockOf chain o) with
        | some p => ({ o with start := some p, ptr := none, bound := none }, .hazy)
        | none => (o, .err)

/-- `checkVarUsedBeforeDeclared` of operators and lists
(`NodeBinaryOp.cpp:69-78`, `NodeList.cpp:112-131`), of literals
(`NodeTerminal.cpp:589-592`) and of function calls, whose arguments are not looked at
(`NodeFunctionCall.cpp:651-654`). -/
def checkE (chain : List Blk) (x declBlock : Nat) : PExpr → PExpr × St
  | .lit => (.lit, .ok)
  | .ident o => (.ident (checkOcc chain x declBlock o).1, (checkOcc chain x declBlock o).2)
  | .op l r =>
    (.op (checkE chain x declBlock l).1 (checkE chain x declBlock r).1,
      St.join (checkE chain x declBlock l).2 (checkE chain x declBlock r).2)
  | .call e => (.call e, .ok)

/-- The initial value of a variable: labelled, and when that is done, searched for
the name of the variable itself. `NodeVarDecl::checkAndLabelType`,
`NodeVarDecl.cpp:592-618`, `NodeVarDecl.cpp:745-775`. -/
def labelInit (out : Outer) (chain : List Blk) (s : Sym) (e : PExpr) : PExpr × St :=
  let a := labelE out chain e
  if a.2 = .ok then checkE chain s.decl.name s.blockNo a.1 else a

/-- `NodeBlock::checkAndLabelType`, `NodeBlock.cpp:131-149`, and
`NodeStatements::checkAndLabelType`. -/
def labelS (out : Outer) (chain : List Blk) : PStmts → PStmts × St
  | .done => (.done, .ok)
  | .var s e rest =>
    (.var s (labelInit out chain s e).1 (labelS out chain rest).1,
      St.join (labelInit out chain s e).2 (labelS out chain rest).2)
  | .con s rest => (.con s (labelS out chain rest).1, (labelS out chain rest).2)
  | .use e rest =>
    (.use (labelE out chain e).1 (labelS out chain rest).1,
      St.join (labelE out chain e).2 (labelS out chain rest).2)
  | .block b body rest =>
    (.block b (labelS out (b :: chain) body).1 (labelS out chain rest).1,
      St.join (labelS out (b :: chain) body).2 (labelS out chain rest).2)

/-- What the compiler makes of the function. -/
inductive Verdict
  | accept (t : PStmts)
  | reject
  | unfinished
  deriving Repr

/-- Pass after pass, until nothing has to be tried again or an error is reported:
`Compiler::checkAndTypeLabelProgram`, `Compiler.cpp:233-266`. -/
def run (out : Outer) : Nat → PStmts → Verdict
  | 0, _ => .unfinished
  | k + 1, t =>
    match labelS out [classBlk out] t with
    | (t', .ok) => .accept t'
    | (t', .hazy) => run out k t'
    | (_, .err) => .reject

/-- One pass before the loop, ninety-nine in it, and one more in which everything
that is still waiting is an error (`Compiler.cpp:240-266`, `Constants.h:205-207`). -/
def compile (out : Outer) (t : PStmts) : Verdict :=
  match run out 101 t with
  | .unfinished => .reject
  | v => v

/-- A function read and labelled. -/
def translate (out : Outer) (f : Stmts) : Verdict :=
  match parseFn out f with
  | none => .reject
  | some t => compile out t

/-- The declarations the names have found, in the order of the text. -/
def boundE : PExpr → List (Option Decl)
  | .lit => []
  | .ident o => [o.bound.map (·.decl)]
  | .op l r => boundE l ++ boundE r
  | .call e => boundE e

def boundS : PStmts → List (Option Decl)
  | .done => []
  | .var _ e rest => boundE e ++ boundS rest
  | .con _ rest => boundS rest
  | .use e rest => boundE e ++ boundS rest
  | .block _ body rest => boundS body ++ boundS rest

end Ulam.Scope
