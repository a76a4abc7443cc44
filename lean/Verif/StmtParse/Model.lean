/-
Model of how the parser reads statements from tokens: blocks, single
statements, if/else, while, for, which, and the flag for conditions with `as`.

/repo/src/ulam/Parser.cpp:1216-1352 (blocks and statements), 1354-1667
(control statements), 1669-1693 (the body of a loop), 1739-1871 (which),
1880-2079 (cases), 2081-2179 (conditions with `as`), 2181-2281 (simple
statements), 3691-3716 (return), 5924-5953 (the body of a function),
7075-7145 (expected tokens, skipping tokens).

Simplifications.  An expression and a declaration are each one token (how an
expression is read from its tokens: property C28); where an expression is
wanted and the next token is none, nothing is consumed and nothing reported.
A token that stands for an expression tells whether it begins with an
identifier and whether it has an `as` in it; a statement that begins with a
type is a declaration.  Structured comments and low-level errors of the
tokenizer are left out.  The invisible block around a single statement is the
statement.  The numbers and labels of loops and the placement of break and
continue are in `Verif/Control` (property C27), which has its own model of
these functions from trees to nodes.
-/
namespace Ulam.StmtParse

/-- Has an expression an `as` in it?  `top`: the expression as a whole is `ident as Type`. -/
inductive AsKind where
  | no | inside | top
deriving DecidableEq, Repr

/-- An expression. -/
structure Ex where
  n : Nat
  /-- the first token is TOK_IDENTIFIER -/
  ident : Bool
  as : AsKind
deriving DecidableEq, Repr

/-- The simple statements that are kept whole. -/
inductive Simp where
  | ex (e : Ex)
  /-- a declaration that begins with a type (`isTokenAType`) -/
  | decl (n : Nat) (hasAs : Bool)
  /-- `local`, `typedef` or `constant` -/
  | ldef (n : Nat) (hasAs : Bool)
deriving DecidableEq, Repr

/-- Is there an `as` in it? -/
def Simp.hasAs : Simp → Bool
  | .ex e => e.as != .no
  | .decl _ a => a
  | .ldef _ a => a

/-- Tokens; the end of the list is TOK_EOF. -/
inductive Tok where
  | oc | cc | op | cp | semi | colon
  | kIf | kElse | kWhile | kFor | kWhich | kCase | kOther
  | kBrk | kCont | kRet
  | simp (x : Simp)
deriving DecidableEq, Repr

mutual
/-- The statements found. -/
inductive Tree where
  | simp (x : Simp)
  | empty
  | brk
  | cont
  | ret (e : Option Ex)
  | block (ts : Trees)
  | ite (c : Ex) (t : Tree)
  | iteElse (c : Ex) (t e : Tree)
  | whil (c : Ex) (b : Tree)
  | forr (init : Option Simp) (c step : Option Ex) (b : Tree)
  | which (e : Option Ex) (gs : Groups)
inductive Trees where
  | nil
  | cons (t : Tree) (ts : Trees)
/-- Labels (`none` is `otherwise`) and the block they share. -/
inductive Groups where
  | nil
  | cons (ls : List (Option Ex)) (b : Tree) (gs : Groups)
end

/-- Statements one after the other. -/
def Trees.append : Trees → Trees → Trees
  | .nil, us => us
  | .cons t ts, us => .cons t (ts.append us)

/-- What the parser reads and writes: the tokens left, `m_parsingConditionalAs`, the errors reported. -/
structure St where
  toks : List Tok
  asF : Bool
  errs : Nat
deriving DecidableEq, Repr

/-- A message of severity ERR. -/
def St.err (s : St) : St := { s with errs := s.errs + 1 }

/-- The token just looked at is taken. -/
def St.drop (s : St) : St := { s with toks := s.toks.tail }

/-- `m_parsingConditionalAs` set or cleared. -/
def St.setAs (s : St) (b : Bool) : St := { s with asF := b }

/-- `getNextToken` and `unreadToken`: what comes next. -/
def St.next (s : St) : Option Tok := s.toks.head?

/-- `getTokensUntil`; Parser.cpp:7131-7145. -/
def skipTo (t : Tok) : List Tok → List Tok
  | [] => []
  | u :: us => if u = t then us else skipTo t us

/-- `parseAssignExpr` for one token; Parser.cpp:3718-3727.  An `as` sets the flag
(Parser.cpp:4449-4450, CompilerState.cpp:6934-6938). -/
def pExpr (s : St) : Option Ex × St :=
  match s.toks with
  | .simp (.ex e) :: r => (some e, { s with toks := r, asF := s.asF || e.as != .no })
  | _ => (none, s)

/-- The end of a simple statement; Parser.cpp:2275-2279. -/
def finish (s : St) : St :=
  if s.next = some .semi then s.drop else { s with toks := skipTo .semi s.toks }.err

/-- A statement as a list of none or one. -/
def Trees.one (t : Tree) : Trees := .cons t .nil

/-- `parseSimpleStatement`; Parser.cpp:2181-2281: what is appended to the current block.  (A break or
continue in a wrong place: `Verif/Control`.) -/
def pSimple (s : St) : Trees × St :=
  match s.toks with
  | .semi :: _ => (.one .empty, finish s)
  | .simp (.decl n a) :: _ => (.one (.simp (.decl n a)), finish (s.drop.setAs (s.asF || a)))
  | .simp (.ldef n a) :: _ => (.one (.simp (.ldef n a)), finish (s.drop.setAs (s.asF || a)))
  | .kRet :: _ =>
    -- Parser.cpp:3691-3716
    let r := pExpr s.drop
    (.one (.ret r.1), finish r.2)
  | .kBrk :: _ => (.one .brk, finish s.drop)
  | .kCont :: _ => (.one .cont, finish s.drop)
  | _ =>
    let r := pExpr s
    (match r.1 with | some e => .one (.simp (.ex e)) | none => .nil, finish r.2)

/-- The statement of an invisible block, or of a block with a variable for `as`: the node
returned, or what has been appended already.  (Nothing, only after an error.) -/
def single (node : Option Tree) (app : Trees) : Tree :=
  match node, app with
  | some t, _ => t
  | none, .cons t .nil => t
  | none, ts => .block ts

/-- `parseRestOfCase`; Parser.cpp:1953-2079: the labels before a block.  `valued`: the which has a
value (`swvalueIdent`); `seen`: there is an `otherwise` already (`defaultcase`); `acc`: the labels so
far (`caseCond`).  The result has the labels, `[]` for NULL, and the new `seen`.  Which condition the
labels make is in `Verif/Control`. -/
def pLabels : Nat → Bool → Bool → List (Option Ex) → St → Option (List (Option Ex) × Bool × St)
  | 0, _, _, _, _ => none
  | f + 1, valued, seen, acc, s =>
    if s.next = some .kCase then
      if seen then some ([], seen, s.drop.err)
      else
        match pExpr s.drop with
        | (none, s) => some ([], seen, s.err)
        | (some e, s) =>
          if s.next ≠ some .colon then some ([], seen, s.err)
          else if s.asF then
            if acc ≠ [] then some ([], seen, s.drop.err)
            else if valued then some ([], seen, s.drop.err)
            else some ([some e], seen, s.drop)
          else pLabels f valued seen (acc ++ [some e]) s.drop
    else if s.next = some .kOther then
      if seen then some ([], seen, s.drop.err)
      else if s.drop.next ≠ some .colon then some ([], true, s.drop.err)
      else pLabels f valued true (acc ++ [none]) s.drop.drop
    else some (acc, seen, s)

/-- The `as` condition of a case, when it is one: `parseRestOfCase` returns that node as it is. -/
def labelCond : List (Option Ex) → Option Ex
  | [some e] => some e
  | _ => none

/-- Is the condition `ident as Type` as a whole (`asConditionalNode`)? -/
def isAs : Option Ex → Bool
  | some e => e.as == .top
  | none => false

/-- The first part of a for; Parser.cpp:1547-1574. -/
def pInit (s : St) : Option Simp × St :=
  match s.toks with
  | .simp (.decl n a) :: _ => (some (.decl n a), (s.drop.setAs (s.asF || a)))
  | .simp (.ex e) :: _ =>
    if e.ident then (some (.ex e), (s.drop.setAs (s.asF || e.as != .no))) else (none, s)
  | _ => (none, s)

/-- An expression and the token after it, or that token alone: the second and third part of a for;
Parser.cpp:1584-1619 and 1621-1651.  `none` after an error. -/
def pOptTo (t : Tok) (s : St) : Option (Option Ex) × St :=
  if s.next = some t then (some none, s.drop)
  else
    match pExpr s with
    | (none, s) => (none, s.err)
    | (some e, s) => if s.next = some t then (some (some e), s.drop) else (none, s.err)

/-- `( expression )`; Parser.cpp:1408-1439 and 1474-1508, for which 1741-1780 (where the expression may
be missing).  `none` after an error. -/
def pParen (optional : Bool) (s : St) : Option (Option Ex) × St :=
  if s.next ≠ some .op then (none, s.err)
  else
    match pExpr s.drop with
    | (none, s) => if optional && s.next = some .cp then (some none, s.drop) else (none, s.err)
    | (some e, s) => if s.next = some .cp then (some (some e), s.drop) else (none, s.err)

/-- All that is between `for` and the body; Parser.cpp:1526-1651. -/
def pForHead (s : St) : Option (Option Simp × Option Ex × Option Ex) × St :=
  if s.next ≠ some .op then (none, s.err)
  else
    let i := pInit s.drop
    if i.2.next ≠ some .semi then (none, i.2.err)
    else
      match pOptTo .semi i.2.drop with
      | (none, s) => (none, s)
      | (some c, s) =>
        match pOptTo .cp s with
        | (none, s) => (none, s)
        | (some st, s) => (some (i.1, c, st), s)

mutual
/-- `parseStatement`; Parser.cpp:1300-1321: the node returned, and what has been appended to the
current block. -/
def pStatement : Nat → St → Option (Option Tree × Trees × St)
  | 0, _ => none
  | f + 1, s =>
    match s.next with
    | some .oc => (pBlock f s).map fun r => (r.1, .nil, r.2)
    | some .kIf => (pIf f s.drop).map fun r => (r.1, .nil, r.2)
    | some .kWhile => (pWhile f s.drop).map fun r => (r.1, .nil, r.2)
    | some .kFor => (pFor f s.drop).map fun r => (r.1, .nil, r.2)
    | some .kWhich => (pWhich f s.drop).map fun r => (r.1, .nil, r.2)
    -- Parser.cpp:1392-1400, the other control keyword
    | some .kElse => some (none, .nil, s.drop.err)
    | _ => let r := pSimple s; some (none, r.1, r.2)
/-- `parseBlock`; Parser.cpp:1216-1267.  A missing `}` is not reported here. -/
def pBlock : Nat → St → Option (Option Tree × St)
  | 0, _ => none
  | f + 1, s =>
    if s.next ≠ some .oc then some (none, s.err)
    else if s.drop.next = some .cc then some (some (.block .nil), s.drop.drop)
    else
      match pStatements f s.drop with
      | none => none
      | some (ts, s) =>
        if s.next = some .cc then some (some (.block ts), s.drop)
        else some (none, { s with toks := skipTo .cc s.toks })
/-- `parseStatements`; Parser.cpp:1269-1298: what is appended to the current block. -/
def pStatements : Nat → St → Option (Trees × St)
  | 0, _ => none
  | f + 1, s =>
    match pStatement f s with
    | none => none
    | some (none, app, s) =>
      if s.next ≠ some .cc ∧ s.next ≠ none then (pStatements f s).map fun r => (app.append r.1, r.2)
      else some (app, s)
    | some (some t, app, s) =>
      if s.next ≠ some .cc then (pStatements f s).map fun r => (app.append (.cons t r.1), r.2)
      else some (app.append (.one t), s)
/-- `parseStatementAsBlock`; Parser.cpp:1323-1352. -/
def pAsBlock : Nat → St → Option (Option Tree × St)
  | 0, _ => none
  | f + 1, s =>
    if s.next = some .oc then pBlock f s
    else (pStatement f s).map fun r => (some (single r.1 r.2.1), r.2.2)
/-- The body after a condition: `setupAsConditionalBlockAndParseStatements`, Parser.cpp:2086-2179,
when the flag is set; `parseStatementAsBlock` otherwise (Parser.cpp:1441-1445, 1679-1683, 1914-1917). -/
def pBody : Nat → Option Ex → St → Option (Option Tree × St)
  | 0, _, _ => none
  | f + 1, cond, s =>
    if s.asF then
      if isAs cond = false then some (none, (s.setAs false).err)
      else if s.next = some .oc then
        if s.drop.next = some .cc then some (some (.block .nil), (s.drop.drop.setAs false))
        else
          match pStatements f (s.drop.setAs false) with
          | none => none
          | some (ts, s) => some (some (.block ts), if s.next = some .cc then s.drop else s.err)
      else (pStatement f (s.setAs false)).map fun r => (some (single r.1 r.2.1), r.2.2)
    else pAsBlock f s
/-- `parseControlIf`; Parser.cpp:1405-1470. -/
def pIf : Nat → St → Option (Option Tree × St)
  | 0, _ => none
  | f + 1, s =>
    match pParen false s with
    | (some (some c), s) =>
      match pBody f (some c) s with
      | none => none
      | some (none, s) => some (none, s.err)
      | some (some t, s) =>
        if s.next = some .kElse then
          match pAsBlock f s.drop with
          | none => none
          | some (none, s) => some (some (.ite c t), s)
          | some (some e, s) => some (some (.iteElse c t e), s)
        else some (some (.ite c t), s)
    | (_, s) => some (none, s)
/-- `parseControlWhile` and `makeControlWhileNode`; Parser.cpp:1472-1524, 1669-1693. -/
def pWhile : Nat → St → Option (Option Tree × St)
  | 0, _ => none
  | f + 1, s =>
    match pParen false s with
    | (some (some c), s) =>
      match pBody f (some c) s with
      | none => none
      | some (none, s) => some (none, s.err)
      | some (some t, s) => some (some (.whil c t), s)
    | (_, s) => some (none, s)
/-- `parseControlFor`; Parser.cpp:1526-1673. -/
def pFor : Nat → St → Option (Option Tree × St)
  | 0, _ => none
  | f + 1, s =>
    match pForHead s with
    | (some (i, c, st), s) =>
      match pBody f c s with
      | none => none
      | some (none, s) => some (none, s.err)
      | some (some t, s) => some (some (.forr i c st t), s)
    | (none, s) => some (none, s)
/-- `parseControlSwitch`; Parser.cpp:1739-1878. -/
def pWhich : Nat → St → Option (Option Tree × St)
  | 0, _ => none
  | f + 1, s =>
    match pParen true s with
    | (some e, s) =>
      if s.next ≠ some .oc then some (none, s.err)
      else
        match pGroups f e.isSome false s.drop with
        | none => none
        | some (gs, s) => if s.next = some .cc then some (some (.which e gs), s.drop) else some (none, s.err)
    | (none, s) => some (none, s)
/-- `parseNextCase`; Parser.cpp:1880-1951. -/
def pGroups : Nat → Bool → Bool → St → Option (Groups × St)
  | 0, _, _, _ => none
  | f + 1, valued, seen, s =>
    match pLabels f valued seen [] s with
    | none => none
    | some ([], _, s) => some (.nil, if s.next = some .cc then s else s.err)
    | some (l :: ls, seen, s) =>
      if s.next ≠ some .oc then some (.nil, s.err)
      else
        match pBody f (labelCond (l :: ls)) s with
        | none => none
        | some (none, s) => some (.nil, s.err)
        | some (some b, s) => (pGroups f valued seen s).map fun r => (.cons (l :: ls) b r.1, r.2)
end

/-- The body of a function; Parser.cpp:5924-5953 (the last `}` is left for the caller, 5951-5952). -/
def pFunc (f : Nat) (s : St) : Option (Option Trees × St) :=
  if s.next ≠ some .oc then some (none, s.err)
  else if s.drop.next = some .cc then some (some .nil, s.drop)
  else
    match pStatements f s.drop with
    | none => none
    | some (ts, s) => if s.next = some .cc then some (some ts, s) else some (none, s.err)

end Ulam.StmtParse
