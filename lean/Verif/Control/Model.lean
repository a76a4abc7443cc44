/-
Model of loops, `which` statements, break and continue: how the parser turns
them into nodes, what C++ code the nodes become and how the evaluator runs
them.

/repo/src/ulam/ParsingLoopsSwitchStack.cpp (all of it);
/repo/src/ulam/Parser.cpp:1343-1400 (parseControlStatement), 1469-1736
(while, for), 1738-2080 (which), 2219-2248 (break, continue);
/repo/src/ulam/CompilerState.cpp:6729-6733 (numbers);
/repo/src/ulam/NodeControlWhile.cpp, NodeControlIf.cpp, NodeControl.cpp,
NodeBreakStatement.cpp, NodeContinueStatement.cpp, NodeLabel.cpp,
NodeStatements.cpp, NodeBlock.cpp, NodeBlockSwitch.cpp (eval and genCode).

Simplifications.  The parser is given the statement as a tree instead of as
tokens.  Expressions are opaque: an action changes the store, a condition or a
value may also change it.  Conditions with `as` are left out.  Counters (`u32`)
do not overflow, nor do the numbers handed out reach S32_MAX.  Declarations
are actions; the evaluator's stacks (property C32) are left out, and so is the
value of a return statement.
-/
namespace Ulam.Control

mutual
/-- Statements as written. -/
inductive Stmt where
  | act (a : Nat)
  | ret
  | brk
  | cont
  | block (ss : Stmts)
  | ite (c : Nat) (t : Stmt)
  | iteElse (c : Nat) (t e : Stmt)
  | whil (c : Nat) (b : Stmt)
  /-- `for(init; c; step) b`, each of the three may be missing -/
  | forr (init c step : Option Nat) (b : Stmt)
  /-- `which(e) { groups }`; no `e` means that the cases are conditions -/
  | which (e : Option Nat) (gs : Groups)
inductive Stmts where
  | nil
  | cons (s : Stmt) (ss : Stmts)
/-- Case groups: one or more labels (`none` is `otherwise`) and a body. -/
inductive Groups where
  | nil
  | cons (l : Option Nat) (ls : List (Option Nat)) (b : Stmt) (gs : Groups)
end

/-- Conditions of nodes. -/
inductive Cond where
  | prim (c : Nat)
  | tt
  /-- equality of the variable holding the value of a `which` with an expression -/
  | tmpEq (num e : Nat)
  | or (a b : Cond)

mutual
/-- Nodes of the parse tree. -/
inductive Node where
  | act (a : Nat)
  | ret
  | brk (lab : Nat)
  | cont (lab : Nat)
  | label (n : Nat)
  | block (ns : Nodes)
  | ite (c : Cond) (t : Node)
  | iteElse (c : Cond) (t e : Node)
  | whil (c : Cond) (b : Nodes)
  /-- NodeBlockSwitch: the value's variable is set first, when there is a value -/
  | sw (num : Nat) (e : Option Nat) (ns : Nodes)
inductive Nodes where
  | nil
  | cons (n : Node) (ns : Nodes)
end

/-- Which token an entry of the stack was pushed for. -/
inductive Kind where
  | whil | forr | which
deriving DecidableEq

/-- `LoopSwitchDesc`; include/ParsingLoopsSwitchStack.h. -/
structure Desc where
  kind : Kind
  num : Nat
  uses : Nat

/-- The token is TOK_KW_WHILE or TOK_KW_FOR. -/
def Desc.isLoop (d : Desc) : Bool := d.kind == .whil || d.kind == .forr

/-- `getNearestBreakExitNumber`; ParsingLoopsSwitchStack.cpp:33-45, the nearest first.  Zero for the
C++ `break`.  (The assertion that the stack is not empty is checked by the caller.) -/
def nearestBreak : List Desc → Nat × List Desc
  | [] => (0, [])
  | d :: ds => if d.kind = .which then (d.num, { d with uses := d.uses + 1 } :: ds) else (0, d :: ds)

/-- `getNearestBreakExitNumberIfUsed`; ParsingLoopsSwitchStack.cpp:47-59. -/
def nearestBreakIfUsed : List Desc → Nat
  | [] => 0
  | d :: _ => if d.kind = .which then (if d.uses > 0 then d.num else 0) else 0

/-- `getNearestContinueExitNumber`; ParsingLoopsSwitchStack.cpp:61-80. -/
def nearestContinue : List Desc → Nat × List Desc
  | [] => (0, [])
  | d :: ds =>
    if d.isLoop then (d.num, { d with uses := d.uses + 1 } :: ds)
    else
      let r := nearestContinue ds
      (r.1, d :: r.2)

/-- `getNearestContinueExitNumberIfUsed`; ParsingLoopsSwitchStack.cpp:82-101. -/
def nearestContinueIfUsed : List Desc → Nat
  | [] => 0
  | d :: ds => if d.isLoop then (if d.uses > 0 then d.num else 0) else nearestContinueIfUsed ds

/-- `okToParseABreak`; ParsingLoopsSwitchStack.cpp:108-113. -/
def okBreak (st : List Desc) : Bool := !st.isEmpty

/-- The parser's state: `m_nextTmpVarNumber`, the stack of loops and switches, the number of errors
reported, and whether the parser has aborted (`abortNeedsATest`). -/
structure PS where
  next : Nat
  stack : List Desc
  errs : Nat
  aborted : Bool

/-- An error message. -/
def PS.err (p : PS) : PS := { p with errs := p.errs + 1 }

/-- `push(pTok, getNextTmpVarNumber())`; Parser.cpp:1370, CompilerState.cpp:6729. -/
def PS.push (p : PS) (k : Kind) : PS := { p with next := p.next + 1, stack := ⟨k, p.next + 1, 0⟩ :: p.stack }

/-- `pop()`; ParsingLoopsSwitchStack.cpp:115-119. -/
def PS.pop (p : PS) : PS := { p with stack := p.stack.tail }

/-- Parser.cpp:1510 and 1654: `assert(loopnum == getNearestContinueExitNumber())`, which counts a use
of the loop's label, but only when assertions are compiled in.  (`getLastExitNumber`, 25-31, is the
number just pushed, so the assertion holds.) -/
def PS.sanity (ndebug : Bool) (p : PS) : PS :=
  if ndebug then p else { p with stack := (nearestContinue p.stack).2 }

/-- `setNextNode` chains: a list of nodes. -/
def Nodes.ofList : List Node → Nodes
  | [] => .nil
  | n :: ns => .cons n (.ofList ns)

/-- The step of a for loop, Parser.cpp:1718-1727. -/
def stepNodes : Option Nat → List Node
  | some a => [.act a]
  | none => []

/-- The end of `makeControlWhileNode`, Parser.cpp:1700-1735: the body, the label if used, the step of
a for loop.  When the label is not used the code calls `abortNeedsATest`, an assertion that fails. -/
def loopBody (ndebug : Bool) (p : PS) (b : Node) (step : Option Nat) : Nodes × PS :=
  let contloopnum := nearestContinueIfUsed p.stack
  if contloopnum > 0 then (.ofList (b :: .label contloopnum :: stepNodes step), p)
  else (.ofList (b :: stepNodes step), if ndebug then p else { p with aborted := true })

/-- The statements of a `which`: the ifs, if there are any cases, and the label; Parser.cpp:1838-1872. -/
def chainThen : Option Node → List Node → List Node
  | some n, l => n :: l
  | none, l => l

/-- A condition of a `for`; a missing one is `true`: Parser.cpp:1613-1620. -/
def forCond : Option Nat → Cond
  | some c => .prim c
  | none => .tt

/-- The condition of one case label, Parser.cpp:1996-2013. -/
def caseCond (num : Nat) (valued : Bool) (e : Nat) : Cond := if valued then .tmpEq num e else .prim e

/-- `parseRestOfCase`; Parser.cpp:1953-2079: the labels of one group.  `seen`: there is a default case
already; `cur`: the condition so far.  The result is the condition, whether it is the default, and
whether a default has now been seen; `none` after an error message. -/
def restOfCase (num : Nat) (valued : Bool) : List (Option Nat) → Option Cond → Bool → Bool →
    Option (Option Cond × Bool × Bool)
  | [], cur, isDef, seen => some (cur, isDef, seen)
  | some e :: ls, cur, _, seen =>
    if seen then none
    else
      let c := caseCond num valued e
      let c := match cur with | some a => .or a c | none => c
      restOfCase num valued ls (some c) false seen
  | none :: ls, _, _, seen =>
    if seen then none
    else restOfCase num valued ls (some .tt) true true

mutual
/-- `parseStatement` and the functions it calls; see the head of this file. -/
def parse (ndebug : Bool) : Stmt → PS → Node × PS
  | .act a, p => (.act a, p)
  | .ret, p => (.ret, p)
  | .brk, p =>
    if okBreak p.stack then
      let r := nearestBreak p.stack
      (.brk r.1, { p with stack := r.2 })
    else (.block .nil, p.err)
  | .cont, p =>
    let r := nearestContinue p.stack
    if r.1 ≠ 0 then (.cont r.1, { p with stack := r.2 }) else (.block .nil, { p with stack := r.2 }.err)
  | .block ss, p =>
    let r := parses ndebug ss p
    (.block r.1, r.2)
  | .ite c t, p =>
    let r := parse ndebug t p
    (.ite (.prim c) r.1, r.2)
  | .iteElse c t e, p =>
    let r := parse ndebug t p
    let q := parse ndebug e r.2
    (.iteElse (.prim c) r.1 q.1, q.2)
  | .whil c b, p =>
    let r := parse ndebug b ((p.push .whil).sanity ndebug)
    let q := loopBody ndebug r.2 r.1 none
    (.block (.cons (.whil (.prim c) q.1) .nil), q.2.pop)
  | .forr init c step b, p =>
    let r := parse ndebug b ((p.push .forr).sanity ndebug)
    let q := loopBody ndebug r.2 r.1 step
    let loop := Node.whil (forCond c) q.1
    (.block (match init with | some a => .cons (.act a) (.cons loop .nil) | none => .cons loop .nil), q.2.pop)
  | .which e gs, p =>
    let p1 := p.push .which
    let num := p1.next + 1
    let r := parseGroups ndebug num e.isSome gs true false { p1 with next := num }
    let swexitnum := nearestBreakIfUsed r.2.stack
    let lab := if swexitnum > 0 then [Node.label swexitnum] else []
    (.sw num e (.ofList (chainThen r.1 lab)), r.2.pop)
/-- `parseStatements`; Parser.cpp:1269-1298. -/
def parses (ndebug : Bool) : Stmts → PS → Nodes × PS
  | .nil, p => (.nil, p)
  | .cons s ss, p =>
    let r := parse ndebug s p
    let q := parses ndebug ss r.2
    (.cons r.1 q.1, q.2)
/-- `parseNextCase`; Parser.cpp:1880-1951: the chain of ifs for the groups.  `first`: no group before
(`switchNode == NULL`); `seen`: there is a default case.  After an error the rest is given up. -/
def parseGroups (ndebug : Bool) (num : Nat) (valued : Bool) : Groups → Bool → Bool → PS → Option Node × PS
  | .nil, _, _, p => (none, p)
  | .cons l ls b gs, first, seen, p =>
    match restOfCase num valued (l :: ls) none false seen with
    | none => (none, p.err)
    | some (none, _, _) => (none, p.err)
    | some (some c, isDef, seen') =>
      let r := parse ndebug b p
      if isDef = false ∨ first = true then
        let q := parseGroups ndebug num valued gs false seen' r.2
        (some (match q.1 with | some e => .iteElse c r.1 e | none => .ite c r.1), q.2)
      else
        let q := parseGroups ndebug num valued gs true seen' r.2
        (some r.1, q.2)
end

/-- What the opaque actions, conditions and values do to a store. -/
structure Sem (σ : Type) where
  act : Nat → σ → σ
  cond : Nat → σ → Bool × σ
  val : Nat → σ → Int × σ

/-- A condition of a node: `||` short-circuits (property C38). -/
def evalCond {σ} (S : Sem σ) (ρ : Nat → Int) : Cond → σ → Bool × σ
  | .prim c, s => S.cond c s
  | .tt, s => (true, s)
  | .tmpEq num e, s => let r := S.val e s; (decide (ρ num = r.1), r.2)
  | .or a b, s =>
    let r := evalCond S ρ a s
    if r.1 then (true, r.2) else evalCond S ρ b r.2

/-- How a C++ statement ends. -/
inductive COut where
  | normal | ret | brk | goto (n : Nat)
deriving DecidableEq

/-- A loop, for at most `fuel` turns: `body` tells how one turn ends. -/
def cloop {σ} (cond : σ → Bool × σ) (body : σ → Option (COut × σ)) : Nat → σ → Option (COut × σ)
  | 0, _ => none
  | fuel + 1, s =>
    match cond s with
    | (false, s) => some (.normal, s)
    | (true, s) =>
      match body s with
      | none => none
      | some (.normal, s) => cloop cond body fuel s
      | some (.brk, s) => some (.normal, s)
      | some (o, s) => some (o, s)

/-- Set a variable. -/
def upd (ρ : Nat → Int) (n : Nat) (v : Int) : Nat → Int := fun m => if m = n then v else ρ m

/-- The statements after a label, in the rest of a list. -/
def Nodes.after (n : Nat) : Nodes → Option Nodes
  | .nil => none
  | .cons (.label m) ns => if m = n then some ns else ns.after n
  | .cons _ ns => ns.after n

mutual
/-- Meaning of the C++ code generated for a node (genCode of the node classes): `goto` is carried
out by the innermost list of statements that has the label further on.  No loop runs for more than
`fuel` turns each time it is entered. -/
def cexec {σ} (S : Sem σ) (fuel : Nat) : Node → (Nat → Int) → σ → Option (COut × σ)
  | .act a, _, s => some (.normal, S.act a s)
  | .ret, _, s => some (.ret, s)
  | .brk lab, _, s => if lab = 0 then some (.brk, s) else some (.goto lab, s)
  | .cont lab, _, s => some (.goto lab, s)
  | .label _, _, s => some (.normal, s)
  | .block ns, ρ, s => cexecs S fuel ns none ρ s
  | .ite c t, ρ, s =>
    match evalCond S ρ c s with
    | (true, s) => cexec S fuel t ρ s
    | (false, s) => some (.normal, s)
  | .iteElse c t e, ρ, s =>
    match evalCond S ρ c s with
    | (true, s) => cexec S fuel t ρ s
    | (false, s) => cexec S fuel e ρ s
  | .whil c b, ρ, s => cloop (evalCond S ρ c) (cexecs S fuel b none ρ) fuel s
  | .sw num e ns, ρ, s =>
    match e with
    | none => cexecs S fuel ns none ρ s
    | some e =>
      let r := S.val e s
      cexecs S fuel ns none (upd ρ num r.1) r.2
/-- A list of statements; `skip` is the label being looked for after a `goto`. -/
def cexecs {σ} (S : Sem σ) (fuel : Nat) : Nodes → Option Nat → (Nat → Int) → σ → Option (COut × σ)
  | .nil, none, _, s => some (.normal, s)
  | .nil, some n, _, s => some (.goto n, s)
  | .cons nd ns, some n, ρ, s =>
    match nd with
    | .label m => if m = n then cexecs S fuel ns none ρ s else cexecs S fuel ns (some n) ρ s
    | _ => cexecs S fuel ns (some n) ρ s
  | .cons nd ns, none, ρ, s =>
    match cexec S fuel nd ρ s with
    | none => none
    | some (.normal, s) => cexecs S fuel ns none ρ s
    | some (.goto n, s) => cexecs S fuel ns (some n) ρ s
    | some (o, s) => some (o, s)
end

/-- `EvalStatus`, the part used here. -/
inductive Status where
  | normal | ret | brk | cont
deriving DecidableEq

/-- The loop of `NodeControlWhile::eval`; NodeControlWhile.cpp:44-79. -/
def eloop {σ} (cond : σ → Bool × σ) (body : σ → Option (Status × σ)) : Nat → σ → Option (Status × σ)
  | 0, _ => none
  | fuel + 1, s =>
    match cond s with
    | (false, s) => some (.normal, s)
    | (true, s) =>
      match body s with
      | none => none
      | some (.brk, s) => some (.normal, s)
      | some (.ret, s) => some (.ret, s)
      | some (_, s) => eloop cond body fuel s

mutual
/-- The evaluator: NodeControlWhile.cpp:36-79, NodeControlIf.cpp:138-179, NodeBreakStatement.cpp:57-62,
NodeContinueStatement.cpp:53-56, NodeLabel.cpp:56-59, NodeBlock.cpp:158-167. -/
def eval {σ} (S : Sem σ) (fuel : Nat) : Node → (Nat → Int) → σ → Option (Status × σ)
  | .act a, _, s => some (.normal, S.act a s)
  | .ret, _, s => some (.ret, s)
  | .brk lab, _, s => if lab = 0 then some (.brk, s) else some (.normal, s)
  | .cont _, _, s => some (.cont, s)
  | .label _, _, s => some (.normal, s)
  | .block ns, ρ, s => evals S fuel ns ρ s
  | .ite c t, ρ, s =>
    match evalCond S ρ c s with
    | (true, s) => eval S fuel t ρ s
    | (false, s) => some (.normal, s)
  | .iteElse c t e, ρ, s =>
    match evalCond S ρ c s with
    | (true, s) => eval S fuel t ρ s
    | (false, s) => eval S fuel e ρ s
  | .whil c b, ρ, s => eloop (evalCond S ρ c) (evals S fuel b ρ) fuel s
  | .sw num e ns, ρ, s =>
    match e with
    | none => evals S fuel ns ρ s
    | some e =>
      let r := S.val e s
      evals S fuel ns (upd ρ num r.1) r.2
/-- `NodeStatements::eval`; NodeStatements.cpp:226-247: anything but NORMAL ends the list. -/
def evals {σ} (S : Sem σ) (fuel : Nat) : Nodes → (Nat → Int) → σ → Option (Status × σ)
  | .nil, _, s => some (.normal, s)
  | .cons nd ns, ρ, s =>
    match eval S fuel nd ρ s with
    | some (.normal, s) => evals S fuel ns ρ s
    | r => r
end

end Ulam.Control
