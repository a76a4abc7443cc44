/-
The constness of expressions: what the compiler lets a program store into, bind a reference to, pass
by reference and call functions on, and what such a program does to memory when it runs.

Simplifications. Types are reduced to how they refer (`Alt`) and, for what a function returns,
whether it is a class; that the types otherwise fit is taken for granted. All symbols and types are
known (the last round of labelling). Custom arrays, `self` in `as`, constructors, variable arguments
and overriding are left out. A value that has no place of its own gets a new one.
-/
import Mathlib.Logic.Function.Basic
import Mathlib.Data.List.Infix

namespace Ulam.Constness

/-- include/Constants.h (`TBOOL`). -/
inductive TB
  | no
  | hazy
  | yes
  deriving DecidableEq, Repr

/-- src/ulam/Node.cpp:200-208 `minTBOOL`. -/
def minTB (a b : TB) : TB :=
  if a = .no ∨ b = .no then .no
  else if a = .hazy ∨ b = .hazy then .hazy
  else .yes

/-- include/UlamKeyTypeSignature.h (`ALT`): not a reference, a reference, a constant reference, or
the name of an as-conditional. -/
inductive Alt
  | no
  | ref
  | cref
  | as
  deriving DecidableEq, Repr

/-- src/ulam/UlamType.cpp:503-507 `isAltRefType`. -/
def isAltRef : Alt → Bool
  | .ref => true
  | .cref => true
  | _ => false

/-- src/ulam/UlamType.cpp:495-501 `isReference`. -/
def isReference : Alt → Bool
  | .no => false
  | _ => true

/-- A variable or a parameter: how its type refers, and whether it is a parameter declared
`constant` (src/ulam/NodeIdent.cpp:1743-1752 `makeSymbol`). -/
structure Sym where
  alt : Alt
  cparam : Bool
  deriving DecidableEq, Repr

/-- A step from an object to one of its parts. -/
inductive Sel
  | mem (m : Nat)
  | base (b : Nat)
  | item (i : Int)
  deriving DecidableEq, Repr

mutual
/-- Expressions. Name 0 is `self`; a function called without an object is called on it
(NodeFunctionCall.cpp:341-342). -/
inductive Expr
  /-- A literal. -/
  | lit (n : Int)
  /-- A variable or parameter. -/
  | var (x : Nat)
  /-- A named constant. -/
  | con (k : Nat)
  /-- A data member. -/
  | field (e : Expr) (m : Nat)
  /-- A named constant of the class of an object. -/
  | fieldCon (e : Expr) (k : Nat)
  /-- A base class part. -/
  | base (e : Expr) (b : Nat)
  /-- An array item, or a character of a string (`str`). -/
  | item (str : Bool) (e i : Expr)
  /-- An explicit cast to a reference. -/
  | castRef (e : Expr)
  /-- An explicit cast to a type that is no reference. -/
  | castVal (f : Int → Int) (e : Expr)
  /-- `c ? a : b`. -/
  | tern (c a b : Expr)
  /-- `e.storageof` and `e.atomof`. -/
  | storageof (e : Expr)
  /-- `T.instanceof`. -/
  | inst
  /-- An operator that stores nothing. -/
  | bin (f : Int → Int → Int) (a b : Expr)
  /-- `a = b`. -/
  | assign (a b : Expr)
  /-- `a op= b`, and by it `++a` and the like. -/
  | assignOp (f : Int → Int → Int) (a b : Expr)
  /-- A function called on an object. -/
  | call (e : Expr) (f : Nat) (as : Args)
inductive Args
  | nil
  | cons (e : Expr) (as : Args)
end

/-- Statements. -/
inductive Stmt
  | skip
  | seq (s t : Stmt)
  | expr (e : Expr)
  /-- A variable with its first value. -/
  | decl (x : Nat) (e : Expr)
  /-- A reference, constant or not, with what it refers to. -/
  | bind (const : Bool) (x : Nat) (e : Expr)
  | ite (e : Expr) (s t : Stmt)
  | loop (e : Expr) (s : Stmt)
  /-- `if(x as T) s else t`; the number stands for the type. -/
  | ifAs (x : Nat) (ty : Nat) (s t : Stmt)
  | ret (e : Expr)

structure Func where
  params : List (Nat × Sym)
  /-- Whether it returns a reference; a constant one cannot be declared (NodeIdent.cpp:1737-1738). -/
  retRef : Bool
  /-- Whether it returns a class. -/
  retClass : Bool
  body : Stmt

structure Place where
  obj : Nat
  path : List Sel
  deriving DecidableEq, Repr

structure Prog where
  fn : Nat → Func
  /-- Where the named constants are kept. -/
  con : Nat → Place

abbrev Ctx := Nat → Option Sym

/-- What labelling says of an expression: how its type refers, whether it can be stored into,
whether it can be referred to, whether it is a constant, whether it is an explicit cast, and to a
reference. -/
structure Lab where
  alt : Alt
  stor : TB
  refb : TB
  cnst : Bool
  xcast : Bool := false
  xref : Bool := false
  deriving DecidableEq, Repr

/-! ### Labelling, node by node -/

/-- src/ulam/NodeIdent.cpp:423-428 (in `checkAndLabelType`), 278-285 `isAConstant` for a variable. -/
def labVar (s : Sym) : Lab :=
  let stor := if s.alt = .cref then TB.no else if s.cparam then TB.no else TB.yes
  ⟨s.alt, stor, stor, false, false, false⟩

/-- src/ulam/NodeConstant.cpp:296, NodeConstantClass.cpp:213, NodeConstantArray.cpp:174,
NodeTerminal.cpp:772. -/
def labCon : Lab := ⟨.no, .no, .no, true, false, false⟩

/-- src/ulam/NodeMemberSelect.cpp:507-518 `setStoreIntoAbleAndReferenceAble`, 133-136 `isAConstant`.
The type is that of the member (309). -/
def labSelect (l r : Lab) : Lab := ⟨r.alt, minTB l.stor r.stor, minTB l.refb r.refb, l.cnst, false, false⟩

/-- A data member as the right side of a member select (NodeIdent.cpp:423-428): a variable that is
no reference. -/
def labMember : Lab := labVar ⟨.no, false⟩

/-- src/ulam/NodeMemberSelectByBaseClassType.cpp:228-232. -/
def labBase (l : Lab) : Lab := ⟨.no, l.stor, l.refb, l.cnst, false, false⟩

/-- src/ulam/NodeSquareBracket.cpp:443-451, 89-95 `isAConstant`. A character of a string keeps what
the constructor set (12-14): hazy. The item of a reference to an array is no reference
(CompilerState.cpp:1562-1588 `getUlamTypeAsScalar`). -/
def labItem (str : Bool) (l i : Lab) : Lab :=
  if str then ⟨.no, .hazy, .hazy, l.cnst && i.cnst, false, false⟩
  else ⟨.no, l.stor, l.stor, l.cnst && i.cnst, false, false⟩

/-- src/ulam/NodeCast.cpp:339-381 and 545-551 for an explicit cast to a reference:
UlamType.cpp:112-113 (`safeCast`, by `explicitlyCastable`) refuses a constant reference, 371-380 a
constant. -/
def labCastRef (l : Lab) : Option Lab :=
  if l.alt = .cref then none
  else if l.cnst then none
  else some ⟨.ref, .yes, .yes, l.cnst, true, true⟩

/-- src/ulam/NodeCast.cpp:548-549, 111-114 `isAConstant`. -/
def labCastVal (l : Lab) : Lab := ⟨.no, .no, .no, l.cnst, true, false⟩

/-- src/ulam/NodeQuestionColon.cpp:151-156 (`calcNodeType` of like types), 132-135 `isAConstant`,
308-309. -/
def labTern (c a b : Lab) : Lab :=
  let stor := if c.cnst then TB.no else TB.yes
  ⟨if isReference a.alt then b.alt else a.alt, stor, stor, c.cnst, false, false⟩

/-- src/ulam/NodeStorageof.cpp:225-229. -/
def labStorageof : Lab := ⟨.ref, .yes, .yes, false, false, false⟩

/-- src/ulam/NodeInstanceof.cpp:62-65. -/
def labInst : Lab := ⟨.no, .yes, .no, false, false, false⟩

/-- src/ulam/NodeBinaryOp.cpp:204, 136-143 `isAConstant`. -/
def labBin (a b : Lab) : Lab := ⟨.no, .no, .no, a.cnst && b.cnst, false, false⟩

/-- src/ulam/NodeBinaryOpEqual.cpp:123-148, 330-351 `checkStoreIntoAble`. -/
def labAssign (a b : Lab) : Option Lab :=
  if a.stor ≠ .yes then none
  else if b.xref then none
  else some ⟨a.alt, a.stor, a.stor, a.cnst && b.cnst, false, false⟩

/-- src/ulam/NodeFunctionCall.cpp:470-478. -/
def labResult (f : Func) : Lab :=
  let stor := if f.retClass ∨ f.retRef then TB.yes else TB.no
  let refb := if f.retRef then stor else TB.no
  ⟨if f.retRef then .ref else .no, stor, refb, false, false, false⟩

/-- src/ulam/SymbolFunction.cpp:377-441 (in `matchingTypes`), for types that differ at most in how
they refer: an argument of the very type of the parameter always matches. -/
def argMatches (p : Sym) (a : Lab) : Bool :=
  if a.alt = p.alt then true
  else if a.cnst then
    if isAltRef p.alt then p.cparam && !a.xcast else true
  else if a.alt = .cref ∧ p.alt = .ref then false
  else !(p.alt = .cref ∧ a.xcast)

/-- src/ulam/NodeFunctionCall.cpp:242-267. -/
def argReferable (p : Sym) (a : Lab) : Bool :=
  if isAltRef p.alt then
    match a.refb with
    | .yes => true
    | .hazy => false
    | .no => p.cparam
  else true

/-- src/ulam/NodeMemberSelect.cpp:482-505 `checkStoreIntoAble` and 203-210: functions are called on
what can be stored into only. -/
def labCall (l : Lab) (f : Func) : Option Lab :=
  if l.stor = .yes then some (labSelect l (labResult f)) else none

mutual
/-- `checkAndLabelType` of an expression; `none` is an error, or an expression that stays hazy. -/
def label (G : Prog) (Γ : Ctx) : Expr → Option Lab
  | .lit _ => some labCon
  | .var x => (Γ x).map labVar
  | .con _ => some labCon
  | .field e _ => (label G Γ e).map fun l => labSelect l labMember
  | .fieldCon e _ => (label G Γ e).map fun l => labSelect l labCon
  | .base e _ => (label G Γ e).map labBase
  | .item s e i => (label G Γ e).bind fun l => (label G Γ i).map fun j => labItem s l j
  | .castRef e => (label G Γ e).bind labCastRef
  | .castVal _ e => (label G Γ e).map labCastVal
  | .tern c a b => (label G Γ c).bind fun k => (label G Γ a).bind fun l => (label G Γ b).map fun r =>
      labTern k l r
  | .storageof e => (label G Γ e).map fun _ => labStorageof
  | .inst => some labInst
  | .bin _ a b => (label G Γ a).bind fun l => (label G Γ b).map fun r => labBin l r
  | .assign a b => (label G Γ a).bind fun l => (label G Γ b).bind fun r => labAssign l r
  | .assignOp _ a b => (label G Γ a).bind fun l => (label G Γ b).bind fun r => labAssign l r
  | .call e f as => (label G Γ e).bind fun l =>
      if labelArgs G Γ (G.fn f).params as then labCall l (G.fn f) else none
def labelArgs (G : Prog) (Γ : Ctx) : List (Nat × Sym) → Args → Bool
  | [], .nil => true
  | p :: ps, .cons e as =>
    (match label G Γ e with
    | none => false
    | some a => argMatches p.2 a && argReferable p.2 a) && labelArgs G Γ ps as
  | _, _ => false
end

/-- src/ulam/NodeVarRef.cpp:264-293 (in `checkAndLabelType`), and the cast of a constant reference
refused by UlamType.cpp:112-113. -/
def bindOk (const : Bool) (l : Lab) : Bool :=
  if const then true
  else l.refb = .yes ∧ l.stor = .yes ∧ l.alt ≠ .cref

/-- src/ulam/NodeReturnStatement.cpp:182-249 (in `checkAndLabelType`). -/
def retOk (f : Func) (l : Lab) : Bool :=
  if f.retRef then
    if isAltRef l.alt then l.alt ≠ .cref
    else !l.cnst
  else true

/-- The names known after a statement. A reference is a variable of a reference type; the name of an
as-conditional is one of the kind `ALT_AS` (Parser.cpp:2131-2147). -/
def after (Γ : Ctx) : Stmt → Ctx
  | .seq s t => after (after Γ s) t
  | .decl x _ => Function.update Γ x (some ⟨.no, false⟩)
  | .bind c x _ => Function.update Γ x (some ⟨if c then .cref else .ref, false⟩)
  | _ => Γ

/-- The context in the block of an as-conditional (Parser.cpp:2086-2179
`setupAsConditionalBlockAndParseStatements`). -/
def inAs (Γ : Ctx) (x : Nat) : Ctx := Function.update Γ x (some ⟨.as, false⟩)

/-- `checkAndLabelType` of the statements of a function. -/
def check (G : Prog) (f : Func) (Γ : Ctx) : Stmt → Bool
  | .skip => true
  | .seq s t => check G f Γ s && check G f (after Γ s) t
  | .expr e => (label G Γ e).isSome
  | .decl _ e => (label G Γ e).isSome
  | .bind c _ e => ((label G Γ e).map (bindOk c)).getD false
  | .ite e s t => (label G Γ e).isSome && check G f Γ s && check G f Γ t
  | .loop e s => (label G Γ e).isSome && check G f Γ s
  | .ifAs x _ s t => (Γ x).isSome && check G f (inAs Γ x) s && check G f Γ t
  | .ret e => ((label G Γ e).map (retOk f)).getD false

/-- The names known at the start of a function: its parameters and `self`, a reference. -/
def start (f : Func) : Ctx :=
  f.params.foldr (fun p Γ => Function.update Γ p.1 (some p.2))
    (fun x => if x = 0 then some ⟨.ref, false⟩ else none)

/-! ### Running -/

abbrev Val := List Sel → Int

structure St where
  mem : Nat → Val
  next : Nat

abbrev Env := Nat → Place

def read (s : St) (p : Place) : Val := fun r => s.mem p.obj (p.path ++ r)

def write (s : St) (p : Place) (v : Val) : St :=
  { s with mem := fun o r =>
      if o = p.obj ∧ p.path <+: r then v (r.drop p.path.length) else s.mem o r }

/-- A new object. -/
def alloc (s : St) (v : Val) : Place × St :=
  (⟨s.next, []⟩, ⟨Function.update s.mem s.next v, s.next + 1⟩)

structure Res where
  env : Env
  st : St
  out : Option Place

mutual
/-- The place an expression stands for: of a name what it is bound to; of a part the part of the
place; of a choice the place chosen; of a reference cast and of `storageof` the place itself; of a
value a new object. Left sides come before right sides, the object of a call before the arguments.
`none` is running out of fuel, or a function with a reference to return that returns none. The
number of `as` types an object is of is given by `is`. -/
def eval (G : Prog) (is : St → Place → Nat → Bool) : Nat → Env → St → Expr → Option (Place × St)
  | 0, _, _, _ => none
  | n + 1, ρ, s, e =>
    match e with
    | .lit k => some (alloc s fun _ => k)
    | .var x => some (ρ x, s)
    | .con k => some (G.con k, s)
    | .field e m => (eval G is n ρ s e).map fun r => (⟨r.1.obj, r.1.path ++ [.mem m]⟩, r.2)
    | .fieldCon e k => (eval G is n ρ s e).map fun r => (G.con k, r.2)
    | .base e b => (eval G is n ρ s e).map fun r => (⟨r.1.obj, r.1.path ++ [.base b]⟩, r.2)
    | .item str e i => (eval G is n ρ s e).bind fun r => (eval G is n ρ r.2 i).map fun q =>
        if str then alloc q.2 (read q.2 ⟨r.1.obj, r.1.path ++ [.item (read q.2 q.1 [])]⟩)
        else (⟨r.1.obj, r.1.path ++ [.item (read q.2 q.1 [])]⟩, q.2)
    | .castRef e => eval G is n ρ s e
    | .castVal f e => (eval G is n ρ s e).map fun r => alloc r.2 fun p => f (read r.2 r.1 p)
    | .tern c a b => (eval G is n ρ s c).bind fun r =>
        if read r.2 r.1 [] ≠ 0 then eval G is n ρ r.2 a else eval G is n ρ r.2 b
    | .storageof e => eval G is n ρ s e
    | .inst => some (alloc s fun _ => 0)
    | .bin f a b => (eval G is n ρ s a).bind fun r => (eval G is n ρ r.2 b).map fun q =>
        alloc q.2 fun _ => f (read q.2 r.1 []) (read q.2 q.1 [])
    | .assign a b => (eval G is n ρ s a).bind fun r => (eval G is n ρ r.2 b).map fun q =>
        (r.1, write q.2 r.1 (read q.2 q.1))
    | .assignOp f a b => (eval G is n ρ s a).bind fun r => (eval G is n ρ r.2 b).map fun q =>
        (r.1, write q.2 r.1 fun _ => f (read q.2 r.1 []) (read q.2 q.1 []))
    | .call e f as => (eval G is n ρ s e).bind fun r =>
        (evalArgs G is n ρ r.2 (G.fn f).params as fun _ => r.1).bind fun q =>
          (exec G is n q.1 q.2 (G.fn f).body).bind fun z =>
            match z.out, (G.fn f).retRef with
            | some p, true => some (p, z.st)
            | some p, false => some (alloc z.st (read z.st p))
            | none, true => none
            | none, false => some (alloc z.st fun _ => 0)
/-- The arguments in order: bound to a parameter that is a reference, copied otherwise. -/
def evalArgs (G : Prog) (is : St → Place → Nat → Bool) :
    Nat → Env → St → List (Nat × Sym) → Args → Env → Option (Env × St)
  | 0, _, _, _, _, _ => none
  | n + 1, ρ, s, ps, as, acc =>
    match ps, as with
    | [], .nil => some (acc, s)
    | p :: ps, .cons e as => (eval G is n ρ s e).bind fun r =>
        if isAltRef p.2.alt then
          (evalArgs G is n ρ r.2 ps as acc).map fun q => (Function.update q.1 p.1 r.1, q.2)
        else
          let a := alloc r.2 (read r.2 r.1)
          (evalArgs G is n ρ a.2 ps as acc).map fun q => (Function.update q.1 p.1 a.1, q.2)
    | _, _ => none
/-- A statement; `out` is what it returns, if it does. -/
def exec (G : Prog) (is : St → Place → Nat → Bool) : Nat → Env → St → Stmt → Option Res
  | 0, _, _, _ => none
  | n + 1, ρ, s, t =>
    match t with
    | .skip => some ⟨ρ, s, none⟩
    | .seq t u => (exec G is n ρ s t).bind fun r =>
        if r.out.isSome then some r else exec G is n r.env r.st u
    | .expr e => (eval G is n ρ s e).map fun r => ⟨ρ, r.2, none⟩
    | .decl x e => (eval G is n ρ s e).map fun r =>
        let a := alloc r.2 (read r.2 r.1)
        ⟨Function.update ρ x a.1, a.2, none⟩
    | .bind _ x e => (eval G is n ρ s e).map fun r => ⟨Function.update ρ x r.1, r.2, none⟩
    | .ite e t u => (eval G is n ρ s e).bind fun r =>
        (if read r.2 r.1 [] ≠ 0 then exec G is n ρ r.2 t else exec G is n ρ r.2 u).map fun z =>
          ⟨ρ, z.st, z.out⟩
    | .loop e t => (eval G is n ρ s e).bind fun r =>
        if read r.2 r.1 [] ≠ 0 then
          (exec G is n ρ r.2 t).bind fun z =>
            if z.out.isSome then some ⟨ρ, z.st, z.out⟩ else exec G is n ρ z.st (.loop e t)
        else some ⟨ρ, r.2, none⟩
    | .ifAs x ty t u =>
        (if is s (ρ x) ty then exec G is n ρ s t else exec G is n ρ s u).map fun z => ⟨ρ, z.st, z.out⟩
    | .ret e => (eval G is n ρ s e).map fun r => ⟨ρ, r.2, some r.1⟩
end

end Ulam.Constness
