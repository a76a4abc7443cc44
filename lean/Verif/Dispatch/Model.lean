import Verif.Virtual.Model
import Verif.Related.Model
/-! # Calls of virtual functions (`NodeFunctionCall.cpp`): which class the function is taken from, and what `self` is in it

The tables are those of `Verif.Virtual`, pointers and places those of `Verif.Related`. Not modelled: how the generated code
makes its `UlamRef`s (`Node::genHiddenArg2`, `genHiddenArg2ForARef`) and what they do at run time (MFM library), calls by
registration number, items of arrays and casts as the left side, and the arguments. -/
namespace Ulam.Dispatch
open Ulam.Walker Ulam.Related Ulam.Virtual
variable {n : Nat}

/-- The symbol of a variable, as far as a call on it depends on it: its type, and whether it is `super` or `self`. -/
structure Var (n : Nat) where
  type : Fin n
  super : Bool
  self : Bool
  deriving DecidableEq

/-- What a function is called on: a name, a data member of a left side, the part of a base class of a left side, or what a
function called on a left side returns. A call without a left side is one on `self` (`NodeFunctionCall.cpp:561-606`
`specifyimplicitselfexplicitly`). -/
inductive Lhs (n : Nat) where
  | name (v : Var n)
  | member (l : Lhs n) (v : Var n)
  | base (l : Lhs n) (t : Fin n)
  | call (l : Lhs n) (t : Fin n)

/-- `hasASymbol`: `NodeIdent.cpp:113-116`; `NodeMemberSelect.cpp:72-76` asks its right side, which for a base class is a type
and has none. A function called has its own (`NodeFunctionCall.cpp:1009-1012`). -/
def hasSymbol : Lhs n → Bool
  | .base _ _ => false
  | _ => true

/-- `hasASymbolSuper`: `NodeIdent.cpp:124-128`; `NodeMemberSelect.cpp:101-105` asks its left side. -/
def hasSuper : Lhs n → Bool
  | .name v => v.super
  | .member l _ => hasSuper l
  | .base l _ => hasSuper l
  | .call l _ => hasSuper l

/-- `hasASymbolReference`: `NodeIdent.cpp:136-140`; `NodeMemberSelect.cpp:113-117` asks its left side. -/
def hasReference (e : Env n) : Lhs n → Bool
  | .name v => e.isRef v.type
  | .member l _ => hasReference e l
  | .base l _ => hasReference e l
  | .call l _ => hasReference e l

/-- `m_useEffSelfForEval`, set in `NodeFunctionCall.cpp:480-493` `checkAndLabelType` (initially false, line 14). -/
def useEff (e : Env n) (l : Lhs n) : Bool :=
  if hasSuper l then false else if !hasSymbol l then false else if hasReference e l then true else false

/-- `getAutoLocalType` of a variable. -/
inductive Alt where
  | no
  | as
  | ref
  deriving DecidableEq

/-- The variable found in the current scope for the name noted in a pointer: `NodeFunctionCall.cpp:1026-1035`; the storage
type is `getAutoStorageTypeForEval`, no type if it was not set. -/
structure Sym (n : Nat) where
  alt : Alt
  type : Fin n
  storage : Fin n
  super : Bool
  deriving DecidableEq

/-- `NodeFunctionCall.cpp:1035-1038`: the type of the variable found; for an atom, the class of the object. -/
def foundType (e : Env n) (p : Ptr n) (s : Sym n) : Fin n := if e.atom s.type then p.eff else s.type

/-- `NodeFunctionCall.cpp:1026-1063`: the pointer to the object, before its table is looked up. -/
def retarget (e : Env n) (p : Ptr n) : Option (Sym n) → Option (Ptr n)
  | none => some p
  | some s =>
    match s.alt with
    | .as => some { p with target := s.storage }
    | .ref => if s.super then none else some { p with target := s.storage }
    | .no =>
      if isClassASubclassOf e.w (foundType e p s) p.target then do
        let q ← rel e (foundType e p s) p.target
        let pos ← setPos (p.pos - q)
        some ⟨foundType e p s, p.eff, pos⟩
      else some p

/-- `NodeFunctionCall.cpp:1065-1072`: the class whose table is used. -/
def tableClass (e : Env n) (eff : Bool) (p : Ptr n) : Fin n :=
  if eff && decide (p.eff ≠ e.w.nouti) && decide (p.eff ≠ p.target) then p.eff else p.target

/-- `alreadyDefinedSymbolClass`: the class itself for a reference to it or an alias. -/
def symbolOf (w : World n) (t : Fin n) : Fin n := w.root (w.deref t)

/-- What becomes of a call. -/
inductive Outcome (n : Nat) where
  | runs (c : Fin n) (self : Ptr n)
  | error
  | aborts
  deriving DecidableEq

/-- The start of the function: `NodeBlockFunctionDefinition::eval` needs the type of `self` (`NodeBlockFunctionDefinition.cpp:397`),
here that there is one. -/
def enter (e : Env n) (c : Fin n) (p : Ptr n) : Outcome n := if p.target = e.w.nouti then .aborts else .runs c p

/-- `NodeFunctionCall.cpp:1020-1166` `getVirtualFunctionForEval` and the start of the function: `f` is the function found when
labelling, of class `own`; `p` the pointer to the object; `found` what its name finds in the current scope. Where no function
is found, a message is made of a null pointer (lines 1106-1117). -/
def evalCall (e : Env n) (st : St n) (f : Func n) (own : Fin n) (l : Lhs n) (p : Ptr n) (found : Option (Sym n)) : Outcome n :=
  match retarget e p found with
  | none => .aborts
  | some p1 =>
    match dispatch st (symbolOf e.w (tableClass e (useEff e l) p1)) f with
    | none => .aborts
    | some a =>
      if own ≠ a then
        match findFunc st a f.sig with
        | none => .aborts
        | some g => if !g.virt then .error else if g.pure then .error else enter e a p1
      else if f.pure then .error else enter e a p1

/-- `NodeFunctionCall.cpp:1408-1484`, part of `genCodeVirtualFunctionCallVTableEntry`: the class whose table the generated
code uses, on an object whose effective self is `k`; `ur` says that a reference was made for the left side. -/
def genClass (e : Env n) (ur : Bool) (k : Fin n) : Lhs n → Fin n
  | .name v =>
    if v.self then k else if v.super then e.w.deref v.type else if e.isRef v.type && ur then k else e.w.deref v.type
  | .member _ v =>
    if v.self then k else if v.super then e.w.deref v.type else if e.isRef v.type && ur then k else e.w.deref v.type
  | .base _ t => e.w.deref t
  | .call _ t => if e.isRef t && ur then k else e.w.deref t

end Ulam.Dispatch
