import Verif.Walker.Model
/-!
# Looking up members by name in a class and its ancestors (model)

`CompilerState.cpp:4435-4780` (`alreadyDefinedSymbol` and the searches it is made of), `NodeBlockClass.cpp:1938-1942`
(`isIdInScope`), `NodeVarDeclDM.cpp:440-490` (`checkForNoShadowingSubclass`). The walk over the base classes is that of
`Verif/Walker/Model.lean`.

Simplifications. All classes of the hierarchy are complete: nothing is hazy (`checkHasHazyKin`, `Hzy`), so no search has to
wait. The block searched is a class block (as in `object.name`, and for every ancestor); the blocks of a function body
around a name are property C66. A class block has no block around it.
-/
namespace Ulam.Member
open Ulam.Walker
variable {n : Nat}

/-- What a symbol is. -/
inductive Kind | var | con | typ | fn
  deriving DecidableEq

/-- A symbol in the table of a class. -/
structure Sym where
  name : Nat
  kind : Kind
  deriving DecidableEq

/-- The tables of a class block: `m_ST` with data members, constants and typedefs, and `m_functionST`. -/
structure Tables where
  st : List Sym
  funcs : List Sym

/-- What the searches read besides the hierarchy: the tables of the classes, whether a name may be that of a type
(`isPossibleTypeName`, `CompilerState.cpp:5572-5577`), and the symbols at the top of the file of a class. -/
structure Env (n : Nat) where
  tabs : Fin n → Tables
  isType : Nat → Bool
  file : Fin n → List Sym

/-- `SymbolTable::isInTable`. -/
def inTable (l : List Sym) (x : Nat) : Option Sym := l.find? fun s => s.name == x

/-- `NodeBlockClass::isFuncIdInScope`. -/
def isFuncIdInScope (t : Tables) (x : Nat) : Option Sym := inTable t.funcs x

/-- `NodeBlockClass.cpp:1939-1942` `isIdInScope`. -/
def isIdInScope (t : Tables) (x : Nat) : Option Sym := (inTable t.st x).or (isFuncIdInScope t x)

/-- One turn of the loops of `CompilerState.cpp:4640-4652` and `4674-4687`: when only constants are wanted (`only`,
`m_initSubtreeSymbolsWithConstantsOnly`), other symbols are passed over, unless the name may be a type's. -/
def inBlock (E : Env n) (only : Bool) (c : Fin n) (x : Nat) : Option Sym :=
  (isIdInScope (E.tabs c) x).filter fun s => E.isType x || !only || decide (s.kind = .con)

/-- `CompilerState.cpp:4629-4663` `alreadyDefinedSymbolHere` for a class block: the block itself, the block of the class
(the same one), and the functions, for which `only` is not asked. -/
def here (E : Env n) (only : Bool) (c : Fin n) (x : Nat) : Option Sym :=
  ((inBlock E only c x).or (inBlock E only c x)).or (isFuncIdInScope (E.tabs c) x)

/-- The loop of the searches that stop at the first class that has the name: `CompilerState.cpp:4486-4510`, `4603-4624`
and `4750-4778`; `f` tells what is found in a class. -/
def findLoop {α : Type} (w : World n) (f : Fin n → Option α) (s : State n) : Option (Fin n × α) :=
  match h : getNextBase w s with
  | none => none
  | some (r, t) =>
    if w.defined r then
      match f r with
      | some a => some (r, a)
      | none => findLoop w f (addAncestorPairsOf w false r w.nouti t)
    else findLoop w f t
termination_by n - s.seen.card
decreasing_by
  all_goals have h1 := getNextBase_some h
  · rw [add_seen]; exact fuel_lt h1.1 h1.2
  · exact fuel_lt h1.1 h1.2

/-- A walker with nothing in it. -/
def fresh : State n := ⟨[], ∅⟩

/-- `CompilerState.cpp:4479-4483` and `4517-4520`: the walker starts with the bases of the class. -/
def fromBases (w : World n) (c : Fin n) : State n :=
  if w.defined c then addAncestorPairsOf w false c w.nouti fresh else fresh

/-- `CompilerState.cpp:4475-4511` `alreadyDefinedSymbolByAncestorOf`. -/
def byAncestorOf (w : World n) (E : Env n) (only : Bool) (c : Fin n) (x : Nat) : Option (Fin n × Sym) :=
  findLoop w (fun d => here E only d x) (fromBases w c)

/-- The loop of `CompilerState.cpp:4522-4549`: every class that has the name. -/
def allLoop (w : World n) (f : Fin n → Bool) (kin : Finset (Fin n)) (s : State n) : Finset (Fin n) :=
  match h : getNextBase w s with
  | none => kin
  | some (r, t) =>
    if w.defined r then
      allLoop w f (if f r then insert r kin else kin) (addAncestorPairsOf w false r w.nouti t)
    else allLoop w f kin t
termination_by n - s.seen.card
decreasing_by
  all_goals have h1 := getNextBase_some h
  · rw [add_seen]; exact fuel_lt h1.1 h1.2
  · exact fuel_lt h1.1 h1.2

/-- `CompilerState.cpp:4513-4551` `alreadyDefinedSymbolByAncestorsOf`. -/
def byAncestorsOf (w : World n) (E : Env n) (only : Bool) (c : Fin n) (x : Nat) : Finset (Fin n) :=
  allLoop w (fun d => (here E only d x).isSome) ∅ (fromBases w c)

/-- `CompilerState.cpp:4594-4627` `alreadyDefinedSymbolByAClassOrAncestor`. -/
def byClassOrAncestor (w : World n) (E : Env n) (only : Bool) (c : Fin n) (x : Nat) : Option (Fin n × Sym) :=
  findLoop w (fun d => here E only d x) (init w c)

/-- `CompilerState.cpp:4742-4780` `isFuncIdInAClassScopeOrAncestor`. -/
def funcInClassOrAncestor (w : World n) (E : Env n) (c : Fin n) (x : Nat) : Option (Fin n × Sym) :=
  findLoop w (fun d => isFuncIdInScope (E.tabs d) x) (init w c)

/-- What a name means: a symbol of a class, or one at the top of the file. -/
inductive Found (n : Nat) where
  | member (d : Fin n) (s : Sym)
  | file (s : Sym)
  deriving DecidableEq

/-- `CompilerState.cpp:4435-4473` `alreadyDefinedSymbol`, the name being looked for in class `c`; `ctx` is the class being
compiled: the file's symbols are only for names used in their own class (`4469`). -/
def lookup (w : World n) (E : Env n) (only : Bool) (ctx c : Fin n) (x : Nat) : Option (Found n) :=
  match here E only c x with
  | some s => some (.member c s)
  | none =>
    match byAncestorOf w E only c x with
    | some (d, s) => some (.member d s)
    | none => if ctx = c then (inTable (E.file c) x).map .file else none

/-- `NodeVarDeclDM.cpp:440-490` `checkForNoShadowingSubclass`: is the data member free of ancestors that have its name? -/
def noShadow (w : World n) (E : Env n) (c : Fin n) (x : Nat) : Bool := decide (byAncestorsOf w E false c x = ∅)

/-- The data members of a class are checked one by one, `NodeVarDeclDM.cpp:328-333`. -/
def classOk (w : World n) (E : Env n) (c : Fin n) : Bool :=
  ((E.tabs c).st.filter fun s => decide (s.kind = .var)).all fun s => noShadow w E c s.name

end Ulam.Member
