/-!
# Custom arrays (model)

A class with functions named `aref` can be subscripted. `SymbolFunctionName.cpp`, `SymbolTableOfFunctions.cpp`,
`NodeBlockClass.cpp` and `NodeSquareBracket.cpp`. Stubs of templates are not modelled: all classes are complete. Types are
numbers; `UlamType::compare` on complete types is equality.
-/
namespace Ulam.CustomArray

/-- What is asked of one class: the return types of its functions `aref` in the order of the table (none when there is no such
function), and what `findMatchingFunctionWithSafeCasts` (C17) answers for the argument at hand: how many match and, when it is
one, the type of the parameter. `lengthof` says whether there is a function `alengthof`, `setter` whether there is an `aset`. -/
structure Info where
  rets : List Nat
  hits : Nat
  idx : Nat
  lengthof : Bool
  setter : Bool
  deriving DecidableEq

/-- A class with its direct bases, the superclass first. A base that several classes share is there with each of them. -/
inductive Tree
  | node (cls : Nat) (info : Info) (bases : List Tree)

def Tree.cls : Tree → Nat | .node c _ _ => c
def Tree.info : Tree → Info | .node _ i _ => i
def Tree.bases : Tree → List Tree | .node _ _ b => b

/-- The answers to the question for the type of an item: no function, an error, a type, or a failed assertion. -/
inductive CaType
  | nouti | nav | type (t : Nat) | abort
  deriving DecidableEq

/-- `SymbolFunctionName.cpp:428-468` `checkCustomArrayGetFunctions`, its loop: `sav` is `futisav` unless it is `Nav`. The
messages are put together and never shown. -/
def checkGetsLoop (void : Nat) : List Nat → Option Nat → Nat → Nat × Option Nat
  | [], sav, prob => (prob, sav)
  | f :: l, sav, prob =>
    if f = void then checkGetsLoop void l (some f) (prob + 1)
    else match sav with
      | some s => if f ≠ s then checkGetsLoop void l (some f) (prob + 1) else checkGetsLoop void l (some f) prob
      | none => checkGetsLoop void l (some f) prob

/-- `SymbolFunctionName.cpp:428-468`: the number of problems and the type of an item. -/
def checkGets (void : Nat) (rets : List Nat) : Nat × Option Nat :=
  match checkGetsLoop void rets none 0 with
  | (0, t) => (0, t)
  | (p + 1, _) => (p + 1, none)

/-- `SymbolFunctionName.cpp:470-491` `getCustomArrayReturnType`, its loop. -/
def returnLoop (void : Nat) : List Nat → Option Nat → CaType
  | [], none => .nav
  | [], some t => .type t
  | f :: l, r =>
    if f = void then .abort
    else match r with
      | none => returnLoop void l (some f)
      | some t => if t = f then returnLoop void l (some f) else .nav

/-- `SymbolTableOfFunctions.cpp:302-312` `getCustomArrayReturnTypeGetFunction`. -/
def returnType (void : Nat) (i : Info) : CaType := if i.rets = [] then .nouti else returnLoop void i.rets none

mutual
/-- `NodeBlockClass.cpp:1611-1657` `getCustomArrayTypeFromGetFunction`. -/
def typeFromGet (void : Nat) : Tree → CaType
  | .node _ i bases => match returnType void i with
    | .nouti => typeFromBases void bases
    | t => t

/-- The loop `NodeBlockClass.cpp:1640-1653`. -/
def typeFromBases (void : Nat) : List Tree → CaType
  | [] => .nouti
  | b :: l => match typeFromGet void b with
    | .nouti => typeFromBases void l
    | t => t
end

mutual
/-- `NodeBlockClass.cpp:1659-1705` `getCustomArrayIndexTypeFromGetFunction`: the number of matches. -/
def matchCount : Tree → Nat
  | .node _ i bases => if i.hits = 0 then matchBases bases else i.hits

/-- The loop `NodeBlockClass.cpp:1689-1701`. -/
def matchBases : List Tree → Nat
  | [] => 0
  | b :: l => matchCount b + matchBases l
end

mutual
/-- `NodeBlockClass.cpp:1707-1756` `hasCustomArrayLengthofFunction`. -/
def hasLengthof : Tree → Bool
  | .node _ i bases => if i.lengthof then true else lengthofBases bases

def lengthofBases : List Tree → Bool
  | [] => false
  | b :: l => hasLengthof b || lengthofBases l
end

mutual
/-- `CompilerState.cpp:3066-3092` `hasCustomArrayInAClassOrAncestor`: the flag of a class is set when the parser meets the
first of its functions `aref`, `Parser.cpp:5671-5679`. Simplification: the walk meets each class once (C13); whether it meets one
is all that is asked. -/
def isCustomArray : Tree → Bool
  | .node _ i bases => if i.rets ≠ [] then true else customBases bases

def customBases : List Tree → Bool
  | [] => false
  | b :: l => isCustomArray b || customBases l
end

/-- The errors shown by the check of a class. -/
inductive Msg
  | notFlagged | notFound | deprecatedSet
  deriving DecidableEq

/-- `SymbolTableOfFunctions.cpp:235-299` `checkCustomArrayTypeFuncs`: the result, which nobody looks at, and the messages
shown. It is called for classes whose flag is set, `NodeBlockClass.cpp:1575-1577`; a class with a function `aref` has it set. -/
def checkTypeFuncs (void : Nat) (flag : Bool) (i : Info) : Bool × List Msg :=
  let get : Bool × List Msg :=
    if i.rets ≠ [] then
      if ¬ flag then (false, [.notFlagged]) else (decide ((checkGets void i.rets).1 = 0), [])
    else (false, if flag then [.notFound] else [])
  if i.setter then (false, get.2 ++ [.deprecatedSet]) else get

/-- How a subscript on an object of a class without `operator[]` is labelled. -/
inductive Verdict
  | call | invalid | badType | noMatch | ambiguous | hazy | abort
  deriving DecidableEq

/-- `NodeSquareBracket.cpp:211-262` and `NodeSquareBracket.cpp:327-390`: the checks before the subscript is replaced by a call.
Simplification: the item type is complete and the argument is not hazy. -/
def subscript (void : Nat) (t : Tree) : Verdict :=
  if ¬ isCustomArray t then .invalid
  else match typeFromGet void t with
    | .abort => .abort
    | .nav => .badType
    | .nouti => .hazy
    | .type _ =>
      if matchCount t = 0 then .noMatch
      else if matchCount t > 1 then .ambiguous
      else .call

end Ulam.CustomArray
