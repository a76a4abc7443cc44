import Verif.Walker.Lemmas
/-!
# Choosing an overloaded function (model)

`SymbolFunction.cpp:310-443`, `SymbolFunctionName.cpp:138-243` and `CompilerState.cpp:4996-5205`: which function a call means.
The functions considered are those of one name; their table in a class (`m_mangledFunctionNames`, a `std::map` ordered by
mangled name) is the list of its values in iteration order. Type numbers are natural numbers, and what the compiler knows of
types (`TypeInfo`) and how an argument node answers (`Arg`) are parameters: the theorems hold for whatever they say.
-/
namespace Ulam.Overload
open Ulam.Walker (World State getNextBase getNextBase_some addAncestorPairsOf add_seen fuel_lt init isClassASubclassOf)

/-- `include/UlamType.h` `ULAMTYPECOMPARERESULTS`. -/
inductive Cmp | same | notSame | dontKnow
  deriving DecidableEq

/-- `include/UlamType.h` `FORECAST`. -/
inductive Cast | clear | bad | hazy
  deriving DecidableEq

/-- What is asked about types: `okUTItoContinue`, `isComplete`, `UlamType::compareForArgumentMatching`, `getUlamTypeEnum`,
`isAltRefType`, `isConstantRefType` and `UlamType::safeCast` (the type cast to first). -/
structure TypeInfo where
  ok : Nat → Bool
  complete : Nat → Bool
  compare : Nat → Nat → Cmp
  kind : Nat → Nat
  altRef : Nat → Bool
  constRef : Nat → Bool
  safeCast : Nat → Nat → Cast

/-- What is asked of an argument node: `getNodeType`, `isAConstant() == TBOOL_TRUE`, `isExplicitCast`, `safeToCastTo`. -/
structure Arg where
  type : Nat
  const : Bool
  explicit : Bool
  cast : Nat → Cast

/-- A parameter: `getParameterType`, `isConstantParameter`. -/
structure Param where
  type : Nat
  const : Bool
  deriving DecidableEq

/-- A function symbol: an identity, its parameters and `takesVariableArgs`. -/
structure Func where
  id : Nat
  params : List Param
  variadic : Bool
  deriving DecidableEq

/-- `SymbolFunction.cpp:322-341`, the loop: the result and whether it has set `hasHazyArgs`. -/
def strictLoop (T : TypeInfo) : List Param → List Arg → Bool × Bool
  | [], _ => (true, false)
  | _ :: _, [] => (true, false) -- not reached: there are at least as many arguments
  | p :: ps, a :: as =>
    if !T.ok p.type || !T.complete p.type then (false, true)
    else match T.compare p.type a.type with
      | .same => strictLoop T ps as
      | .notSame => (false, false)
      | .dontKnow => (false, true)

/-- `SymbolFunction.cpp:317`, `:363`: the number of arguments rules the function out. -/
def wrongNumber (f : Func) (args : List Arg) : Bool :=
  decide (args.length < f.params.length) || (decide (args.length > f.params.length) && !f.variadic)

/-- `SymbolFunction.cpp:310-354` `matchingTypesStrictly`. -/
def matchingTypesStrictly (T : TypeInfo) (f : Func) (args : List Arg) : Bool × Bool :=
  if wrongNumber f args then (false, false) else strictLoop T f.params args

/-- `SymbolFunction.cpp:368-441`, the loop: the result, `hasHazyArgs` and `numUTmatch`, the last two from given values. -/
def looseLoop (T : TypeInfo) : List Param → List Arg → Bool → Nat → Bool × Bool × Nat
  | [], _, h, k => (true, h, k)
  | _ :: _, [], h, k => (true, h, k) -- not reached
  | p :: ps, a :: as, h, k =>
    if !T.ok p.type || !T.ok a.type then (true, true, k)
    else if T.compare p.type a.type = .same then looseLoop T ps as h (k + 1)
    else if a.const then
      if T.altRef p.type && (!p.const || a.explicit) then (false, h, k)
      else match a.cast p.type with
        | .bad => (false, h, k)
        | .hazy => looseLoop T ps as true k
        | .clear => looseLoop T ps as h (if T.kind p.type = T.kind a.type then k + 1 else k)
    else match T.safeCast p.type a.type with
      | .bad => (false, h, k)
      | .hazy => looseLoop T ps as true k
      | .clear =>
        if T.constRef p.type && a.explicit then (false, h, k)
        else looseLoop T ps as h (if T.kind p.type = T.kind a.type then k + 1 else k)

/-- `SymbolFunction.cpp:356-443` `matchingTypes`. -/
def matchingTypes (T : TypeInfo) (f : Func) (args : List Arg) (h : Bool) (k : Nat) : Bool × Bool × Nat :=
  if wrongNumber f args then (false, h, k) else looseLoop T f.params args h k

/-- The outcome of looking in one class: the number of matches, `funcSymbol`, `hasHazyArgs`. -/
structure Found where
  count : Nat
  func : Option Func
  hazy : Bool
  deriving DecidableEq

/-- `SymbolFunctionName.cpp:147-186` `findMatchingFunction`, the body of its loop (the same as that of
`findMatchingFunctionStrictlyByTypes`, `:138-161`). -/
def strictStep (T : TypeInfo) (args : List Arg) (a : Found) (f : Func) : Found :=
  let m := matchingTypesStrictly T f args
  { count := if m.1 then a.count + 1 else a.count, func := if m.1 then some f else a.func, hazy := a.hazy || m.2 }

/-- `SymbolFunctionName.cpp:163-186` `findMatchingFunction`. -/
def findMatchingFunction (T : TypeInfo) (fs : List Func) (args : List Arg) : Found :=
  fs.foldl (strictStep T args) ⟨0, none, false⟩

/-- The local variables of `findMatchingFunctionWithSafeCasts`: as `Found`, with `numFuncsWithAllSameUTArgs` and
`funcSymbolMatchingUTArgs`. -/
structure Safe where
  count : Nat
  func : Option Func
  hazy : Bool
  sameCount : Nat
  sameFunc : Option Func

/-- `SymbolFunctionName.cpp:213-229`, the body of the loop. The signature table it also fills is not read by anything here. -/
def safeStep (T : TypeInfo) (args : List Arg) (a : Safe) (f : Func) : Safe :=
  let m := matchingTypes T f args a.hazy 0
  if m.1 && !m.2.1 then
    { count := a.count + 1, func := some f, hazy := m.2.1
      sameCount := if m.2.2 = args.length then a.sameCount + 1 else a.sameCount
      sameFunc := if m.2.2 = args.length then some f else a.sameFunc }
  else { a with hazy := m.2.1 }

/-- `SymbolFunctionName.cpp:188-243` `findMatchingFunctionWithSafeCasts`. -/
def findMatchingFunctionWithSafeCasts (T : TypeInfo) (fs : List Func) (args : List Arg) : Found :=
  let a := fs.foldl (safeStep T args) ⟨0, none, false, 0, none⟩
  if a.count > 1 then
    if a.sameCount > 1 then ⟨a.count, none, a.hazy⟩
    else ⟨a.sameCount, a.sameFunc, a.hazy⟩
  else ⟨a.count, a.func, a.hazy⟩

/-- `CompilerState.cpp:4996-5014` `findMatchingFunctionInClassScope`. -/
def findInClassScope (T : TypeInfo) (fs : List Func) (args : List Arg) : Found :=
  let m := findMatchingFunction T fs args
  if m.hazy then { m with count := 0 } else m

/-- `foundInAncestor`: none (`Nouti`), ambiguous (`Nav`), or the class. -/
inductive Where (n : Nat)
  | nowhere
  | ambiguous
  | at (c : Fin n)
  deriving DecidableEq

/-- The variables kept along a search over classes: the number of matches, the function, the class, `hasHazyArgs`. -/
structure Result (n : Nat) where
  count : Nat
  func : Option Func
  found : Where n
  hazy : Bool
  deriving DecidableEq

variable {n : Nat}

/-- What a search over classes reads: the classes, the number of the type "not known yet" (`Hzy`), the types, and the functions
of the name in each class. -/
structure Program (n : Nat) where
  w : World n
  hzy : Fin n
  T : TypeInfo
  funcs : Fin n → List Func

/-- `CompilerState.cpp:5043-5055`: what one class adds. -/
def exactAt (P : Program n) (args : List Arg) (r : Fin n) (a : Result n) : Result n :=
  let m := findInClassScope P.T (P.funcs r) args
  { count := a.count + m.count, func := if m.count = 1 then m.func else a.func
    found := if m.count = 1 then .at r else a.found, hazy := a.hazy || m.hazy }

/-- `CompilerState.cpp:5031-5064`, the loop of `findMatchingFunctionInAClassScopeOrAncestor`. -/
def exactLoop (P : Program n) (args : List Arg) (a : Result n) (s : State n) : Result n :=
  match h : getNextBase P.w s with
  | none => a
  | some (r, t) =>
    if P.w.defined r then
      if (findInClassScope P.T (P.funcs r) args).count = 1 ∧ t.bases = [] then exactAt P args r a
      else exactLoop P args (exactAt P args r a) (addAncestorPairsOf P.w false r P.w.nouti t)
    else exactLoop P args { a with hazy := a.hazy || decide (r = P.hzy) } t
termination_by n - s.seen.card
decreasing_by
  all_goals have h1 := getNextBase_some h
  · rw [add_seen]; exact fuel_lt h1.1 h1.2
  · exact fuel_lt h1.1 h1.2

/-- `isClassASubclassOf` with `foundinbase` as one of the arguments: neither `Nouti` nor `Nav` is a class or the base of
one. -/
def Where.below (w : World n) (c : Fin n) : Where n → Bool
  | .at b => isClassASubclassOf w c b
  | _ => false

/-- See `Where.below`. -/
def Where.above (w : World n) (c : Fin n) : Where n → Bool
  | .at b => isClassASubclassOf w b c
  | _ => false

/-- `CompilerState.cpp:5130-5175`: what one class adds; `m` is the outcome of looking in class `r`. -/
def safeAt (P : Program n) (r : Fin n) (m : Found) (a : Result n) : Result n :=
  let h := a.hazy || m.hazy
  if m.count = 1 then
    if a.found = .nowhere then ⟨m.count, m.func, .at r, h⟩
    else if a.found.below P.w r then ⟨m.count, m.func, .at r, h⟩
    else if !a.found.above P.w r then ⟨a.count + m.count, none, .ambiguous, h⟩
    else { a with hazy := h }
  else { a with count := a.count + m.count, hazy := h }

/-- `CompilerState.cpp:5136-5150`: `rtnb` is set. -/
def stopAt (P : Program n) (r : Fin n) (m : Found) (a : Result n) (t : State n) : Bool :=
  decide (m.count = 1) && (decide (a.found = .nowhere) || a.found.below P.w r) && t.bases.isEmpty

/-- `CompilerState.cpp:5116-5187`, the loop of `findMatchingFunctionWithSafeCastsInAClassScopeOrAncestor`. -/
def safeLoop (P : Program n) (args : List Arg) (a : Result n) (s : State n) : Result n :=
  match h : getNextBase P.w s with
  | none => a
  | some (r, t) =>
    if P.w.defined r then
      let m := findMatchingFunctionWithSafeCasts P.T (P.funcs r) args
      if stopAt P r m a t then safeAt P r m a
      else if m.count = 1 then safeLoop P args (safeAt P r m a) t
      else safeLoop P args (safeAt P r m a) (addAncestorPairsOf P.w false r P.w.nouti t)
    else safeLoop P args { a with hazy := a.hazy || decide (r = P.hzy) } t
termination_by n - s.seen.card
decreasing_by
  all_goals have h1 := getNextBase_some h
  · exact fuel_lt h1.1 h1.2
  · rw [add_seen]; exact fuel_lt h1.1 h1.2
  · exact fuel_lt h1.1 h1.2

/-- `CompilerState.cpp:5016-5080` `findMatchingFunctionInAClassScopeOrAncestor`: it answers yes when the count is 1. -/
def findExact (P : Program n) (args : List Arg) (c : Fin n) : Result n :=
  let a := exactLoop P args ⟨0, none, .nowhere, false⟩ (init P.w c)
  if a.count = 0 then { a with found := .nowhere }
  else if a.count > 1 then { a with func := none, found := .ambiguous }
  else a

/-- `CompilerState.cpp:5100-5205` `findMatchingFunctionWithSafeCastsInAClassScopeOrAncestor`: the number of matches and, passed
by reference, the function, the class, and whether something is not known yet. -/
def search (P : Program n) (args : List Arg) (c : Fin n) : Result n :=
  let e := findExact P args c
  if e.count = 1 then e
  else
    let a := safeLoop P args ⟨0, e.func, .nowhere, e.hazy⟩ (init P.w c)
    if a.count = 0 then { a with found := .nowhere }
    else if a.count > 1 then { a with found := .ambiguous }
    else a

end Ulam.Overload
