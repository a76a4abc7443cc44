import Verif.Overload.Search
/-!
# The notes that explain an ambiguous call (model)

`CompilerState.cpp:5207-5294` `noteAmbiguousFunctionSignaturesInAClassHierarchy` and `SymbolFunctionName.cpp:255-282`
`noteAmbiguousFunctionSignatures`: after a call has been found ambiguous, the compiler goes over the classes again and lists
the candidates, "Match (1 of 3)", "Match (2 of 3)", ... That it finds as many as were counted before is asserted. The map from
classes to numbers is the list of its pairs, ordered by class.
-/
namespace Ulam.Overload
open Ulam.Walker (World State getNextBase getNextBase_some addAncestorPairsOf add_seen fuel_lt init isClassASubclassOf)
variable {n : Nat}

/-- `SymbolFunctionName.cpp:255-282` `noteAmbiguousFunctionSignatures`: the functions that match, in the order of the table. The
number it returns is their number. -/
def noted (T : TypeInfo) (fs : List Func) (args : List Arg) : List Func :=
  fs.filter fun f => (matchingTypes T f args false 0).1

/-- `classsafematchmap`. -/
abbrev Tally (n : Nat) := List (Fin n × Nat)

/-- `CompilerState.cpp:5233-5248`, the loop over the map: whether the class is skipped, what is taken off the count, and the map
after it. -/
def scan (w : World n) (r : Fin n) : Tally n → Bool × Nat × Tally n
  | [] => (false, 0, [])
  | (c, k) :: m =>
    if isClassASubclassOf w c r then (true, 0, (c, k) :: m)
    else if isClassASubclassOf w r c then (false, k, m)
    else ((scan w r m).1, (scan w r m).2.1, (c, k) :: (scan w r m).2.2)

/-- `std::map::insert`: nothing happens when the key is there. -/
def insertTally (r : Fin n) (k : Nat) : Tally n → Tally n
  | [] => [(r, k)]
  | (c, j) :: m => if r < c then (r, k) :: (c, j) :: m else if r = c then (c, j) :: m else (c, j) :: insertTally r k m

/-- The count and the map. -/
structure Notes (n : Nat) where
  count : Nat
  map : Tally n
  deriving DecidableEq

/-- `CompilerState.cpp:5227-5257`: what one class adds, and `safematches`. -/
def noteAt (P : Program n) (args : List Arg) (r : Fin n) (a : Notes n) : Notes n × Nat :=
  if P.funcs r = [] then (a, 0)
  else if (scan P.w r a.map).1 then (⟨a.count - (scan P.w r a.map).2.1, (scan P.w r a.map).2.2⟩, 0)
  else
    (⟨a.count - (scan P.w r a.map).2.1 + (noted P.T (P.funcs r) args).length,
      insertTally r (noted P.T (P.funcs r) args).length (scan P.w r a.map).2.2⟩, (noted P.T (P.funcs r) args).length)

/-- `CompilerState.cpp:5217-5264`, the loop over the classes. -/
def noteLoop (P : Program n) (args : List Arg) (a : Notes n) (s : State n) : Notes n :=
  match h : getNextBase P.w s with
  | none => a
  | some (r, t) =>
    if P.w.defined r then
      if (noteAt P args r a).2 = 1 then noteLoop P args (noteAt P args r a).1 t
      else noteLoop P args (noteAt P args r a).1 (addAncestorPairsOf P.w false r P.w.nouti t)
    else noteLoop P args a t
termination_by n - s.seen.card
decreasing_by
  all_goals have h1 := getNextBase_some h
  · exact fuel_lt h1.1 h1.2
  · rw [add_seen]; exact fuel_lt h1.1 h1.2
  · exact fuel_lt h1.1 h1.2

/-- A note: "Match (`no` of ...)", the class and the function. -/
structure Note (n : Nat) where
  no : Nat
  cls : Fin n
  func : Func
  deriving DecidableEq

/-- What comes of it: the notes, or the assertion that stops the compiler. -/
inductive Outcome (n : Nat)
  | notes (l : List (Note n))
  | countAssert -- `:5265`
  | classAssert -- `:5287`
  | totalAssert -- `:5292`
  deriving DecidableEq

/-- The notes of one class, numbered from `k + 1`. -/
def number (c : Fin n) : Nat → List Func → List (Note n)
  | _, [] => []
  | k, f :: fs => ⟨k + 1, c, f⟩ :: number c (k + 1) fs

/-- `CompilerState.cpp:5267-5292`, the loop that writes the notes: `k` is `count2`. -/
def writeLoop (P : Program n) (args : List Arg) (N : Nat) : Nat → List (Note n) → Tally n → Outcome n
  | k, out, [] => if k = N then .notes out else .totalAssert
  | k, out, (c, j) :: m =>
    if (noted P.T (P.funcs c) args).length = j then
      writeLoop P args N (k + (noted P.T (P.funcs c) args).length) (out ++ number c k (noted P.T (P.funcs c) args)) m
    else .classAssert

/-- `CompilerState.cpp:5207-5294` `noteAmbiguousFunctionSignaturesInAClassHierarchy`, called with the number of matches `N`. -/
def noteAmbiguous (P : Program n) (args : List Arg) (c : Fin n) (N : Nat) : Outcome n :=
  if (noteLoop P args ⟨0, []⟩ (init P.w c)).count = N then writeLoop P args N 0 [] (noteLoop P args ⟨0, []⟩ (init P.w c)).map
  else .countAssert

end Ulam.Overload
