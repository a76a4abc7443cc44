/-
The instances of a class template: when the values of all its arguments are known, a
stub either becomes a class of its own or is merged with the instance that has the
same arguments.

Modelled: the loop of `SymbolClassNameTemplate::fullyInstantiate` with the tables it
uses (instances by type number, instances by the text of their arguments), and
`CompilerState::mergeClassUTI` with the count of the types that share a key.
Simplified: the reasons why a stub must wait are a given answer; stubs that are copies
for another stub, and stubs for the template itself, are not among the instances; that a
type shares the key of an instance only by being merged with it (types of references and
arrays have keys of their own; a type of unknown name that turns out to be the instance
counts too, so that the refusal comes earlier than in the model).
-/

namespace Ulam.Merge

/-- The tables of one template: by type number the argument values once they are known, the
class symbol (named by the type it was made for) and the alias; by class symbol
whether it is a stub still and the number of types with its key; the owners, by the
text of the arguments; and the number of errors given. -/
structure St (K : Type) where
  entries : List Nat
  key : Nat → Option K
  sym : Nat → Nat
  alias : Nat → Nat
  stub : Nat → Bool
  count : Nat → Nat
  owners : List (K × Nat)
  errs : Nat

/-- No instance has been made. -/
def start (K : Type) : St K :=
  ⟨[], fun _ => none, id, id, fun _ => false, fun _ => 1, [], 0⟩

/-- Replacing one value of a function. -/
def put {α : Type} (f : Nat → α) (n : Nat) (x : α) : Nat → α := fun m => if m = n then x else f m

/-- `makeAStubClassInstance` (/repo/src/ulam/SymbolClassNameTemplate.cpp:368-425) with
`addClassInstanceUTI` (/repo/src/ulam/SymbolClassNameTemplate.cpp:329-335): a stub of its own for
a new type number (an old one fails an assertion). -/
def add {K : Type} (s : St K) (u : Nat) : St K :=
  if u ∈ s.entries then s
  else { s with entries := s.entries ++ [u], stub := put s.stub u true }

/-- The values of the arguments become known (`Resolver::statusNonreadyClassArguments`,
/repo/src/ulam/Resolver.cpp:353-372): from then on the text of the arguments stays. -/
def know {K : Type} (s : St K) (u : Nat) (k : K) : St K :=
  if u ∈ s.entries then
    match s.key u with
    | some _ => s
    | none => { s with key := put s.key u (some k) }
  else s

/-- `findClassInstanceByArgString` (/repo/src/ulam/SymbolClassNameTemplate.cpp:315-327). -/
def findOwner {K : Type} [DecidableEq K] (l : List (K × Nat)) (k : K) : Option Nat :=
  (l.find? (fun p => p.1 == k)).map Prod.snd

/-- Too common: `mergeClassUTI` (/repo/src/ulam/CompilerState.cpp:2292-2299) of type `u`, with `c` types of the
key, itself included. -/
def tooCommon (u c : Nat) : Bool := decide (u > 100) && decide (c ≥ u / 10)

/-- A duplicate (/repo/src/ulam/SymbolClassNameTemplate.cpp:1308-1330, /repo/src/ulam/CompilerState.cpp:2274-2304,
/repo/src/ulam/CompilerState.cpp:446-474): key and alias of the instance that was there, and its class symbol. -/
def merge {K : Type} (s : St K) (u o : Nat) : St K :=
  { s with
    sym := put s.sym u o
    alias := put s.alias u o
    count := put s.count o (s.count o + 1)
    errs := s.errs + (if tooCommon u (s.count o + 1) then 1 else 0) }

/-- One instance in the loop of `fullyInstantiate` (/repo/src/ulam/SymbolClassNameTemplate.cpp:1275-1380);
`ready`: its base classes are far enough (line 1332). -/
def visit {K : Type} [DecidableEq K] (s : St K) (u : Nat) (ready : Bool) : St K :=
  if u ∈ s.entries then
    if s.stub (s.sym u) then
      match s.key u with
      | none => s
      | some k =>
        match findOwner s.owners k with
        | some o => merge s u o
        | none =>
          if ready then { s with owners := s.owners ++ [(k, u)], stub := put s.stub u false } else s
    else s
  else s

/-- What happens to the instances of a template. -/
inductive Ev (K : Type) where
  | add (u : Nat)
  | know (u : Nat) (k : K)
  | visit (u : Nat) (ready : Bool)

/-- One event. -/
def step {K : Type} [DecidableEq K] (s : St K) : Ev K → St K
  | .add u => add s u
  | .know u k => know s u k
  | .visit u r => visit s u r

/-- A history. -/
def run {K : Type} [DecidableEq K] (s : St K) (h : List (Ev K)) : St K := h.foldl step s

/-- `SymbolClassNameTemplate::fullyInstantiate` (/repo/src/ulam/SymbolClassNameTemplate.cpp:1254-1384): the
instances in the order of their type numbers, given in `us`. -/
def instantiate {K : Type} [DecidableEq K] (ready : Nat → Bool) (us : List Nat) (s : St K) : St K :=
  us.foldl (fun s u => visit s u (ready u)) s

/-- The root of a type (`findRootUTIAlias`, /repo/src/ulam/CompilerState.cpp:2324-2351), which follows at most
`fuel` aliases; `none` when that is not enough (an assertion fails). -/
def root (alias : Nat → Nat) : Nat → Nat → Option Nat
  | 0, _ => none
  | fuel + 1, u => if alias u = u then some u else root alias fuel (alias u)

/-- `MAXCHAIN` (/repo/src/ulam/CompilerState.cpp:2330). -/
def maxChain : Nat := 7

end Ulam.Merge
