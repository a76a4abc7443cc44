import Verif.Walker.Model
/-!
# Questions about a class and all its ancestors (model)

Three loops over `BaseclassWalker`, on the classes and tables of `Verif/Walker/Model.lean`: whether a class or an ancestor is
still a stub, the set of registration numbers of a class and its ancestors, and what a type is mapped to.
Simplification: the flags of a class symbol are functions of its type, and a registration number is given beforehand (`Verif/Registry/Model.lean` has how it is given).
-/
namespace Ulam.Kin
open Walker
variable {n : Nat}

/-- The flags read of class symbols: `SymbolClass::isStub`, `isStubForTemplate`, and `CompilerState::isClassATemplate`. -/
structure Flags (n : Nat) where
  stub : Fin n → Bool
  stubForTemplate : Fin n → Bool
  template : Fin n → Bool

/-- The loop of `CompilerState.cpp:2929-2944`, while no stub was found. `none`: the assertion of line 2941 fails. -/
def stubLoop (w : World n) (f : Flags n) (c : Fin n) (s : State n) : Option Bool :=
  match h : getNextBase w s with
  | none => some false
  | some (r, t) =>
    if w.defined r then
      if f.stub r then
        if !f.template c || f.stubForTemplate r then some true else none
      else stubLoop w f c (addAncestorPairsOf w false r w.nouti t)
    else stubLoop w f c t
termination_by n - s.seen.card
decreasing_by
  all_goals have h1 := getNextBase_some h
  · rw [add_seen]; exact fuel_lt h1.1 h1.2
  · exact fuel_lt h1.1 h1.2

/-- `CompilerState.cpp:2920-2946` `hasClassAStubInHierarchy`. -/
def hasClassAStubInHierarchy (w : World n) (f : Flags n) (c : Fin n) : Option Bool := stubLoop w f c (init w c)

/-- The loop of `SymbolClass.cpp:2114-2124`. The bits are a function; `WriteBit` sets one of them. -/
def bitsLoop (w : World n) (reg : Fin n → Nat) (bits : Nat → Bool) (s : State n) : Nat → Bool :=
  match h : getNextBase w s with
  | none => bits
  | some (r, t) =>
    if w.defined r then
      bitsLoop w reg (fun i => if i = reg r then true else bits i) (addAncestorPairsOf w false r w.nouti t)
    else bitsLoop w reg bits t
termination_by n - s.seen.card
decreasing_by
  all_goals have h1 := getNextBase_some h
  · rw [add_seen]; exact fuel_lt h1.1 h1.2
  · exact fuel_lt h1.1 h1.2

/-- `SymbolClass.cpp:2104-2126` `buildIsBitVectorByRegNum`, for the class `c`. -/
def buildIsBitVectorByRegNum (w : World n) (reg : Fin n → Nat) (c : Fin n) (bits : Nat → Bool) : Nat → Bool :=
  bitsLoop w reg bits (init w c)

/-- The loop of `SymbolClass.cpp:1063-1073`, while nothing was found; `map x` is the map of the resolver of class `x`, as
`resolveHasMappedUTI` (`SymbolClass.cpp:1082-1088`) asks it. -/
def mappedLoop (w : World n) (map : Fin n → Nat → Option Nat) (a : Nat) (s : State n) : Option Nat :=
  match h : getNextBase w s with
  | none => none
  | some (r, t) =>
    if w.defined r then
      match map r a with
      | some u => some u
      | none => mappedLoop w map a (addAncestorPairsOf w false r w.nouti t)
    else mappedLoop w map a t
termination_by n - s.seen.card
decreasing_by
  all_goals have h1 := getNextBase_some h
  · rw [add_seen]; exact fuel_lt h1.1 h1.2
  · exact fuel_lt h1.1 h1.2

/-- `SymbolClass.cpp:1053-1075` `hasMappedUTI`, for the class `c`: what the type `a` is mapped to. -/
def hasMappedUTI (w : World n) (map : Fin n → Nat → Option Nat) (c : Fin n) (a : Nat) : Option Nat :=
  mappedLoop w map a (init w c)

end Ulam.Kin
