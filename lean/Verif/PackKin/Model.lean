import Verif.Walker.Model
/-!
# Packing a class and all its ancestors (model)

`CompilerState::tryToPackAClass` and `tryToPackAClassHierarchy`, on the classes and tables of `Verif/Walker/Model.lean`. The
effect of packing one class is not modelled here (`Verif/Layout/Model.lean` has it); which classes are packed is. Simplification:
the assertions that a type is a class and can be continued with are left out, and the answer for one class does not change
while others are packed.
-/
namespace Ulam.PackKin
open Walker
variable {n : Nat}

/-- `TBOOL`, `include/Constants.h:128`. -/
inductive TBool where
  | no
  | yes
  | hazy
  deriving DecidableEq

/-- What is read of a class: whether its type is complete, whether it has a size, and what
`SymbolClass::packBitsForClassVariableDataMembers` answers for it. -/
structure Info (n : Nat) where
  complete : Fin n → Bool
  sized : Fin n → Bool
  packBits : Fin n → TBool

/-- `CompilerState.cpp:1777-1797` `tryToPackAClass`. -/
def tryToPackAClass (i : Info n) (c : Fin n) : TBool :=
  if !i.complete c then .hazy else if i.sized c then i.packBits c else .yes

/-- The loop of `CompilerState.cpp:1816-1831`: the answer, and the classes that were tried, in order. -/
def packLoop (w : World n) (i : Info n) (rtntb : TBool) (s : State n) : TBool × List (Fin n) :=
  match h : getNextBase w s with
  | none => (rtntb, [])
  | some (r, t) =>
    if w.defined r then
      if tryToPackAClass i r ≠ .yes then (tryToPackAClass i r, [r])
      else
        let q := packLoop w i rtntb (addAncestorPairsOf w false r w.nouti t)
        (q.1, r :: q.2)
    else packLoop w i .no t
termination_by n - s.seen.card
decreasing_by
  all_goals have h1 := getNextBase_some h
  · rw [add_seen]; exact fuel_lt h1.1 h1.2
  · exact fuel_lt h1.1 h1.2

/-- `CompilerState.cpp:1799-1834` `tryToPackAClassHierarchy`: the answer, and the classes tried. -/
def tryToPackAClassHierarchy (w : World n) (i : Info n) (c : Fin n) : TBool × List (Fin n) :=
  if !i.complete c then (.hazy, []) else packLoop w i .yes (init w c)

end Ulam.PackKin
