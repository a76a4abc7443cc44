import Verif.GenPos.Model
/-!
# What a reference is initialised with (model)

`Node.cpp`: the code generated for `T& r = a.b.c`, and for a reference that is passed to, or returned by, a function. The symbols
and the simplifications are those of `Verif.GenPos.Model` (C103): no elements inside of transients, no array items, no constants.
The reference has the type of what it is initialised with, for which `NodeCast::needsACast` (`NodeCast.cpp:2679`) asks for no cast;
references to a base of that, to atoms and to strings are left out, and so is `super` as the first symbol. The symbols are one
(`self`, a variable, a parameter), or the last of them is a data member. Of the reference made, the position and the effective self
are kept; how far it is from the start of its effective self is left to `UlamRef`, which is in the MFM library.
-/
namespace Ulam.RefInit
open Ulam.GenPos
variable {C : Type} [DecidableEq C]

/-- The position in the `UVPass`, from `pos` on: `NodeIdent.cpp:1148-1177` `makeUVPassForCodeGen` adds that of a data member,
`NodeMemberSelectByBaseClassType.cpp:509-543` starts again at 0. The other symbols come first. -/
def passPos (pos : Nat) : List (Sym C) → Nat
  | [] => pos
  | .dm _ off _ :: l => passPos (pos + off) l
  | .base _ :: l => passPos 0 l
  | _ :: l => passPos pos l

/-- The type of the last symbol, `cosuti`. -/
def lastType : List (Sym C) → Option C
  | [] => none
  | [.self c] => some c
  | [.super c] => some c
  | [.loc c _] => some c
  | [.base c] => some c
  | [.dm _ _ t] => some t
  | _ :: x :: l => lastType (x :: l)

/-- The last symbol is a data member, `cos->isDataMember()`. -/
def lastMember (chain : List (Sym C)) : Bool := (lastDecl chain).isSome

/-- The reference made: its position, and its effective self for one to a class. -/
structure Made (C : Type) where
  pos : Int
  eff : Option C
  deriving DecidableEq

/-- `Node.cpp:2481-2551`: the first symbol is a variable, not a reference. `v` is the type of the reference, `prim` that it is not a
class. -/
def fromVariable (L : Lay C) (me c : C) (prim : Bool) (v : C) (chain : List (Sym C)) : Option (Made C) :=
  if prim = false ∧ c = v then some ⟨0, some v⟩
  else
    let asks := askEff me none chain
    let at' := if (asks = false ∨ chain.length > 2) ∧ (hasBase chain = true ∨ lastMember chain = true) then calcPos L false me chain
      else some (passPos 0 chain : Int)
    at'.map fun p => ⟨p, if prim then none else lastType chain⟩

/-- `Node.cpp:2566-2614`: a reference to a class, from the reference `r`. The number of no class is asserted against
(`CompilerState.cpp:7293-7295`). -/
def classFromRef (L : Lay C) (me : C) (r : Ref C) (v : C) (chain : List (Sym C)) : Option (Made C) :=
  let eff := if lastMember chain then v else r.eff
  if askEff me none chain then
    let asked := if chain.length > 2 then chain[1]?.bind declOf else lastDecl chain
    asked.bind fun d => (relPos L r.eff d).map fun z => ⟨r.pos + (z - r.toEff + passPos 0 chain), some eff⟩
  else some ⟨r.pos + passPos 0 chain, some eff⟩

/-- `Node.cpp:2627-2669`: a reference to what is not a class, from the reference `r`. -/
def primFromRef (L : Lay C) (me : C) (r : Ref C) (chain : List (Sym C)) : Option (Made C) :=
  if askEff me none chain then
    (lastDecl chain).bind fun d => (relPos L r.eff d).map fun z => ⟨r.pos + (z - r.toEff + passPos 0 chain), none⟩
  else (calcPos L false me chain).map fun p => ⟨r.pos + p, none⟩

/-- `Node.cpp:2425-2674` `genCodeReferenceInitialization`; `r` is what the first symbol is if that is a reference, or the
reference the function was called with for `self`. -/
def refInit (L : Lay C) (me : C) (prim : Bool) (v : C) (r : Ref C) (chain : List (Sym C)) : Option (Made C) :=
  match chain with
  | .loc c false :: _ => fromVariable L me c prim v chain
  | .loc _ true :: _ => if prim then primFromRef L me r chain else classFromRef L me r v chain
  | .self _ :: _ => if prim then primFromRef L me r chain else classFromRef L me r v chain
  | _ => none

end Ulam.RefInit
