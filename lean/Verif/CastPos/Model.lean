import Verif.RefInit.Model
/-!
# Casting to a base class, in the generated code (model)

`NodeCast.cpp`: the reference that is made for `(B&) a.b.c`, for `B& r = a.b.c` and for the value `(B) a.b.c`, which is then read
through it (C123), when the type of `a.b.c` is a class that has `B` for a base, or is `B`, or a base of it.

The symbols and the simplifications are those of C103 and C137: the classes are quarks or transients (an element's state would begin
25 bits on), the symbols are variables, references, `self` and data members, and there are symbols (the value is not in a temporary
variable). The reference made is at the position of the storage plus the position given, as for C103; the effective self is as given,
and how far the reference is from its start where the constructor is told (that of a reference from storage).
-/
namespace Ulam.CastPos
open Ulam.GenPos Ulam.RefInit
variable {C : Type} [DecidableEq C]

/-- The reference made. -/
structure Made (C : Type) where
  pos : Int
  eff : C
  toEff : Option Int
  deriving DecidableEq

/-- The type of the last symbol is a reference, and what that is to. References are not data members. -/
def lastIsRef : List (Sym C) → Bool
  | [.loc _ ref] => ref
  | [.self _] => true
  | _ => false

/-- `getPosOffset` of the last symbol, a data member. -/
def lastOffset (chain : List (Sym C)) : Nat := match chain.getLast? with
  | some (.dm _ off _) => off
  | _ => 0

def isSelf : List (Sym C) → Bool
  | .self _ :: _ => true
  | _ => false

/-- `NodeCast.cpp:2480-2607` `genPositionOfBaseIntoATmpVar` where there are symbols: from class `v` to class `b`; `r` is what the
first symbol is if that is a reference. -/
def basePos (L : Lay C) (r : Ref C) (v b : C) (chain : List (Sym C)) : Option Int :=
  if L.sub b v then
    if lastIsRef chain then (relPos L r.eff b).map (· - r.toEff) else none
  else if L.sub v b then
    if lastIsRef chain then (relPos L r.eff b).map (· - r.toEff) else (L.rel v b).map Int.ofNat
  else if isSelf chain ∧ chain.length > 1 then some (lastOffset chain)
  else some 0

/-- The class that declares the first data member, or the only one; `NodeCast.cpp:2096-2098` and `2258-2260`. -/
def declared (chain : List (Sym C)) : Option C := if chain.length > 2 then chain[1]?.bind declOf else lastDecl chain

/-- The generated `BAD_CAST` check, `NodeCast.cpp:2040-2059`: the class `b`, not the object, is asked whether it has the class `v`
(`NodeBlockClass.cpp:3355-3397`). -/
def badCast (L : Lay C) (v b : C) : Bool := L.sub b v && (L.rel b v).isNone

/-- From a member of a variable of class `c`: `NodeCast.cpp:2090-2150` (not a reference), then `2218-2291`. -/
def fromMemberOfVariable (L : Lay C) (r : Ref C) (c v b : C) (chain l : List (Sym C)) : Option (Made C) :=
  (fromFirst L l).bind fun dm =>
    if dm ≠ passPos 0 chain then none
    else (basePos L r v b chain).bind fun z => (declared chain).bind fun d =>
      (if d = c then some 0 else (L.rel c d).map Int.ofNat).map fun q =>
        ⟨z + (if b = v then 0 else dm) + q, v, some z⟩

/-- From a member of what the reference `r`, of class `c`, is to: `NodeCast.cpp:2090-2150`, then `2200-2216`, `2292-2299`. -/
def fromMemberOfRef (L : Lay C) (r : Ref C) (c v b : C) (chain l : List (Sym C)) : Option (Made C) :=
  (fromFirst L l).bind fun dm =>
    if b = v then
      if dm ≠ passPos 0 chain then none
      else (basePos L r v b chain).map fun z => ⟨r.pos + z, v, none⟩
    else (declared chain).bind fun d =>
      (if d = c then some 0 else (relPos L r.eff d).map (· - r.toEff)).bind fun q =>
        (basePos L r v b chain).map fun z => ⟨(r.pos + (q + dm)) + z, v, none⟩

/-- `NodeCast.cpp:2026-2357` `genCodeCastDescendant`; `none` is a failed assertion, a failed check, or a failed search for a part of
the object. -/
def castTo (L : Lay C) (r : Ref C) (b : C) (chain : List (Sym C)) : Option (Made C) :=
  (lastType chain).bind fun v =>
    if L.sub v b = false ∧ L.sub b v = false ∧ v ≠ b then none
    else if badCast L v b then none
    else match chain with
      | [.loc c false] => (basePos L r v b chain).map fun z => ⟨z, c, some z⟩
      | [.loc _ true] => (basePos L r v b chain).map fun z => ⟨r.pos + z, r.eff, none⟩
      | [.self _] => (basePos L r v b chain).map fun z => ⟨r.pos + z, r.eff, none⟩
      | .loc c false :: l => fromMemberOfVariable L r c v b chain l
      | .loc c true :: l => fromMemberOfRef L r c v b chain l
      | .self c :: l => fromMemberOfRef L r c v b chain l
      | _ => none

end Ulam.CastPos
