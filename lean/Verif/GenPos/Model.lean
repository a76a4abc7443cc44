/-!
# Where the generated code finds a member (model)

`Node.cpp`: the position written for `a.b.c` when a member of a member is read, or when a function of it is called. The
evaluator's counterpart is C80.

Simplifications. Types are classes: references are told apart by a flag of the symbol they are the type of, aliases are left out.
The symbols are those of variables, `self`, `super` and base classes selected by name: array items, results of functions and casts
(temporary variables that are not bases), constants and model parameters are left out, and so are elements inside of transients,
for which the 25 bits of an atom's type are added (`ATOM_FIRST_STATE_BIT`). Where the parts of an object are is a parameter:
`getABaseClassRelativePositionInAClass` is C15, the function `GetRelPos` of the generated program is C78. Positions are integers
without a limit. `UlamRef` is in the MFM library: it is taken that `UlamRef(r, p, …)` is at the position of `r` plus `p`, and that
`GetPosToEffectiveSelf` tells how far `r` is from the start of the object.
-/
namespace Ulam.GenPos
variable {C : Type} [DecidableEq C]

/-- `CompilerState.cpp:2796-2866` `getABaseClassRelativePositionInAClass` and `isClassASubclassOf`. -/
structure Lay (C : Type) where
  rel : C → C → Option Nat
  sub : C → C → Bool

/-- What is in `m_currentObjSymbolsForCodeGen`: `self` and `super`, a local variable or parameter (`ref` for a reference), a base
class selected by name (`NodeMemberSelectByBaseClassType.cpp:460-483`), a data member with the class that declares it, its position
there (`getPosOffset`) and its type. -/
inductive Sym (C : Type)
  | self (c : C) | super (c : C) | loc (c : C) (ref : Bool) | base (c : C) | dm (decl : C) (off : Nat) (ty : C)
  deriving DecidableEq

/-- The variables of the loop. -/
structure St (C : Type) where
  pos : Int
  cuti : C
  first : Nat

/-- `isClassASubclassOf` and, if so, `getABaseClassRelativePositionInAClass`, which is asserted; `Node.cpp:4941-4948`. -/
def subPos (L : Lay C) (c d : C) : Option Int := if L.sub c d then (L.rel c d).map Int.ofNat else some 0

/-- One turn of the loop `Node.cpp:4880-4971`; `none` is a failed assertion. -/
def calcStep (L : Lay C) (asking : Bool) (i : Nat) (s : St C) : Sym C → Option (St C)
  | .self c => if c = s.cuti then some ⟨s.pos, c, s.first + 1⟩ else none
  | .super c => (L.rel s.cuti c).map fun q => ⟨s.pos + q, c, s.first + 1⟩
  | .loc c _ => some ⟨s.pos, c, s.first + 1⟩
  | .base _ => some ⟨s.pos, s.cuti, s.first + 1⟩
  | .dm decl off ty =>
    if i > s.first then (subPos L s.cuti decl).map fun q => ⟨s.pos + q + off, ty, s.first⟩
    else if i = s.first then
      if asking then some ⟨s.pos + off, ty, s.first⟩
      else (subPos L s.cuti decl).map fun q => ⟨s.pos + off + q, ty, s.first⟩
    else none

def calcLoop (L : Lay C) (asking : Bool) : Nat → St C → List (Sym C) → Option (St C)
  | _, s, [] => some s
  | i, s, x :: l => match calcStep L asking i s x with
    | none => none
    | some t => calcLoop L asking (i + 1) t l

/-- `Node.cpp:4867-4982` `calcDataMemberPosOfCurrentObjectClasses`, `funcclassarg` being `Nouti`; `me` is the class of the current
self. -/
def calcPos (L : Lay C) (asking : Bool) (me : C) (chain : List (Sym C)) : Option Int :=
  (calcLoop L asking 0 ⟨0, me, 0⟩ chain).map St.pos

/-- The loop `Node.cpp:5001-5038`; a base selected by name after a data member is not implemented (`abortNeedsATest`). -/
def fromFirstLoop (L : Lay C) (cuti : C) (pos : Int) : List (Sym C) → Option Int
  | [] => some pos
  | .dm decl off ty :: l =>
    match L.rel cuti decl with
    | some q => fromFirstLoop L decl (pos + q + off) l
    | none => fromFirstLoop L ty (pos + off) l
  | _ :: _ => none

/-- `Node.cpp:4985-5041` `calcDataMemberPosOfCurrentObjectClassesFromFirstDMIndex` on the symbols from that index on. -/
def fromFirst (L : Lay C) : List (Sym C) → Option Int
  | .dm decl off _ :: l => fromFirstLoop L decl off l
  | _ => none

/-- The symbols from the first data member on, `Node.cpp:4758-4780` `isCurrentObjectsContainingFirstDataMember`. -/
def fromFirstDM (chain : List (Sym C)) : List (Sym C) :=
  chain.dropWhile fun x => match x with | .dm .. => false | _ => true

/-- `getDataMemberClass` of the symbol, `none` for `Nouti`. -/
def declOf : Sym C → Option C
  | .dm decl _ _ => some decl
  | _ => none

/-- `Node.cpp:4704-4719` `isCurrentObjectsContainingABaseTypeTmpSymbol() > -1`. -/
def hasBase (chain : List (Sym C)) : Bool := chain.any fun x => match x with | .base _ => true | _ => false

/-- `Node.cpp:5046-5092` `askEffectiveSelfAtRuntimeForRelPosOfBase`, for a chain that ends in a data member; `fclass` is the class of
the function called, if one is. -/
def askEff (me : C) (fclass : Option C) (chain : List (Sym C)) : Bool :=
  match chain with
  | [] => false
  | .super s :: l =>
    match fclass with
    | none => match l.head?.bind declOf with
      | some d => decide (d ≠ s)
      | none => true
    | some _ => true
  | .dm .. :: _ => false
  | .self _ :: l =>
    match l.head?.bind declOf with
    | some d => decide (d ≠ me)
    | none => if hasBase (chain) then true else decide (l ≠ []) || fclass.any fun f => decide (f ≠ me)
  | .loc c true :: l =>
    match l.head?.bind declOf with
    | some d => decide (d ≠ c)
    | none => if hasBase (chain) then true else decide (l ≠ []) || fclass.any fun f => decide (f ≠ c)
  | _ => false

/-- The class that declares the last symbol. -/
def lastDecl (chain : List (Sym C)) : Option C := chain.getLast?.bind declOf

/-- A `UlamRef` of the running program: the class of the object it is to a part of, its position, and how far that is from the
start of the object. -/
structure Ref (C : Type) where
  eff : C
  pos : Int
  toEff : Int

/-- `GetEffectiveSelf()->…GetRelativePositionOfBaseClassWithCheck(regnum)`, `CompilerState.cpp:5754-5762`: C78, and the program stops
for a class that is not a part of the object. The function with the check is in the MFM library. -/
def relPos (L : Lay C) (eff c : C) : Option Int := (L.rel eff c).map Int.ofNat

/-- The class whose position the program asks for when a member is reached from `self` or `super`, `Node.cpp:3482-3514`. -/
def askedClass (chain : List (Sym C)) : Option C :=
  match chain with
  | .super s :: _ => some s
  | _ => if chain.length > 2 then
      match chain[1]?.bind declOf with
      | some d => some d
      | none => lastDecl chain
    else lastDecl chain

/-- `Node.cpp:3427-3582` `genMemberNameOfMethod`: where the program reads a member reached from `self` or `super`; `ur` is the
reference the function was called with. -/
def memberRead (L : Lay C) (me : C) (ur : Ref C) (chain : List (Sym C)) : Option Int :=
  match calcPos L (askEff me none chain) me chain with
  | none => none
  | some p =>
    if askEff me none chain then (askedClass chain).bind fun d =>
      (relPos L ur.eff d).map fun z => ur.pos + (z - ur.toEff + p)
    else some (ur.pos + p)

/-- `Node.cpp:4039-4205` `genLocalMemberNameOfMethodByUsTypedef`: where the program reads a member of a local variable, from the
start of the variable, or of a reference. The position in the `UVPass` is that of the member
(`NodeIdent.cpp:1148-1177`). -/
def localRead (L : Lay C) (me : C) (r : Ref C) (chain : List (Sym C)) : Option Int :=
  match chain with
  | .loc c ref :: l =>
    if askEff me none chain then
      match fromFirstDM l with
      | [.dm decl off _] => (relPos L r.eff decl).map fun z => r.pos + (z - r.toEff + off)
      | .dm decl off ty :: m =>
        (fromFirst L (.dm decl off ty :: m)).bind fun p => (relPos L r.eff decl).map fun z => r.pos + (z - r.toEff + p)
      | _ => none
    else if ref then (calcPos L false me chain).map fun p => r.pos + p
    else (calcPos L false me (.loc c ref :: l))
  | _ => none

/-- `Node.cpp:3749-3787`: the reference made for a function called on a member reached from `self`, no base being selected by
name. `fclass` is the class of the function; the step from the member to that class comes after (`Node.cpp:3971-4009`). -/
def selfCall (L : Lay C) (me : C) (ur : Ref C) (fclass : C) (chain : List (Sym C)) : Option Int :=
  match calcPos L (askEff me (some fclass) chain) me chain with
  | none => none
  | some p =>
    if askEff me (some fclass) chain then (lastDecl chain).bind fun d =>
      (relPos L ur.eff d).map fun z => ur.pos + (p + z - ur.toEff)
    else some (ur.pos + p)

end Ulam.GenPos
