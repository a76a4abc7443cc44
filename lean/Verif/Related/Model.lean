import Verif.Layout.Model
/-!
# Related classes: generated class information, `is`, `as`, and pointers to parts of objects (model)

Types are numbers, as in `Verif/Walker/Model.lean`; relative positions come from `Verif/Layout/Model.lean`.
-/
namespace Ulam.Related
open Walker Layout
variable {n : Nat}

/-- `UNKNOWNSIZE`, `include/Constants.h:192-194`. -/
def unknownSize : Int := -2

/-- A decimal literal read as the `s32` returned. -/
def toS32 (x : Nat) : Int := if x % 2 ^ 32 < 2 ^ 31 then (x % 2 ^ 32 : Nat) else (x % 2 ^ 32 : Nat) - 2 ^ 32

/-! ## Generated class information -/

/-- `tmpmapbyrn` of `NodeBlockClass.cpp:3510-3528` and `3839-3857`: registration number and item, in order of insertion. The
map keeps the first value inserted for a key. -/
def related (w : World n) (reg : Fin n → Nat) (c : Fin n) : List (Nat × Nat) :=
  (reg c, 0) :: ((sharedTable w c).zipIdx.filter fun x => decide (x.1 ≠ w.nouti)).map fun x => (reg x.1, x.2 + 1)

/-- The position written for a case, `NodeBlockClass.cpp:3534-3559`: `getSharedBaseClassRelativePosition` is
`SymbolClass.cpp:434-438`. -/
def casePosition (P : Fin n → Option Packed) (c : Fin n) (k : Nat) : Int :=
  if k = 0 then 0
  else match (P c).bind fun p => (p.shared[k - 1]?).join with
    | some q => toS32 q
    | none => unknownSize

/-- The function written by `NodeBlockClass.cpp:3439-3561`
`genCodeBuiltInFunctionGetRelPosMethodRelatedInstanceByRegistrationNumber` and
`genCodeBuiltInFunctionGetRelPosRelatedInstanceByRegistrationNumber`: a switch on the number, otherwise -999999. -/
def getRelPos (w : World n) (P : Fin n → Option Packed) (reg : Fin n → Nat) (c : Fin n) (rn : Nat) : Int :=
  match (related w reg c).lookup rn with
  | some k => casePosition P c k
  | none => -999999

/-- The functions written by `NodeBlockClass.cpp:3310-3352` and `3355-3396`
`genCodeBuiltInIsMethodByRegistrationNumber`. -/
def isRelated (w : World n) (P : Fin n → Option Packed) (reg : Fin n → Nat) (c : Fin n) (rn : Nat) : Bool :=
  decide (getRelPos w P reg c rn ≥ 0)

/-- The function written by `NodeBlockClass.cpp:3563-3610` `genCodeBuiltInFunctionNumberOfBases`. -/
def numberOfBases (w : World n) (c : Fin n) : Nat := (sharedTable w c).length + 1

/-- The function written by `NodeBlockClass.cpp:3612-3659` `genCodeBuiltInFunctionNumberOfDirectBases`, with
`SymbolClass.cpp:198-211` `countDirectSharedBases`. -/
def numberOfDirectBases (w : World n) (c : Fin n) : Nat :=
  ((w.table c).filter fun e => decide (e.base ≠ w.nouti ∧ e.shared > 0)).length + 1

/-- `NodeBlockClass.cpp:3718-3771` `generateBuiltInFunctionGetOrderedBaseClassEntry`: the classes returned for 0, 1, …
Simplification: `okUTItoContinue` of a base of a complete class fails for the absent superclass only. -/
def orderedBases (w : World n) (c : Fin n) : List (Fin n) :=
  c :: (((w.table c).map (·.base)).filter fun b => decide (b ≠ w.nouti)) ++
    (sharedTable w c).filter fun b => (baseItem w c b).isNone

/-- The function written by `NodeBlockClass.cpp:3661-3717` `genCodeBuiltInFunctionGetOrderedBaseClass`; `none` is `NULL`. -/
def getOrderedBaseClass (w : World n) (c : Fin n) (i : Nat) : Option (Fin n) := (orderedBases w c)[i]?

/-- The function written by `NodeBlockClass.cpp:3773-3896` `genCodeBuiltInFunctionIsDirectBaseClass` and
`genCodeBuiltInFunctionIsDirectBaseClassByRegistrationNumber`. -/
def isDirectBaseClass (w : World n) (reg : Fin n → Nat) (c : Fin n) (rn : Nat) : Bool :=
  match (related w reg c).lookup rn with
  | some 0 => false
  | some (k + 1) => match (sharedTable w c)[k]? with
    | some b => (baseItem w c b).isSome
    | none => false
  | none => false

/-! ## `is` and `as` -/

/-- What the conditionals and pointers read besides: positions, the kind of a class (also of a reference to it), whether a
type is `Atom` or a reference to it, whether it is a reference (`isReference`), a reference other than one made by `as`
(`isAltRefType`), and whether a transient has more than 71 bits. -/
structure Env (n : Nat) where
  w : World n
  P : Fin n → Option Packed
  kind : Fin n → Kind
  atom : Fin n → Bool
  isRef : Fin n → Bool
  alt : Fin n → Bool
  big : Fin n → Bool

/-- A pointer of the evaluator, `include/UlamValue.h:61-72`: target type, effective self (`nouti` if none) and position.
Slot, storage and length are left out. -/
structure Ptr (n : Nat) where
  target : Fin n
  eff : Fin n
  pos : Nat
  deriving DecidableEq

/-- A value of the evaluator, `include/UlamValue.h:55-59`: type and effective self; the bits are left out. -/
structure Stored (n : Nat) where
  type : Fin n
  eff : Fin n
  deriving DecidableEq

/-- `UlamType::compare` on complete types. -/
def same (w : World n) (a b : Fin n) : Bool := decide (w.root a = w.root b)

/-- `UlamType.cpp:678-681` `compareForUlamValueAssignment` on complete types: the same up to the kind of reference. -/
def wild (w : World n) (a b : Fin n) : Bool := decide (w.root (w.deref a) = w.root (w.deref b))

/-- `NodeConditionalIs.cpp:177-246` `eval`: `v` is the value the pointer `p` is to. -/
def evalIs (e : Env n) (p : Ptr n) (v : Stored n) (r : Fin n) : Bool :=
  let leff := if p.eff = e.w.nouti then (if e.atom v.type then v.eff else v.type) else p.eff
  let luti := if wild e.w leff v.type then v.type else p.target
  if e.atom luti then
    decide (v.eff ≠ e.w.nouti) && (same e.w v.eff r || isClassASubclassOf e.w v.eff r)
  else same e.w (e.w.deref luti) r || isClassASubclassOf e.w (e.w.deref luti) r || same e.w leff r ||
    isClassASubclassOf e.w leff r

/-- `NodeConditionalAs.cpp:301-333`: `luti`, `leffself` and `leftisatom`. -/
def asLeft (e : Env n) (p : Ptr n) (v : Stored n) : Fin n × Fin n × Bool :=
  if e.atom p.target || e.atom v.type then
    if p.eff ≠ e.w.nouti then (p.eff, p.eff, true)
    else if v.eff ≠ e.w.nouti then (v.eff, v.eff, true)
    else if v.type ≠ e.w.nouti ∧ e.atom v.type = false then (v.type, v.type, true)
    else (p.target, p.eff, true)
  else (p.target, p.eff, false)

/-- `NodeConditionalAs.cpp:335-402`: `asit`; `none` is `UNEVALUABLE`. -/
def asTest (e : Env n) (luti leff r : Fin n) : Option Bool :=
  match e.kind r with
  | .quark =>
    if decide (leff ≠ e.w.nouti) && wild e.w leff r then some true
    else if isClassASubclassOf e.w luti r then some true
    else if decide (leff ≠ e.w.nouti) && isClassASubclassOf e.w leff r then some true
    else if e.atom luti then none
    else if e.kind luti = .transient ∧ e.big luti = true then none
    else some false
  | .element =>
    if e.atom luti then none
    else some (same e.w (if leff = e.w.nouti then luti else leff) r)
  | .transient => some (isClassASubclassOf e.w luti r)

/-- `NodeConditionalAs.cpp:285-461` `eval`: the truth value. -/
def evalAs (e : Env n) (p : Ptr n) (v : Stored n) (r : Fin n) : Option Bool :=
  asTest e (asLeft e p v).1 (asLeft e p v).2.1 r

/-- How the left side of a conditional is declared. -/
inductive Left (n : Nat)
  | atom
  | reference (t : Fin n)
  | object (t : Fin n)

/-- What is asked of the library for an atom: the class of an element type. -/
abbrev Lookup (n : Nat) := Nat → Option (Fin n)

/-- The code written by `NodeConditionalIs.cpp:248-401` and `NodeConditionalAs.cpp:463-617`: the test made at run time. `k`
is the class of the object (its effective self; for an atom, the class of the element in it), `elt` gives element types.
For an atom and a class that is not an element, the library looks up the class and asks it. -/
def generated (e : Env n) (reg elt : Fin n → Nat) (lookup : Lookup n) (l : Left n) (k r : Fin n) : Bool :=
  match l with
  | .object t => isRelated e.w e.P reg t (reg r)
  | .reference _ => isRelated e.w e.P reg k (reg r)
  | .atom =>
    if e.kind r = .element then decide (elt r = elt k)
    else match lookup (elt k) with
      | some c => isRelated e.w e.P reg c (reg r)
      | none => false

/-- `NodeConditionalAs.cpp:151-241`, part of `checkAndLabelType`: is the kind of the right side accepted for the left side?
Both are complete scalars, and the right side is a class. -/
def accepted (e : Env n) (l : Left n) (r : Fin n) : Bool :=
  match l with
  | .atom => e.kind r != .transient
  | .object t => match e.kind t with
    | .element => e.kind r != .transient
    | .transient => e.kind r != .element
    | .quark => e.kind r == .quark
  | .reference t => match e.kind t with
    | .element => e.kind r != .transient
    | .transient => e.kind r != .element
    | .quark => true

/-! ## Pointers to parts of objects -/

/-- `getABaseClassRelativePositionInAClass`. -/
def rel (e : Env n) (c b : Fin n) : Option Nat := relativePosition e.w e.P c b

/-- `UlamValue.cpp:389-395` `setPtrPos` with the arithmetic before it in 32 bits: fails above 96. -/
def setPos (x : Int) : Option Nat := if x % 2 ^ 32 ≤ 96 then some (x % 2 ^ 32).toNat else none

/-- The position set by `UlamValue.cpp:166-228` `makePtr` for a class. Simplification: the check that the object ends before
bit 96 is reduced to its position. -/
def makePos (x : Int) : Option Nat :=
  if x % 2 ^ 32 = 0 then some 25 else if x % 2 ^ 32 ≤ 96 then some (x % 2 ^ 32).toNat else none

/-- `NodeCast.cpp:656-791` `evalToStoreInto` for a class `node` cast to the class or reference `tobe`. Left out: the check of
the stored value (`NodeCast.cpp:703`), and the case of a data member as the operand (`NodeCast.cpp:737-740`). -/
def castRef (e : Env n) (p : Ptr n) (node tobe : Fin n) : Option (Ptr n) :=
  if same e.w node tobe then some p
  else if (e.isRef node || e.isRef tobe) && wild e.w node tobe then some { p with target := tobe }
  else
    let d := e.w.deref tobe
    let k := if p.eff = e.w.nouti then node else p.eff
    if isClassASubclassOf e.w k d then do
      let a ← rel e k d
      let b ← rel e k node
      let pos ← setPos (p.pos + a - b)
      some ⟨tobe, p.eff, pos⟩
    else if isClassASubclassOf e.w d node then do
      let a ← rel e d node
      let pos ← setPos (p.pos - a)
      some ⟨tobe, p.eff, pos⟩
    else some { p with target := tobe }

/-- `NodeCast.cpp:763-781`: an atom, stored in `v`, cast to the class or reference `tobe`. -/
def castAtom (e : Env n) (p : Ptr n) (v : Stored n) (tobe : Fin n) : Option (Ptr n) :=
  match rel e v.eff (e.w.deref tobe) with
  | some a => do
    let pos ← setPos (p.pos + a + (if e.atom v.type then 25 else 0))
    some ⟨tobe, v.eff, pos⟩
  | none => some ⟨tobe, v.eff, p.pos⟩

/-- `NodeIdent.cpp:980-1016`, part of `makeUlamValuePtr`: `self` in a function of class `t`; `p` is the current self. -/
def selfPtr (e : Env n) (p : Ptr n) (t : Fin n) : Option (Ptr n) :=
  let k := if p.eff = e.w.nouti then p.target else p.eff
  if wild e.w p.target t then some { p with eff := k }
  else do
    let b ← (if p.target ≠ k then rel e k p.target else some 0)
    let a ← rel e k t
    let pos ← setPos (p.pos - b + a)
    some ⟨e.w.deref t, k, pos⟩

/-- `NodeIdent.cpp:1017-1041`, part of `makeUlamValuePtr`: `super`. -/
def superPtr (e : Env n) (p : Ptr n) (t : Fin n) : Option (Ptr n) := do
  let a ← rel e p.target t
  let b ← rel e p.eff p.target
  let pos ← setPos (p.pos + a - b)
  some ⟨t, p.eff, pos⟩

/-- `NodeMemberSelectByBaseClassType.cpp:389-458` `evalToStoreInto`: the part of base class `t`. Without an effective self an
assertion fails. -/
def selectBase (e : Env n) (p : Ptr n) (t : Fin n) : Option (Ptr n) :=
  if p.eff = e.w.nouti then none
  else do
    let a ← rel e p.eff t
    let b ← (if isClassASubclassOf e.w p.eff p.target then rel e p.eff p.target else some 0)
    let pos ← setPos (p.pos - b + a)
    some ⟨e.w.deref t, p.eff, pos⟩

/-- `NodeIdent.cpp:1068-1127`, part of `makeUlamValuePtr`: the position of the data member at offset `off` of class `d`, in
the object `p`. -/
def memberPos (e : Env n) (p : Ptr n) (d : Fin n) (off : Nat) : Option Nat :=
  let eff := if p.eff = e.w.nouti then p.target else p.eff
  let o : Fin n × Nat :=
    if e.atom p.target then (p.eff, if e.kind p.eff = .element then 25 else p.pos)
    else if e.alt p.target && !wild e.w p.target d && decide (p.eff ≠ e.w.nouti) then
      (p.eff, if e.kind p.eff = .element then 25 else p.pos)
    else (p.target, p.pos)
  if wild e.w d o.1 then makePos (o.2 + off)
  else do
    let a ← (if isClassASubclassOf e.w eff d then rel e eff d else some 0)
    let b ← (if wild e.w eff o.1 then some 0 else rel e eff o.1)
    makePos (o.2 - b + a + off)

/-- `NodeConditionalAs.cpp:404-444`: the pointer set when `as` holds. -/
def asPtr (e : Env n) (p : Ptr n) (v : Stored n) (r : Fin n) : Option (Ptr n) :=
  let luti := (asLeft e p v).1
  let leff := (asLeft e p v).2.1
  let k := if leff = e.w.nouti then luti else leff
  do
    let a ← (if e.kind r ≠ .element ∧ isClassASubclassOf e.w k r then rel e k r else some 0)
    let b ← (if e.kind r ≠ .element ∧ isClassASubclassOf e.w k luti then rel e k luti else some 0)
    let pos ← makePos (p.pos + a - b + (if ((asLeft e p v).2.2 || e.atom luti) && p.pos == 0 then 25 else 0))
    some ⟨r, k, pos⟩

end Ulam.Related
