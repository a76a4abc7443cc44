import Verif.Walker.Model
/-!
# Conversions between class types and `Atom` (model)

The rules by which the compiler lets a value or a reference of one class type stand for another, implicitly or by a cast
expression, and what the compile-time evaluator does with such a cast. All types are complete (an incomplete one gives
`CAST_HAZY` or `UTIC_DONTKNOW` and is tried again), so a forecast is a truth value: `CAST_CLEAR` or not.
-/
namespace Ulam.ClassCast
open Ulam.Walker (subclassLoop init)

/-- `ULAMCLASSTYPE` of a seen class. -/
inductive Kind | element | quark | transient
  deriving DecidableEq

/-- `include/Constants.h:115` `ALT`. -/
inductive Alt | plain | as_ | ref | constRef
  deriving DecidableEq

/-- What a type is a type of. `number` stands for `Int`, `Unsigned`, `Unary` and `Bool`. -/
inductive Base (n : Nat)
  | cls (c : Fin n) | atom | bits (k : Nat) | number | string | void
  deriving DecidableEq

/-- A complete type: base, array size (`none` is `NONARRAYSIZE`) and kind of reference. -/
structure Ty (n : Nat) where
  base : Base n
  arr : Option Nat
  alt : Alt
  deriving DecidableEq

/-- The classes: their inheritance as `Walker` has it, their kinds and their sizes in bits. -/
structure World (n : Nat) where
  h : Walker.World n
  kind : Fin n → Kind
  size : Fin n → Nat

variable {n : Nat}

/-- `UlamType.cpp:495-501` `isReference`. -/
def isReference (t : Ty n) : Bool := decide (t.alt ≠ .plain)

/-- `UlamType.cpp:503-507` `isAltRefType`. -/
def isAltRef (t : Ty n) : Bool := decide (t.alt = .ref ∨ t.alt = .constRef)

/-- `CompilerState.cpp:1612-1638` `getUlamTypeAsDeref`. -/
def deref (t : Ty n) : Ty n := { t with alt := .plain }

/-- The scalar, non-reference type of a class: `getUlamKeyTypeSignatureClassInstanceIdx`. -/
def plain (c : Fin n) : Ty n := ⟨.cls c, none, .plain⟩

/-- `UlamType.cpp:524-594` `compareByKeysPiecewise` on complete types: the parts of the keys agree. -/
def same (t u : Ty n) : Bool := decide (t = u)

/-- `CompilerState.cpp:1688-1696` `isARefTypeOfUlamType`. -/
def refOf (t u : Ty n) : Bool := (isReference t || isReference u) && same (deref t) (deref u)

/-- `CompilerState.cpp:7605-7609` `isAtom`. -/
def isAtom (t : Ty n) : Bool := decide (t.base = .atom)

/-- `getUlamClassType`; `none` is `UC_NOTACLASS`. -/
def kindOf (w : World n) (t : Ty n) : Option Kind :=
  match t.base with
  | .cls c => some (w.kind c)
  | _ => none

/-- `CompilerState.cpp:2654-2680` `isClassASubclassOf`. The class symbol of an array type is the one of its items
(`CompilerState.cpp:3136-3179`), and no entry of a table of bases is an array. -/
def subOf (w : World n) (t u : Ty n) : Bool :=
  if deref t = deref u then false
  else match t.base, u.base, u.arr with
    | .cls c, .cls b, none => subclassLoop w.h b (init w.h c)
    | _, _, _ => false

/-- `UlamType.cpp:96-116` `UlamType::safeCast` with `checkArrayCast` (`UlamType.cpp:124-152`). -/
def baseSafe (t f : Ty n) : Bool :=
  if ¬ t.arr = f.arr then false
  else if f.alt = .constRef ∧ t.alt = .ref then false
  else true

/-- `UlamTypeClass.cpp:58-95` `safeCast`, for the type `t` of class `c`. -/
def classSafe (w : World n) (c : Fin n) (t f : Ty n) : Bool :=
  if ¬ baseSafe t f = true then false
  else if f = t then true
  else if subOf w (deref f) (plain c) then true
  else if same (deref f) (plain c) then true
  else if subOf w (plain c) (deref f) then false
  else refOf f t

/-- `UlamTypeAtom.cpp:103-120` `safeCast`. -/
def atomSafe (w : World n) (t f : Ty n) : Bool :=
  if ¬ baseSafe t f = true then false
  else if isAtom f then true
  else decide (kindOf w f = some .element)

/-- `to->safeCast(from) == CAST_CLEAR` where the target is of a class or of `Atom`; the primitive targets are in
`Verif/Types`. -/
def safeCast (w : World n) (t f : Ty n) : Bool :=
  match t.base with
  | .cls c => classSafe w c t f
  | .atom => atomSafe w t f
  | _ => false

/-- `UlamTypeClass.cpp:97-132` `explicitlyCastable`, for the type `t` of class `c`. -/
def classExplicit (w : World n) (c : Fin n) (t f : Ty n) : Bool :=
  if ¬ baseSafe t f = true then false
  else match f.base with
    | .atom => true
    | .bits _ => true
    | .cls _ =>
      if subOf w (plain c) (deref f) then isAltRef f
      else if subOf w (deref f) (plain c) then true
      else same (deref f) (plain c)
    | _ => false

/-- The `explicitlyCastable` of the three kinds of class: `UlamTypeClassElement.cpp:60-70`,
`UlamTypeClassQuark.cpp:92-104`, `UlamTypeClassTransient.cpp:74-84`. -/
def kindExplicit (w : World n) (c : Fin n) (t f : Ty n) : Bool :=
  match w.kind c with
  | .element => if classExplicit w c t f then true else isAtom f
  | .quark =>
    if classExplicit w c t f then true
    else match f.base with
      | .bits _ => true
      | _ => false
  | .transient => if classExplicit w c t f then !isAtom f else false

/-- `UlamTypeAtom.cpp:122-139` `explicitlyCastable`. -/
def atomExplicit (w : World n) (t f : Ty n) : Bool :=
  if ¬ baseSafe t f = true then false
  else if kindOf w f = none ∧ ¬ isAtom f = true then false
  else if kindOf w f = some .quark ∧ ¬ isAltRef f = true then false
  else if kindOf w f = some .transient then false
  else true

/-- `to->explicitlyCastable(from) == CAST_CLEAR` where the target is of a class or of `Atom`. -/
def explicitlyCastable (w : World n) (t f : Ty n) : Bool :=
  match t.base with
  | .cls c => kindExplicit w c t f
  | .atom => atomExplicit w t f
  | _ => false

/-- `NodeCast.cpp:253-336`: the checks every cast node makes on the two types. -/
def kindsChecked (w : World n) (t f : Ty n) : Bool :=
  match kindOf w t, kindOf w f with
  | some k, none =>
    match f.base with
    | .bits m =>
      if k = .quark ∨ k = .transient then
        match t.base with
        | .cls c => decide (w.size c = m) && !isReference t
        | _ => false
      else false
    | .atom => decide (k ≠ .transient)
    | _ => false
  | _, fk => !(isAtom t && isAltRef t && decide (fk = some .quark) && !isReference f)

/-- `NodeCast.cpp:384-418`: the checks every cast node makes on arrays. -/
def arraysChecked (t f : Ty n) : Bool :=
  match t.arr, f.arr with
  | some k, some m => refOf t f && decide (k = m)
  | some _, none => false
  | none, some _ => refOf t f
  | none, none => true

/-- `NodeCast.cpp:179-555` `checkAndLabelType` for a cast to a class type or to `Atom`: is the cast accepted? `explicit` tells
a cast the program writes from one the compiler inserts, `const` whether the operand is a constant. -/
def castNode (w : World n) (explicit const : Bool) (t f : Ty n) : Bool :=
  kindsChecked w t f && arraysChecked t f &&
    (!explicit || (explicitlyCastable w t f && !(isAltRef t && const)))

/-- `Node.cpp:3020-3169` `makeCastingNode` for a target of a class or of `Atom`. Simplification: turning a quark into an
`Atom` goes through `toInt` or a helper function there; it is refused here, and `atomSafe` refuses it before. -/
def makeCastingNode (w : World n) (t f : Ty n) : Bool :=
  if same f t then true
  else match kindOf w f with
    | none =>
      if isAtom f = true ∧ ¬ (kindOf w t = some .element ∨ isAtom t = true ∨ (kindOf w t = some .quark ∧ isAltRef t = true))
      then false
      else if f.base = .void then false
      else castNode w false false t f
    | some .quark =>
      if kindOf w t = none then false
      else if subOf w f t then castNode w false false t f
      else if subOf w t f then isAltRef f && castNode w false false t f
      else if refOf f t then castNode w false false t f
      else false
    | some .element => castNode w false false t f
    | some .transient => castNode w false false t f

/-- An implicit conversion: the forecast is asked for first (`Node.cpp:513-549` `checkSafeToCastTo`, and
`m_node->safeToCastTo` in assignments, arguments, initialisers and returns), then the cast node is made. -/
def implicitly (w : World n) (t f : Ty n) : Bool := safeCast w t f && makeCastingNode w t f

/-- A cast expression in the program whose operand is no constant. -/
def explicitly (w : World n) (t f : Ty n) : Bool := castNode w true false t f

/-! ## Evaluation -/

/-- A value as the evaluator holds it: its type, and the class of the object it belongs to, if noted
(`getUlamValueEffSelfTypeIdx`). The bits are left out. -/
structure Val (n : Nat) where
  ty : Ty n
  eff : Option (Fin n)
  deriving DecidableEq

/-- The ways a cast ends: a value, `UNEVALUABLE`, or an abort or failed assertion of the compiler. -/
inductive Outcome (n : Nat)
  | value (v : Val n) | unevaluable | abort
  deriving DecidableEq

/-- `UlamTypeClassElement.cpp:34-58` `cast`. -/
def elementCast (t : Ty n) (v : Val n) : Outcome n :=
  if v.ty.base = .atom then
    match v.eff with
    | none => .abort
    | some e => if plain e = deref t then .value { v with ty := deref t } else .unevaluable
  else if v.ty = t then .value v
  else .unevaluable

/-- The type `UlamTypeClassQuark.cpp:38-45` goes by: for an atom, the class of its object. -/
def quarkFrom (v : Val n) : Option (Ty n) :=
  if v.ty.base = .atom then v.eff.map plain else some v.ty

/-- `UlamTypeClassQuark.cpp:25-90` `cast` to a type that is no reference. -/
def quarkCast (w : World n) (c : Fin n) (t : Ty n) (v : Val n) : Outcome n :=
  match quarkFrom v with
  | none => .abort
  | some vt =>
    if vt = t then .value v
    else if subOf w vt t then if w.size c ≤ 64 then .value ⟨t, none⟩ else .abort
    else match v.ty.base with
      | .bits m => if w.size c = m then .value { v with ty := t } else .unevaluable
      | _ => .unevaluable

/-- `UlamTypeClassTransient.cpp:25-72` `cast` to a type that is no reference; `MAXSTATEBITS` is 71
(`include/Constants.h:132-142`). -/
def transientCast (w : World n) (c : Fin n) (t : Ty n) (v : Val n) : Outcome n :=
  if v.ty = t then .value v
  else if subOf w v.ty t then if w.size c > 71 then .abort else .value ⟨t, some c⟩
  else match v.ty.base with
    | .bits m => if w.size c = m then .value { v with ty := t } else .unevaluable
    | _ => .unevaluable

/-- `UlamTypeAtom.cpp:71-101` `cast`. -/
def atomCast (w : World n) (t : Ty n) (v : Val n) : Outcome n :=
  match v.ty.base with
  | .atom => .value { v with ty := t }
  | .cls c =>
    if w.kind c = .element ∨ isAltRef v.ty = true then
      match v.eff with
      | none => .value ⟨t, some c⟩
      | some e => if plain e = deref v.ty then .value { v with ty := t } else .unevaluable
    else .unevaluable
  | _ => .unevaluable

/-- The `cast` of the target type. -/
def typeCast (w : World n) (t : Ty n) (v : Val n) : Outcome n :=
  match t.base with
  | .cls c =>
    match w.kind c with
    | .element => elementCast t v
    | .quark => quarkCast w c t v
    | .transient => transientCast w c t v
  | .atom => atomCast w t v
  | _ => .abort

/-- `NodeCast.cpp:632-650`: a cast between two types neither of which is a reference; an explicit cast asserts the type of
the result. -/
def evalCast (w : World n) (explicit : Bool) (t : Ty n) (v : Val n) : Outcome n :=
  match typeCast w t v with
  | .value r => if explicit = true ∧ ¬ r.ty = t then .abort else .value r
  | o => o

/-- `NodeCast.cpp:793-904` `evalCastFromAReference` for an operand and a target of classes: the operand is of type `f`, `v` is
the value referred to. -/
def evalFromRef (w : World n) (t f : Ty n) (v : Val n) : Outcome n :=
  if v.ty = t then .value v
  else if refOf f t then .value { v with ty := t }
  else match v.eff, v.ty.base with
    | some e, _ => if subOf w (plain e) t then .value { v with ty := t } else .abort
    | none, .cls x => if subOf w (plain x) t then .value { v with ty := t } else .abort
    | none, _ => .abort

/-! ## Which kinds may inherit from which -/

/-- `NodeBlockClass.cpp:1119-1164`: the kinds a class of kind `k` may have as bases. -/
def mayInherit (k b : Kind) : Bool :=
  match k, b with
  | .transient, .transient => true
  | .transient, .quark => true
  | .transient, .element => false
  | _, .quark => true
  | _, _ => false

end Ulam.ClassCast
