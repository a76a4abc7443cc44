import Verif.Types.Model
/-!
# Data members with initial values (model)

`NodeVarDeclDM`: `safeToCastTo`, `checkReferenceCompatibility`, `checkAndLabelType`, `checkDataMemberSizeConstraints`,
`foldArrayInitExpression` and `updateConstant` (`NodeVarDeclDM.cpp:247-438`, `492-573`, `592-791`).

Simplified: what `NodeVarDecl::checkAndLabelType` comes to (C109) and the answers of the initial value are parameters. The search for
shadowed members is that of C96. The conversions of `CastOps.h` are functions of the MFM library and parameters (`Lib`). Arrays and
class members are folded elsewhere (`NodeVarDecl.cpp:280-356`). The text of messages is left out, their number by severity is kept.
-/
namespace Ulam.Dm
open Ulam.Types (Base wordSize)

/-- `TBOOL`. -/
inductive Tri
  | no | yes | hazy
  deriving DecidableEq, Repr

/-- `FORECAST`. -/
inductive Forecast
  | clear | bad | hazy
  deriving DecidableEq, Repr

/-- `EvalStatus`, those an expression can come to. -/
inductive Status
  | normal | error | notReady | unevaluable
  deriving DecidableEq, Repr

/-- What a node's type is good for: a type to go on with, `Nav`, `Hzy`, or not set. -/
inductive Lab
  | ok | nav | hzy | nouti
  deriving DecidableEq, Repr

/-- Functions of the MFM library: `_Int<w>ToInt<w>(v, from, to)`, `_Unsigned<w>ToUnsigned<w>`, `_CboolToBool<w>(b, to)`,
`_Unsigned<w>ToUnary<w>`, `_Unsigned<w>ToBits<w>`, for `w` 32 and 64. -/
structure Lib where
  intToInt : Nat → Nat → Nat → Nat → Nat
  unsToUns : Nat → Nat → Nat → Nat → Nat
  cboolToBool : Nat → Bool → Nat → Nat
  unsToUnary : Nat → Nat → Nat → Nat → Nat
  unsToBits : Nat → Nat → Nat → Nat → Nat

/-! ## The value -/

/-- `NodeVarDeclDM.cpp:735-756`, `770-790`: the switches of `updateConstant32` and `updateConstant64`. `none`: no such kind. -/
def convert (L : Lib) (w : Nat) (b : Base) (src dst v : Nat) : Option Nat :=
  match b with
  | .int => some (L.intToInt w v src dst)
  | .unsigned => some (L.unsToUns w v src dst)
  | .bool => some (L.cboolToBool w (decide (v ≠ 0)) dst)
  | .unary => some (L.unsToUnary w v src dst)
  | .bits => some (L.unsToBits w v src dst)
  | .string => some v
  | _ => none

/-- What `updateConstant` comes to. -/
inductive Upd
  | ok (v : Nat)
  | unknown
  | abort
  deriving DecidableEq, Repr

/-- `NodeVarDeclDM.cpp:690-722` `updateConstant`, `724-791`: a 32-bit function gets the low 32 bits. -/
def updateConstant (L : Lib) (b : Base) (src dst v : Nat) : Upd :=
  if wordSize dst ≤ 32 then
    match convert L 32 b src dst (if b = .bool ∨ b = .string then v else v % 2 ^ 32) with
    | some r => .ok r
    | none => .unknown
  else if wordSize dst ≤ 64 then
    match convert L 64 b src dst v with
    | some r => .ok r
    | none => .unknown
  else .abort

/-- A scalar data member of a type that is neither a class nor `Atom`, and its initial value: what `constantFold`, `eval` and
`safeToCastTo` answer. -/
structure Value where
  base : Base
  bits : Nat
  /-- `isInitValueReady()`. -/
  ready : Bool
  /-- The type `constantFold` returns. -/
  folded : Lab
  status : Status
  /-- The value in the format of its type, if the status is normal. -/
  val : Nat
  /-- The size of the type of the initial value. -/
  srcBits : Nat
  forecast : Forecast

/-- What a fold leaves: whether it succeeded, the type of the node, messages, another round, and the bits stored. -/
structure FoldOut where
  ok : Bool
  lab : Lab
  errs : Nat := 0
  waits : Nat := 0
  again : Bool := false
  stored : Option Nat := none
  deriving DecidableEq, Repr

/-- `NodeVarDeclDM.cpp:615`, `621-629`: the value, 0 unless the status is normal. `none`: abort. -/
def evaluated (x : Value) : Option Nat :=
  if x.status = .normal then if wordSize x.bits ≤ 64 then some x.val else none else some 0

/-- `NodeVarDeclDM.cpp:592-688` `foldArrayInitExpression`, for a complete scalar with an initial value. `none`: abort. Messages of
`constantFold` are counted as one error if it comes to `Nav` (`Node.cpp:655-671`), one wait otherwise. -/
def fold (L : Lib) (x : Value) : Option FoldOut :=
  if x.ready then some { ok := true, lab := .ok }
  else if x.folded ≠ .ok then
    some { ok := false, lab := .ok, errs := if x.folded = .nav then 1 else 0, waits := if x.folded = .nav then 0 else 1 }
  else
    match evaluated x with
    | none => none
    | some v =>
      if x.status = .error then some { ok := false, lab := .nav, errs := 1 }
      else if x.status = .notReady then some { ok := false, lab := .hzy, waits := 1, again := true }
      else
        match x.forecast with
        | .bad => some { ok := false, lab := .nav, errs := 1 }
        | .hazy => some { ok := false, lab := .hzy, waits := 1, again := true }
        | .clear =>
          match updateConstant L x.base x.srcBits x.bits v with
          | .ok r => some { ok := true, lab := .ok, stored := some (r % 2 ^ x.bits) }
          | .unknown => some { ok := false, lab := .ok, errs := 1 }
          | .abort => none

/-! ## Sizes -/

/-- `ULAMCLASSTYPE`. -/
inductive Cls
  | notAClass | element | quark | transient
  deriving DecidableEq, Repr

/-- What is asked about the type of a member: `getUlamClassType`, `getTotalBitSize`, `isScalar`, `isNumericType`. -/
structure MemberType where
  cls : Cls
  total : Nat
  scalar : Bool
  numeric : Bool
  deriving DecidableEq, Repr

/-- `NodeVarDeclDM.cpp:492-573` `checkDataMemberSizeConstraints`: the errors; it answers yes when there are none. `MAXBITSPERLONG` is
64, `MAXSTATEBITS` 71 (`Constants.h:133-142`). -/
def sizeErrors (cls : Cls) (t : MemberType) : Nat :=
  (if cls ≠ .transient then
    (if t.total > 64 ∧ t.cls = .notAClass ∧ t.scalar ∧ t.numeric then 1 else 0) +
    (if t.cls = .element then 1 else 0) +
    (if t.cls = .quark then if !t.scalar && decide (t.total > 71) then 1 else 0 else 0) +
    (if t.cls = .transient then 1 else 0)
  else 0) +
  (if t.cls = .quark then if t.scalar && decide (t.total > 64) then 1 else 0 else 0)

/-! ## Labelling -/

/-- The initial value as the labelling sees it: the answer to `isAConstant`, its type, whether that is a class. -/
structure Init where
  const : Tri
  lab : Lab
  cls : Bool
  value : Value

/-- A data member: what `NodeVarDecl::checkAndLabelType` comes to (with its messages), whether the class is a union of quarks, whether
the name shadows none of an ancestor, and so on. -/
structure Member where
  base : Lab
  errs : Nat
  waits : Nat
  again : Bool
  union : Bool
  unshadowed : Tri
  scalar : Bool
  complete : Bool
  cls : Cls
  type : MemberType
  /-- `m_varSymbol->hasInitValue()`. -/
  hasInit : Bool
  init : Option Init

/-- What the labelling comes to: the type returned, the type of the node, messages, another round, the flag
`m_initSubtreeSymbolsWithConstantsOnly`, and the bits stored. -/
structure Out where
  ret : Lab
  node : Lab
  errs : Nat
  waits : Nat
  again : Bool
  flag : Bool
  stored : Option Nat
  deriving DecidableEq, Repr

/-- An early return: the flag is cleared. -/
def stop (m : Member) (l : Lab) (errs waits : Nat) (again : Bool) : Out :=
  { ret := l, node := l, errs := m.errs + errs, waits := m.waits + waits, again := m.again || again, flag := false, stored := none }

/-- `NodeVarDeclDM.cpp:432-438`: the end. -/
def ending (m : Member) (stored : Option Nat) : Out :=
  if m.complete ∧ sizeErrors m.cls m.type ≠ 0 then
    { ret := .nav, node := .nav, errs := m.errs + sizeErrors m.cls m.type, waits := m.waits, again := m.again, flag := false
      stored := stored }
  else { ret := .ok, node := .ok, errs := m.errs, waits := m.waits, again := m.again, flag := false, stored := stored }

/-- `NodeVarDeclDM.cpp:388-430`: the fold of the initial value `i`. `none`: abort. -/
def folding (L : Lib) (m : Member) (i : Init) : Option Out :=
  if m.hasInit && !i.value.ready && !i.cls then
    match fold L i.value with
    | none => none
    | some f =>
      if f.ok then some (ending m f.stored)
      else if f.lab = .nav ∨ i.value.folded = .nav then
        some { ret := .nav, node := f.lab, errs := m.errs + f.errs, waits := m.waits + f.waits, again := m.again || f.again
               flag := false, stored := none }
      else some (stop m .hzy f.errs f.waits true)
  else some (ending m none)

/-- `NodeVarDeclDM.cpp:299-438` `checkAndLabelType`. `none`: abort. -/
def label (L : Lib) (m : Member) : Option Out :=
  if m.base ≠ .ok then some (stop m m.base 0 0 false)
  else if m.union && m.init.isSome then some (stop m .nav 1 0 false)
  else
    match m.unshadowed with
    | .no => some (stop m .nav 1 0 false)
    | .hazy => some (stop m .hzy 0 1 true)
    | .yes =>
      match m.init with
      | none => some (ending m none)
      | some i =>
        if !m.scalar then some (ending m none)
        else
          match i.const with
          | .no => some (stop m .nav 1 0 false)
          | .hazy => some (stop m .hzy 0 1 true)
          | .yes =>
            if i.lab = .nav then some (stop m .nav 1 0 false)
            else if i.lab = .hzy then some (stop m .hzy 0 1 true)
            else folding L m i

/-! ## The cast -/

/-- `NodeVarDeclDM.cpp:247-282` `safeToCastTo`: the initial value forecasts `f`, is an explicit cast to a reference or not, and can be
cast or not. The forecast, errors and waits; `none`: abort. -/
def safeToCastTo (f : Forecast) (explicitRef castable : Bool) : Option (Forecast × Nat × Nat) :=
  match f with
  | .bad => some (.bad, 1, 0)
  | .hazy => some (.hazy, 0, 1)
  | .clear => if explicitRef then some (.bad, 1, 0) else if castable then some (.clear, 0, 0) else none

end Ulam.Dm
