import Verif.Cast.Model
/-!
# Comparison, bitwise, logical and conditional operators, and constants as their operands (model)

What types the operators work in, which operands they accept, what the evaluator computes and which library function the
generated program calls. The library functions (`_BinOpCompareLessThanInt32` and so on) are not in the repository: they
are an arbitrary family `Lib` here.

Simplifications: operands are scalars of primitive types that are not references and have at most 64 bits (no quarks with
`toInt`, no arrays); types are complete.
-/
namespace Ulam.Oper
open Ulam.Types
open Ulam.Cast (Ext Res makeImmediate makeImmediateLong cast evalCast genCast runGen)
open Ulam.Packed (Bits getData getDataLong putData putDataLong readBits)

/-- The six comparison operators. -/
inductive Cmp
  | lt | le | gt | ge | eq | ne
  deriving DecidableEq, Repr

/-- `& | ^`. -/
inductive Bitw
  | and | or | xor
  deriving DecidableEq, Repr

/-- `&&` and `||`. -/
inductive Logic
  | and | or
  deriving DecidableEq, Repr

/-- The functions of the MFM library. -/
structure Lib where
  /-- `_<kind><word>To<kind><word>`. -/
  ext : Ext
  /-- `_BinOpCompare<op><kind><word>(l, r, bits)`. -/
  cmp : Cmp → Base → Nat → Nat → Nat → Nat → Nat
  /-- `_Bitwise<op><kind><word>(l, r, bits)`. -/
  bitw : Bitw → Base → Nat → Nat → Nat → Nat → Nat
  /-- `_Bool<word>ToCbool(v, bits)`. -/
  cbool : Nat → Nat → Nat → Bool

/-- An operand: its type and, for a constant, `m_constant.uval`. -/
structure Operand where
  ty : Ty
  const : Option Nat
  deriving DecidableEq, Repr

/-! ## Constants -/

/-- `convertForthAndBack`; NodeTerminal.cpp:528-539. -/
def forthBack (lib : Lib) (cnt : Nat) (dst ty : Ty) (data : Nat) : Option Nat :=
  match makeImmediate ty data with
  | .ok b =>
    match cast lib.ext cnt dst ty b with
    | .ok b1 =>
      match cast lib.ext cnt ty dst b1 with
      | .ok b2 => getData b2 (96 - 32) 32
      | .fail => some (2 ^ 32 - 1 - data)
      | .abort => none
    | .fail => some (2 ^ 32 - 1 - data)
    | .abort => none
  | _ => none

/-- `convertForthAndBackLong`; NodeTerminal.cpp:541-551. -/
def forthBackLong (lib : Lib) (cnt : Nat) (dst ty : Ty) (data : Nat) : Option Nat :=
  match makeImmediateLong ty data with
  | .ok b =>
    match cast lib.ext cnt dst ty b with
    | .ok b1 =>
      match cast lib.ext cnt ty dst b1 with
      | .ok b2 => getDataLong b2 (96 - 64) 64
      | .fail => some (2 ^ 64 - 1 - data)
      | .abort => none
    | .fail => some (2 ^ 64 - 1 - data)
    | .abort => none
  | _ => none

/-- `fitsInBits32` and `fitsInBits64`; NodeTerminal.cpp:399-461 and 464-526: there and back, compared by the constant's own
equality; `none` stands for a failed assertion. `w` is 32 or 64. -/
def fitsWord (lib : Lib) (cnt w : Nat) (dst ty : Ty) (uval : Nat) : Option Bool :=
  let back := if w = 32 then forthBack lib cnt dst ty else forthBackLong lib cnt dst ty
  let data := uval % 2 ^ w
  let same := fun d => (back d).map fun c => lib.cbool w (lib.cmp .eq ty.base w d c ty.bits) 1
  match ty.base with
  | .int | .unsigned | .bits => same data
  | .unary => same (lib.ext ⟨.unary, .unary, w⟩ data ty.bits ty.bits cnt)
  | .bool => same (lib.ext ⟨.bool, .bool, w⟩ data ty.bits ty.bits cnt)
  | .string => some (lib.cbool w 1 1)
  | _ => some (lib.cbool w 0 1)

/-- `fitsInBits`; NodeTerminal.cpp:331-396: by the larger of the two words. -/
def fitsInBits (lib : Lib) (cnt : Nat) (dst ty : Ty) (uval : Nat) : Option Bool :=
  let nword := wordSize ty.bits
  let fword := wordSize dst.bits
  let fword := if nword > fword then nword else fword
  if fword ≤ 32 then fitsWord lib cnt 32 dst ty uval
  else if fword ≤ 64 then fitsWord lib cnt 64 dst ty uval
  else none

/-- `NodeTerminal::safeToCastTo`, NodeTerminal.cpp:132-160 (`NodeConstant::safeToCastTo`, NodeConstant.cpp:135-171, differs
only for references), for sized destinations that are not references. -/
def constSafe (lib : Lib) (cnt : Nat) (dst ty : Ty) (uval : Nat) : Option Bool :=
  if dst.base = .bool ∨ ty.base = .bool ∨ dst.base = .atom ∨ dst.base = .cls ∨ dst.base = .quark ∨ dst.base = .void then
    some (safeCast dst ty)
  else if ty.base = .bits ∧ dst.base ≠ .bits then some (safeCast dst ty)
  else if (decide (ty.base = .string)).xor (decide (dst.base = .string)) then some (safeCast dst ty)
  else if !baseSafeCast dst ty then some false
  else fitsInBits lib cnt dst ty uval

/-- `safeToCastTo` of an operand: constants as above, everything else by types alone; NodeIdent.cpp:292-300,
NodeBinaryOp.cpp:157-161. -/
def safeTo (lib : Lib) (cnt : Nat) (dst : Ty) (o : Operand) : Option Bool :=
  match o.const with
  | some uval => constSafe lib cnt dst o.ty uval
  | none => some (safeCast dst o.ty)

/-! ## Operands -/

/-- What the evaluator finds for an operand: cast to `t` unless it has the type; NodeBinaryOp.cpp:206-219,
NodeBinaryOpCompare.cpp:40-53. -/
def evalOperand (lib : Lib) (cnt : Nat) (t : Ty) (o : Operand) (b : Bits) : Option Bits :=
  if o.ty = t then some b
  else match evalCast lib.ext cnt t o.ty b with
    | .ok b' => some b'
    | _ => none

/-- What the generated program computes for an operand. -/
def genOperand (lib : Lib) (cnt : Nat) (t : Ty) (o : Operand) (raw : Nat) : Option Nat :=
  if o.ty = t then some raw
  else runGen lib.ext cnt t raw (genCast false o.const.isSome t o.ty)

/-- What typing an operator gives: the type its operands are cast to, an error, or a failed assertion. -/
inductive Typed
  | ty (t : Ty)
  | reject
  | abort
  deriving DecidableEq, Repr

/-- `isNumericType`, primitive types. -/
def numeric (t : Ty) : Bool := match t.base with | .int | .unsigned | .unary => true | _ => false

/-- Unary counts as unsigned; NodeBinaryOpCompare.cpp:185-190. -/
def asUnsigned (t : Ty) : Bool := match t.base with | .unsigned | .unary => true | _ => false

/-- A scalar type of a kind. -/
def scalar (b : Base) (n : Nat) : Ty := ⟨b, n, -1, .notRef⟩

/-- `NodeBinaryOpCompare::calcNodeType`; NodeBinaryOpCompare.cpp:158-206, without the safety check. -/
def orderType (l r : Ty) : Typed :=
  if l.base = .void ∨ r.base = .void then .reject
  else if !(numeric l && numeric r) then .reject
  else if l.arr ≠ -1 ∨ r.arr ≠ -1 then .reject
  else match resultBitsize .div l.base l.bits r.base r.bits with
    | none => .abort
    | some n => .ty (scalar (if asUnsigned l && asUnsigned r then .unsigned else .int) n)

/-- `calcNodeType` of `==` and `!=`; NodeBinaryOpCompareEqualEqual.cpp:39-82, NodeBinaryOpCompareNotEqual.cpp:39-82. -/
def equalType (l r : Ty) : Typed :=
  if l.base = .bits ∨ r.base = .bits then
    if l.arr ≠ -1 ∨ r.arr ≠ -1 then .reject
    else .ty (scalar .bits (bitwiseBitsize l.base l.bits r.base r.bits))
  else if l.base = .bool ∧ r.base = .bool then
    if l.arr ≠ -1 ∨ r.arr ≠ -1 then .reject else .ty (scalar .bool 1)
  else orderType l r

def cmpType (op : Cmp) (l r : Ty) : Typed :=
  match op with
  | .eq | .ne => equalType l r
  | _ => orderType l r

/-- `NodeBinaryOpBitwise::calcNodeType`; NodeBinaryOpBitwise.cpp:41-71. -/
def bitwType (l r : Ty) : Typed :=
  if l.base = .void ∨ r.base = .void then .reject
  else if l.arr ≠ -1 ∨ r.arr ≠ -1 then .reject
  else .ty (scalar .bits (bitwiseBitsize l.base l.bits r.base r.bits))

/-- `checkSafeToCastTo`; NodeBinaryOp.cpp:268-297: an error unless both operands are safe. -/
def bothSafe (lib : Lib) (cnt : Nat) (l r : Operand) : Typed → Typed
  | .ty t =>
    match safeTo lib cnt t l, safeTo lib cnt t r with
    | some true, some true => .ty t
    | some _, some _ => .reject
    | _, _ => .abort
  | x => x

/-- Typing a comparison; NodeBinaryOpCompare.cpp:25-69. The comparison itself has type `Bool(1)`. -/
def checkCompare (lib : Lib) (cnt : Nat) (op : Cmp) (l r : Operand) : Typed :=
  bothSafe lib cnt l r (cmpType op l.ty r.ty)

/-- Typing `& | ^`. -/
def checkBitwise (lib : Lib) (cnt : Nat) (l r : Operand) : Typed :=
  bothSafe lib cnt l r (bitwType l.ty r.ty)

/-- Typing `&&` and `||`; NodeBinaryOpLogical.cpp:20-71: by types alone, also for constants. -/
def checkLogical (l r : Operand) : Typed :=
  if l.ty.base = .void ∨ r.ty.base = .void then .reject
  else if l.ty.arr ≠ -1 ∨ r.ty.arr ≠ -1 then .reject
  else if safeCast (scalar .bool 1) l.ty && safeCast (scalar .bool 1) r.ty then
    .ty (scalar .bool (if l.ty.bits > r.ty.bits then l.ty.bits else r.ty.bits))
  else .reject

/-! ## Computing -/

/-- The kinds `makeImmediate(Long)BinaryOp` of a comparison knows; NodeBinaryOpCompareLessThan.cpp:39-101 and the other
three, NodeBinaryOpCompareEqualEqual.cpp:84-150, NodeBinaryOpCompareNotEqual.cpp:84-150. -/
def cmpKnows (op : Cmp) (b : Base) : Bool :=
  match b, op with
  | .int, _ | .unsigned, _ | .bool, _ | .unary, _ => true
  | .bits, .eq | .bits, .ne => true
  | _, _ => false

/-- `doBinaryOperationImmediate` of a comparison; NodeBinaryOpCompare.cpp:268-307: the data of both (cast) operands, the
function by kind and word, the result in one bit. -/
def evalCompare (lib : Lib) (cnt : Nat) (op : Cmp) (t : Ty) (l r : Operand) (bl br : Bits) : Option Nat :=
  match evalOperand lib cnt t l bl, evalOperand lib cnt t r br with
  | some bl, some br =>
    if !cmpKnows op t.base then none
    else if wordSize t.bits = 32 then
      match getData bl (96 - t.bits) t.bits, getData br (96 - t.bits) t.bits with
      | some x, some y => some (lib.cmp op t.base 32 x y t.bits % 2 ^ 1)
      | _, _ => none
    else if wordSize t.bits = 64 then
      match getDataLong bl (96 - t.bits) t.bits, getDataLong br (96 - t.bits) t.bits with
      | some x, some y => some (lib.cmp op t.base 64 x y t.bits % 2 ^ 1)
      | _, _ => none
    else none
  | _, _ => none

/-- `genCode` with `methodNameForCodeGen`; NodeBinaryOpCompare.cpp:208-246 and 386-442: no `Unary`. -/
def genCompare (lib : Lib) (cnt : Nat) (op : Cmp) (t : Ty) (l r : Operand) (x y : Nat) : Option Nat :=
  match genOperand lib cnt t l x, genOperand lib cnt t r y with
  | some x, some y =>
    match t.base with
    | .int | .unsigned | .bits | .bool | .string => some (lib.cmp op t.base (wordSize t.bits) x y t.bits % 2 ^ 1)
    | _ => none
  | _, _ => none

/-- `doBinaryOperationImmediate`, NodeBinaryOp.cpp:655-695, with `makeImmediate(Long)BinaryOp` of the bitwise operators,
NodeBinaryOpBitwiseAnd.cpp:35-89 and its two fellows. -/
def evalBitwise (lib : Lib) (cnt : Nat) (op : Bitw) (t : Ty) (l r : Operand) (bl br : Bits) : Option Nat :=
  match evalOperand lib cnt t l bl, evalOperand lib cnt t r br with
  | some bl, some br =>
    if wordSize t.bits = 32 then
      match getData bl (96 - t.bits) t.bits, getData br (96 - t.bits) t.bits with
      | some x, some y => some (lib.bitw op t.base 32 x y t.bits % 2 ^ t.bits)
      | _, _ => none
    else if wordSize t.bits = 64 then
      match getDataLong bl (96 - t.bits) t.bits, getDataLong br (96 - t.bits) t.bits with
      | some x, some y => some (lib.bitw op t.base 64 x y t.bits % 2 ^ t.bits)
      | _, _ => none
    else none
  | _, _ => none

/-- `NodeBinaryOp::genCode` with `methodNameForCodeGen`; NodeBinaryOpBitwise.cpp:73-100. -/
def genBitwise (lib : Lib) (cnt : Nat) (op : Bitw) (t : Ty) (l r : Operand) (x y : Nat) : Option Nat :=
  match genOperand lib cnt t l x, genOperand lib cnt t r y with
  | some x, some y =>
    let kind := match t.base with | .int => Base.int | .unary => .unary | _ => .bits
    some (lib.bitw op kind (wordSize t.bits) x y t.bits % 2 ^ t.bits)
  | _, _ => none

/-- `eval` of `&&` and `||`; NodeBinaryOpLogicalAnd.cpp:34-72, NodeBinaryOpLogicalOr.cpp:34-69: the result, and whether the
right operand was evaluated. The left value is read as 32-bit data whatever the type's size. -/
def evalLogical (lib : Lib) (cnt : Nat) (op : Logic) (t : Ty) (l r : Operand) (bl br : Bits) : Option (Nat × Bool) :=
  match evalOperand lib cnt t l bl with
  | none => none
  | some bl =>
    match getData bl (96 - t.bits) t.bits with
    | none => none
    | some x =>
      if lib.cbool 32 x t.bits = (match op with | .and => false | .or => true) then
        some (readBits bl (96 - t.bits) t.bits, false)
      else match evalOperand lib cnt t r br with
        | none => none
        | some br => some (readBits br (96 - t.bits) t.bits, true)

/-- `genCode` of `&&` and `||`; NodeBinaryOpLogicalAnd.cpp:93-149, NodeBinaryOpLogicalOr.cpp:90-160. -/
def genLogical (lib : Lib) (cnt : Nat) (op : Logic) (t : Ty) (l r : Operand) (x y : Nat) : Option (Nat × Bool) :=
  match genOperand lib cnt t l x with
  | none => none
  | some x =>
    match op with
    | .and =>
      if lib.cbool (wordSize t.bits) x t.bits then (genOperand lib cnt t r y).map (·, true) else some (0, false)
    | .or =>
      if !lib.cbool (wordSize t.bits) x t.bits then (genOperand lib cnt t r y).map (·, true) else some (x, false)

/-! ## `c ? a : b` -/

/-- `NodeQuestionColon::calcNodeType`; NodeQuestionColon.cpp:142-231. -/
def ternType (l r : Ty) : Typed :=
  if l = r then .ty l
  else if l.base = .bits ∨ r.base = .bits then
    if l.arr ≠ -1 ∨ r.arr ≠ -1 then .reject
    else .ty (scalar .bits (bitwiseBitsize l.base l.bits r.base r.bits))
  else if l.arr ≠ -1 ∨ r.arr ≠ -1 then .reject
  else match resultBitsize .div l.base l.bits r.base r.bits with
    | none => .abort
    | some n =>
      if l.base = r.base then .ty (scalar l.base n)
      else .ty (scalar (if asUnsigned l && asUnsigned r then .unsigned else .int) n)

/-- `checkAndLabelType`; NodeQuestionColon.cpp:233-316, `Node::checkSafeToCastTo` Node.cpp:513-549: by types alone. -/
def checkTernary (c l r : Ty) : Typed :=
  if c ≠ scalar .bool 1 ∧ !safeCast (scalar .bool 1) c then .reject
  else match ternType l r with
    | .ty t =>
      if l ≠ t ∧ !safeCast t l then .reject
      else if r ≠ t ∧ !safeCast t r then .reject
      else .ty t
    | x => x

/-- `eval`; NodeQuestionColon.cpp:407-450: the condition's one bit decides. -/
def evalTernary (lib : Lib) (cnt : Nat) (t : Ty) (c l r : Operand) (bc bl br : Bits) : Option Nat :=
  match evalOperand lib cnt (scalar .bool 1) c bc with
  | none => none
  | some bc =>
    match getData bc (96 - 1) 1 with
    | none => none
    | some x =>
      (if x = 0 then evalOperand lib cnt t r br else evalOperand lib cnt t l bl).map
        fun b => readBits b (96 - t.bits) t.bits

/-- `genCode` with `genCodeConditionalExpression`; NodeQuestionColon.cpp:491-605 and 691-716. -/
def genTernary (lib : Lib) (cnt : Nat) (t : Ty) (c l r : Operand) (z x y : Nat) : Option Nat :=
  match genOperand lib cnt (scalar .bool 1) c z with
  | none => none
  | some z => if lib.cbool 32 z 1 then genOperand lib cnt t l x else genOperand lib cnt t r y

end Ulam.Oper
