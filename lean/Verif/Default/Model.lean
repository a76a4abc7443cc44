import Verif.Layout.Model
/-!
# Default values of classes and initialization lists (model for C64, C65)

All types are complete and every constant is folded: the answers "not ready yet", after which the compiler tries again, do not
occur. Bit vectors (`BV8K`) are functions from positions to bits; `CopyBV`, `Write` and `SetBits` belong to the MFM library.
-/
namespace Ulam.Default
open Walker Layout
variable {n : Nat}

/-- A bit vector. -/
abbrev Bits := Nat → Bool

/-- All zero, as constructed. -/
def zero : Bits := fun _ => false

/-- `src.CopyBV(frm, dst, len, dest)`. -/
def copyBV (src : Bits) (frm pos len : Nat) (dest : Bits) : Bits := fun x =>
  if pos ≤ x ∧ x < pos + len then src (frm + (x - pos)) else dest x

/-- `CompilerState.cpp:1859-1863` `getDefaultAsArray`. -/
def asArray (bitsize count tpos : Nat) (v : Bits) : Bits :=
  (List.range count).foldl (fun d j => copyBV v 0 (tpos + j * bitsize) bitsize d) zero

/-- What buildDefaultValue finds at a data member: a primitive without initial value, an initial value ready (primitive, or a
class value given by a constant or an initialization list, see below), an object of a class without initial value, or an
`Atom`. -/
inductive Init (n : Nat)
  | plain
  | value (v : Bits)
  | object (d : Fin n)
  | atom

/-- A program: inheritance, classes with members, the initial values of the members in order of declaration, the type field
(with parity) of each element, and the element `Empty`. -/
structure Prog (n : Nat) where
  w : World n
  L : Fin n → Class
  init : Fin n → List (Init n)
  header : Fin n → Bits
  empty : Fin n

/-- `getSizeofUlamType` of one item of a member. -/
def itemSize (m : Member) : Nat := if m.element then bitsPerAtom else m.bits

/-- `ATOMFIRSTSTATEBITPOS` for elements. -/
def firstBit (k : Class) : Nat := if k.kind = .element then 25 else 0

/-- `NodeVarDeclDM.cpp:793-917` `buildDefaultValue`, with `foldDefaultClass` (924-949). `dv` is
`CompilerState::getDefaultClassValue`. -/
def buildMember (G : Prog n) (dv : Fin n → Option Bits) (hd : Nat) (m : Member) (pos : Nat) (ini : Init n) (dst : Bits) :
    Option Bits :=
  if m.sizeof = 0 then some dst
  else match ini with
    | .plain => some dst
    | .value v => some (copyBV v 0 (pos + hd) m.sizeof dst)
    | .object d =>
      match dv d with
      | none => none
      | some u => some (copyBV (asArray (itemSize m) (if m.count > 0 then m.count else 1) 0 u) 0 (pos + hd) m.sizeof dst)
    | .atom =>
      match dv G.empty with
      | none => none
      | some u => some (copyBV (asArray bitsPerAtom m.count 0 u) 0 (pos + hd) m.sizeof dst)

/-- `NodeStatements.cpp:206-214`: the members in order of declaration. -/
def buildMembers (G : Prog n) (dv : Fin n → Option Bits) (hd : Nat) :
    List Member → List Nat → List (Init n) → Bits → Option Bits
  | m :: ms, p :: ps, i :: is, dst =>
    match buildMember G dv hd m p i dst with
    | none => none
    | some d => buildMembers G dv hd ms ps is d
  | _, _, _, dst => some dst

/-- `NodeBlockClass.cpp:1798-1820`: the direct bases (an absent superclass is `Nouti`). -/
def buildBases (G : Prog n) (dv : Fin n → Option Bits) (hd : Nat) : List (Entry n) → List (Option Nat) → Bits → Option Bits
  | e :: es, p :: ps, dst =>
    if e.base = G.w.nouti then buildBases G dv hd es ps dst
    else match dv e.base, p with
      | some u, some r => buildBases G dv hd es ps (copyBV u 0 (hd + r) (baseBits G.L e.base) dst)
      | _, _ => none
  | _, _, dst => some dst

/-- `NodeBlockClass.cpp:1822-1843`: the other shared bases. -/
def buildShared (G : Prog n) (dv : Fin n → Option Bits) (hd : Nat) (c : Fin n) :
    List (Fin n) → List (Option Nat) → Bits → Option Bits
  | b :: bs, p :: ps, dst =>
    if (baseItem G.w c b).isSome then buildShared G dv hd c bs ps dst
    else match dv b, p with
      | some u, some r => buildShared G dv hd c bs ps (copyBV u 0 (hd + r) (baseBits G.L b) dst)
      | _, _ => none
  | _, _, dst => some dst

/-- `getSizeofUlamType` of a class: elements are whole atoms. -/
def classSize (G : Prog n) (c : Fin n) : Nat := if (G.L c).kind = .element then bitsPerAtom else totalBits G.w G.L c

/-- `SymbolClass.cpp:689-738` `getDefaultValue` and `NodeBlockClass.cpp:1758-1846` `buildDefaultValue`, called through
`CompilerState.cpp:1836-1857` `getDefaultClassValue`. A class that needs its own default value never gets one (the compiler
reports an error, `NodeBlockClass.cpp:1762-1770`); the recursion is cut by the first argument, and results do not depend on
it. The result is kept in the class (`m_defaultValue`). -/
def default (G : Prog n) : Nat → Fin n → Option Bits
  | 0, _ => none
  | f + 1, c =>
    if classSize G c = 0 then some zero
    else match pack G.w G.L c with
      | none => none
      | some p =>
        let hd := firstBit (G.L c)
        let d := if (G.L c).kind = .element then copyBV (G.header c) 0 0 25 zero else zero
        match buildMembers G (default G f) hd (G.L c).members p.members (G.init c) d with
        | none => none
        | some d1 =>
          match buildBases G (default G f) hd (G.w.table c) p.bases d1 with
          | none => none
          | some d2 => buildShared G (default G f) hd c (sharedTable G.w c) p.shared d2

/-! ## Initialization lists `{ .a = 1, .b = { ... } }` -/

mutual
/-- The value for one member: bits of a folded constant (also of arrays and class constants), or a list for a member of
class `d`. -/
inductive Val (n : Nat)
  | bits (v : Bits)
  | list (d : Fin n) (l : Inits n)
/-- The items of a list: class that declares the member, number of the member in it, value. -/
inductive Inits (n : Nat)
  | nil
  | cons (a : Fin n) (i : Nat) (v : Val n) (rest : Inits n)
end

/-- Position and length of member `i` of class `a` in an object of class `d`: `NodeInitDM.cpp:457-485`. -/
def place (G : Prog n) (d a : Fin n) (i : Nat) : Option (Nat × Nat) :=
  match pack G.w G.L a with
  | none => none
  | some p =>
    match p.members[i]?, (G.L a).members[i]? with
    | some q, some m =>
      some (q + (relativePosition G.w (pack G.w G.L) d a).getD 0 + firstBit (G.L d), m.sizeof)
    | _, _ => none

/-- `SymbolWithValue.cpp:882-907` `isValueAllZeros`. -/
def allZeros (pos len : Nat) (mask : Bits) : Bool := (List.range len).all fun x => !mask (pos + x)

mutual
/-- `NodeInitDM.cpp:454-555` `initDataMemberConstantValue`: value and mask; `none` is the error that a previous
initialization is clobbered (or a member that is not there). -/
def initMember (G : Prog n) (d a : Fin n) (i : Nat) : Val n → Bits → Bits → Option (Bits × Bits)
  | .bits v, bv, mask =>
    match place G d a i with
    | none => none
    | some (pos, len) =>
      if allZeros pos len mask then
        some (copyBV v 0 pos len bv, copyBV (fun _ => true) 0 pos len mask)
      else none
  | .list d' l, bv, mask =>
    match place G d a i with
    | none => none
    | some (pos, len) =>
      if allZeros pos len mask then
        match initList G d' l (copyBV bv pos 0 len zero) zero with
        | none => none
        | some (r, _) => some (copyBV r 0 pos len bv, copyBV (fun _ => true) 0 pos len mask)
      else none
/-- `NodeListClassInit.cpp:275-286` `initDataMembersConstantValue`. -/
def initList (G : Prog n) (d : Fin n) : Inits n → Bits → Bits → Option (Bits × Bits)
  | .nil, bv, mask => some (bv, mask)
  | .cons a i v rest, bv, mask =>
    match initMember G d a i v bv mask with
    | none => none
    | some (bv', mask') => initList G d rest bv' mask'
end

/-- `NodeVarDecl.cpp:330-356` `buildDefaultValueForClassConstantInitialization`, `NodeVarDeclDM.cpp:850-866`: an object of class
`d` with an initialization list starts from the default value. -/
def initObject (G : Prog n) (f : Nat) (d : Fin n) (l : Inits n) : Option Bits :=
  match default G f d with
  | none => none
  | some u => (initList G d l u zero).map (·.1)

/-! ## Array lists `{ 1, 2, 3 }` -/

/-- The items one after the other, `NodeListArrayInitialization.cpp:324-329` with `buildArrayItemInitialValue` (351-394). -/
def arrayItems (len : Nat) : Nat → List Bits → Bits → Bits
  | _, [], bv => bv
  | i, v :: vs, bv => arrayItems len (i + 1) vs (copyBV v 0 (i * len) len bv)

/-- The last value for the items left, `NodeListArrayInitialization.cpp:337-346` and `423-434`. -/
def repeatLast (len n k : Nat) (bv : Bits) : Bits :=
  if n < k then
    (List.range (k - n)).foldl (fun d j => copyBV (copyBV bv ((n - 1) * len) 0 len zero) 0 ((n + j) * len) len d) bv
  else bv

/-- `NodeListArrayInitialization.cpp:305-349` `buildArrayValueInitialization` for `k` items of a primitive type. -/
def arrayValue (len k : Nat) (items : List Bits) (bv : Bits) : Bits := repeatLast len items.length k (arrayItems len 0 items bv)

/-- `NodeListArrayInitialization.cpp:412-418` with `buildClassArrayItemInitialValue` (440-483) for class initialization lists. -/
def classItems (G : Prog n) (d : Fin n) (len : Nat) : Nat → List (Inits n) → Bits → Option Bits
  | _, [], bv => some bv
  | i, l :: ls, bv =>
    match initList G d l (copyBV bv (i * len) 0 len zero) zero with
    | none => none
    | some r => classItems G d len (i + 1) ls (copyBV r.1 0 (i * len) len bv)

/-- `NodeListArrayInitialization.cpp:397-438` `buildClassArrayValueInitialization`. -/
def classArray (G : Prog n) (d : Fin n) (len k : Nat) (ls : List (Inits n)) (bv : Bits) : Option Bits :=
  (classItems G d len 0 ls bv).map (repeatLast len ls.length k)

end Ulam.Default
