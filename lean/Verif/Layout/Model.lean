import Verif.Walker.Model
/-!
# Laying out data members and base classes (model)

Sizes are known: the functions are modelled for complete types, so the "unknown size" answers do not occur. `u32`
arithmetic is modulo `2 ^ 32`.
-/
namespace Ulam.Layout
open Walker
variable {n : Nat}

/-- What layout reads of the type of a data member: is it an element, bits of one item, array length (`none`: scalar,
`NONARRAYSIZE`). -/
structure Member where
  element : Bool
  bits : Nat
  array : Option Nat
  deriving DecidableEq

/-- `BITSPERATOM`, `include/Constants.h`. -/
def bitsPerAtom : Nat := 96

/-- The array length, 1 for a scalar (`UlamType.cpp:466-467`, `UlamTypeClassElement.cpp:92-93`). -/
def Member.count (m : Member) : Nat := match m.array with | none => 1 | some k => k

/-- `UlamType.cpp:464-472` `getTotalBitSize`. -/
def Member.totalBitSize (m : Member) : Nat := (m.bits * m.count) % 2 ^ 32

/-- `UlamType.cpp:474-477` and `UlamTypeClassElement.cpp:89-97` `getSizeofUlamType`. -/
def Member.sizeof (m : Member) : Nat := if m.element then (bitsPerAtom * m.count) % 2 ^ 32 else m.totalBitSize

/-- `NodeVarDeclDM.cpp:951-980` `packBitsInOrderOfDeclaration`, called for each member in turn by
`NodeStatements.cpp:254-263`: positions and the offset after. -/
def packMembers (isUnion : Bool) : Nat → List Member → List Nat × Nat
  | off, [] => ([], off)
  | off, m :: ms =>
    let r := packMembers isUnion (if isUnion then off else (off + m.sizeof) % 2 ^ 32) ms
    (off :: r.1, r.2)

/-- `SymbolTableOfVariables.cpp:129-208` `getTotalVariableSymbolsBitSize`; the members come in the order of the symbol
table. -/
def totalVariableBits (transient : Bool) (ms : List Member) : Nat :=
  ms.foldl (fun t m => (t + (if transient && m.element then bitsPerAtom * m.count else m.totalBitSize)) % 2 ^ 32) 0

/-- `SymbolTableOfVariables.cpp:209-267` `getMaxVariableSymbolsBitSize`. -/
def maxVariableBits (ms : List Member) : Nat :=
  ms.foldl (fun t m => if m.totalBitSize > t then m.totalBitSize else t) 0

inductive Kind | quark | element | transient
  deriving DecidableEq

/-- A class: kind, the union flag, its data members in order of declaration and in the order of the symbol table. -/
structure Class where
  kind : Kind
  isUnion : Bool
  members : List Member
  table : List Member

/-- `NodeBlockClass.cpp:2025-2109`, chosen by `SymbolClass.cpp:530-534`: `mybits`. -/
def myBits (k : Class) : Nat :=
  if k.isUnion then maxVariableBits k.table else totalVariableBits (k.kind = .transient) k.table

/-- `CompilerState.cpp:1937-1945` `getBaseClassBitSize`, with the value set at `SymbolClassName.cpp:403`. -/
def baseBits (L : Fin n → Class) (b : Fin n) : Nat := if (L b).kind = .element then 0 else myBits (L b)

/-- The table built by `SymbolClass.cpp:568-608` `determineSharedBasesAndTotalBitsize`: the keys of the tally, in the order of
the map. -/
def sharedTable (w : World n) (c : Fin n) : List (Fin n) :=
  (List.finRange n).filter fun y => decide ((findSharedBases w c fun _ => 0).1 y > 0)

/-- `SymbolClass.cpp:568-608`: the size of one of each shared base. -/
def sharedBits (w : World n) (L : Fin n → Class) (c : Fin n) : Nat :=
  (sharedTable w c).foldl (fun t b => (t + baseBits L b) % 2 ^ 32) 0

/-- `SymbolClassName.cpp:383`: the size of a class. -/
def totalBits (w : World n) (L : Fin n → Class) (c : Fin n) : Nat := (myBits (L c) + sharedBits w L c) % 2 ^ 32

/-- `maptype2pos`. -/
abbrev PosMap (n : Nat) := Fin n → Option Nat

/-- `NodeBlockClass.cpp:2284-2349`: positions of the direct bases (`none` for the absent superclass); fails on a duplicate. -/
def packBases (w : World n) (L : Fin n → Class) : Nat → PosMap n → List (Entry n) → Option (List (Option Nat) × PosMap n × Nat)
  | off, m, [] => some ([], m, off)
  | off, m, e :: es =>
    if e.base = w.nouti then (packBases w L off m es).map fun r => (none :: r.1, r.2)
    else match m e.base with
      | some _ => none
      | none => (packBases w L ((off + baseBits L e.base) % 2 ^ 32) (Function.update m e.base (some off)) es).map
          fun r => (some off :: r.1, r.2)

/-- `NodeBlockClass.cpp:2351-2420`: positions of the shared bases. -/
def packShared (w : World n) (L : Fin n → Class) (c : Fin n) (bp : List (Option Nat)) (m : PosMap n) :
    Nat → List (Fin n) → List (Option Nat) × Nat
  | off, [] => ([], off)
  | off, b :: bs =>
    match baseItem w c b with
    | some i => let r := packShared w L c bp m off bs; ((bp[i]?).join :: r.1, r.2)
    | none =>
      match m b with
      | some p => let r := packShared w L c bp m off bs; (some p :: r.1, r.2)
      | none => let r := packShared w L c bp m ((off + baseBits L b) % 2 ^ 32) bs; (some off :: r.1, r.2)

/-- Positions of the members, of the direct bases by table item, of the shared bases by table item; end of the layout. -/
structure Packed where
  members : List Nat
  bases : List (Option Nat)
  shared : List (Option Nat)
  stop : Nat

/-- `NodeBlockClass.cpp:2253-2422` `packBitsForVariableDataMembers`. Simplification: the early return for a class without any
symbol (2255) is left out; every class has at least the symbol of its superclass. -/
def pack (w : World n) (L : Fin n → Class) (c : Fin n) : Option Packed :=
  let r := packMembers (L c).isUnion 0 (L c).members
  match packBases w L r.2 (fun _ => none) (w.table c) with
  | none => none
  | some (bp, m, off) =>
    let s := packShared w L c bp m off (sharedTable w c)
    some ⟨r.1, bp, s.1, s.2⟩

/-- `SymbolClass.cpp:379-400` `isASharedBaseClassItemSearch`. -/
def sharedItem (w : World n) (c b : Fin n) : Option Nat :=
  (sharedTable w c).findIdx? fun x => decide (x ≠ w.nouti ∧ w.root x = w.root b)

/-- The loop of `CompilerState.cpp:2810-2862`: whether found, and the position. `none` in a table is `UNKNOWNSIZE`, which ends
the search; a class not laid out yet has only those. -/
def relLoop (w : World n) (P : Fin n → Option Packed) (b : Fin n) (s : State n) : Option Nat :=
  match h : getNextBase w s with
  | none => none
  | some (r, t) =>
    if w.defined r then
      match findNearest w r b with
      | some f =>
        match baseItem w f b with
        | some i => (P f).bind fun p => (p.bases[i]?).join
        | none =>
          match sharedItem w f b with
          | some i => (P f).bind fun p => (p.shared[i]?).join
          | none => some 0
      | none => relLoop w P b (addAncestorPairsOf w false r w.nouti t)
    else relLoop w P b t
termination_by n - s.seen.card
decreasing_by
  all_goals have h1 := getNextBase_some h
  · rw [add_seen]; exact fuel_lt h1.1 h1.2
  · exact fuel_lt h1.1 h1.2

/-- `CompilerState.cpp:2796-2866` `getABaseClassRelativePositionInAClass`; `none` is the answer "not a base". -/
def relativePosition (w : World n) (P : Fin n → Option Packed) (c b : Fin n) : Option Nat :=
  if w.root (w.deref c) = w.root (w.deref b) then some 0 else relLoop w P (w.deref b) (init w (w.deref c))

end Ulam.Layout
