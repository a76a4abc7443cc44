import Verif.Layout.Model
/-!
# What the generated code tells of the data members of a class (model)

The generated method `GetDataMemberInfo(number)` is a switch with one case for each data member; `GetDataMemberCount()`
returns their number. Classes, their tables of bases and the positions of members are those of `Verif/Layout/Model.lean`.
-/
namespace Ulam.ClassInfo
open Walker Layout
variable {n : Nat}

/-- One case of the switch: its number, the class the member is declared in, which member of that class it is, in order of
declaration, and the position written. Simplification: the type and the name, which are written from the same symbol, are
given by the member. -/
structure Case (n : Nat) where
  number : Nat
  owner : Fin n
  member : Nat
  pos : Nat
  deriving DecidableEq

/-- `NodeVarDeclDM.cpp:1150-1176` `generateUlamClassInfo` for the members of class `b` from the `i`-th on, one after another
(`NodeStatements.cpp:367-372`); `this` is the class compiled, `dmcount` the counter. `none`: an assertion fails. -/
def ofMembers (w : World n) (P : Fin n → Option Packed) (this b : Fin n) :
    Nat → Nat → List Member → Option (List (Case n) × Nat)
  | _, dmcount, [] => some ([], dmcount)
  | i, dmcount, _ :: ms =>
    match (P b).bind (·.members[i]?), relativePosition w P this b with
    | some off, some rel =>
      (ofMembers w P this b (i + 1) (dmcount + 1) ms).map fun r => (⟨dmcount, b, i, (off + rel) % 2 ^ 32⟩ :: r.1, r.2)
    | _, _ => none

/-- The calls for a list of classes, each of which is not the class compiled: these stop after their members
(`NodeBlockClass.cpp:4791-4796`). -/
def ofClasses (w : World n) (L : Fin n → Class) (P : Fin n → Option Packed) (this : Fin n) :
    Nat → List (Fin n) → Option (List (Case n) × Nat)
  | dmcount, [] => some ([], dmcount)
  | dmcount, b :: bs =>
    (ofMembers w P this b 0 dmcount (L b).members).bind fun r =>
      (ofClasses w L P this r.2 bs).map fun s => (r.1 ++ s.1, s.2)

/-- `NodeBlockClass.cpp:4786-4840` `generateUlamClassInfo` for the class compiled: its members, its direct bases, and the
shared bases that are not direct ones; the counter starts at 0 (`:3253-3255`). The second part is the counter after it. -/
def classInfo (w : World n) (L : Fin n → Class) (P : Fin n → Option Packed) (c : Fin n) : Option (List (Case n) × Nat) :=
  (ofMembers w P c c 0 0 (L c).members).bind fun r =>
    (ofClasses w L P c r.2 (((w.table c).map (·.base)).filter fun b => decide (b ≠ w.nouti))).bind fun s =>
      (ofClasses w L P c s.2 ((sharedTable w c).filter fun b =>
          decide (b ≠ w.nouti) && (baseItem w c b).isNone)).map fun t => (r.1 ++ s.1 ++ t.1, t.2)

/-- The generated function `GetDataMemberInfo`: the case of that number; `none` is `FAIL(ILLEGAL_ARGUMENT)`.
`NodeBlockClass.cpp:4721-4784` -/
def getInfo (w : World n) (L : Fin n → Class) (P : Fin n → Option Packed) (c : Fin n) (k : Nat) : Option (Case n) :=
  (classInfo w L P c).bind fun r => r.1.find? fun x => decide (x.number = k)

/-- The generated function `GetDataMemberCount`. `NodeBlockClass.cpp:4842-4894` -/
def getCount (w : World n) (L : Fin n → Class) (P : Fin n → Option Packed) (c : Fin n) : Option Nat :=
  (classInfo w L P c).map (·.2)

end Ulam.ClassInfo
