import Verif.ElemType.Model
/-
Model of class registration numbers and of the element type numbers of
classes: /repo/src/ulam/SymbolClass.cpp:1102-1208,
NodeBlockLocals.cpp:136-172, CompilerState.cpp:4052-4057, 4090-4116,
7309-7343.

An owner of a registration number is a class symbol or the locals block of a
file.  Both carry a `m_registryNumber` field of their own; the model keeps all
of them in one function from owners to field values.  A UTI names the owner in
the registry (locals blocks have UTIs of their own).
-/
namespace Ulam.Registry

/-- `UNINITTED_REGISTRY_NUMBER`; include/Constants.h. -/
def unassigned : Nat := 4294967295

/-- `MAX_REGISTRY_NUMBER`; include/Constants.h. -/
def maxRegistry : Nat := 1000

/-- Who may hold a registration number: a class, the locals of a file, or the temporary class
made to generate code for the locals of a file (CompilerState.cpp:4100-4116). -/
inductive Owner where
  | cls (uti : Nat)
  | locals (uti : Nat)
  | temp (locals : Nat)
deriving DecidableEq

/-- The part of the compiler's state used here: `m_classIdRegistryUTI`, every owner's registration
number, every class's `m_elementType`, and the element type generator. -/
structure World where
  registry : List Nat
  number : Owner → Nat
  elemType : Nat → Nat
  gen : ElemType.Gen

/-- What does not change: which class is UrSelf and which is the element Empty
(CompilerState.cpp:7672-7710, after the first look-up has fixed them). -/
structure Env where
  urSelf : Nat
  empty : Nat

/-- The start: CompilerState.cpp:150 (one slot, for UrSelf), and the constructors
SymbolClass.cpp:14,18 and NodeBlockLocals.cpp:7,9 (every number unassigned). -/
def World.init : World := ⟨[0], fun _ => unassigned, fun _ => 0, ElemType.Gen.init⟩

/-- Set one owner's field. -/
def setNumber (w : World) (o : Owner) (n : Nat) : World :=
  { w with number := fun x => if x = o then n else w.number x }

/-- `SymbolClass::assignRegistryNumber`; SymbolClass.cpp:1102-1132. -/
def assignClassNumber (w : World) (o : Owner) (n : Nat) : Bool × World :=
  if n = unassigned then (false, w)
  else if w.number o ≠ unassigned then (false, w)
  else if n ≥ maxRegistry then (false, w)
  else (true, setNumber w o n)

/-- `NodeBlockLocals::assignRegistrationNumberToLocalsBlock`; NodeBlockLocals.cpp:136-157.
Unlike the class version it has no check against the maximum. -/
def assignLocalsNumber (w : World) (o : Owner) (n : Nat) : Bool × World :=
  if n = unassigned then (false, w)
  else if w.number o ≠ unassigned then (false, w)
  else (true, setNumber w o n)

/-- `CompilerState::assignClassId`; CompilerState.cpp:7333-7343.  `none`: the assertion on the
size of the registry (4052-4057 and 7340) fails. -/
def assignClassId (e : Env) (w : World) (cuti : Nat) : Option (Nat × World) :=
  if cuti = e.urSelf then some (0, { w with registry := w.registry.set 0 cuti })
  else if w.registry.length < maxRegistry then
    some (w.registry.length, { w with registry := w.registry ++ [cuti] })
  else none

/-- `SymbolClass::getRegistryNumber`; SymbolClass.cpp:1195-1208.  `ready` is the answer of
`okUTItoContinue && isComplete`.  `none`: an assertion fails. -/
def getClassNumber (e : Env) (w : World) (cuti : Nat) (ready : Bool) : Option (Nat × World) :=
  if w.number (.cls cuti) = unassigned ∧ ready = true then
    match assignClassId e w cuti with
    | none => none
    | some (n, w') =>
      match assignClassNumber w' (.cls cuti) n with
      | (true, w'') => some (w''.number (.cls cuti), w'')
      | (false, _) => none
  else some (w.number (.cls cuti), w)

/-- `NodeBlockLocals::getRegistrationNumberForLocalsBlock`; NodeBlockLocals.cpp:159-172. -/
def getLocalsNumber (e : Env) (w : World) (luti : Nat) (ready : Bool) : Option (Nat × World) :=
  if w.number (.locals luti) = unassigned ∧ ready = true then
    match assignClassId e w luti with
    | none => none
    | some (n, w') =>
      match assignLocalsNumber w' (.locals luti) n with
      | (true, w'') => some (w''.number (.locals luti), w'')
      | (false, _) => none
  else some (w.number (.locals luti), w)

/-- The temporary class of a locals block takes the block's number;
CompilerState.cpp:4110-4115.  (The temporary class is not complete when asked for its number, so
the second call assigns nothing.)  `none`: the assertion that it took fails. -/
def tempClass (e : Env) (w : World) (luti : Nat) (ready : Bool) : Option World :=
  match getLocalsNumber e w luti ready with
  | none => none
  | some (localrn, w') =>
    let w'' := (assignClassNumber w' (.temp luti) localrn).2
    if w''.number (.temp luti) ≠ unassigned ∧ w''.number (.temp luti) = localrn then some w''
    else none

/-- Set one class's element type. -/
def setElem (w : World) (c n : Nat) : World :=
  { w with elemType := fun x => if x = c then n else w.elemType x }

/-- `SymbolClass::assignElementType`; SymbolClass.cpp:1134-1164. -/
def assignElementType (w : World) (c n : Nat) : Bool × World :=
  if n = 0 then (false, w)
  else if w.elemType c ≠ 0 then (false, w)
  else if n ≥ ElemType.emptyType then (false, w)
  else (true, setElem w c n)

/-- `SymbolClass::assignEmptyElementType`; SymbolClass.cpp:1166-1177. -/
def assignEmptyElementType (w : World) (c : Nat) : Bool × World :=
  if w.elemType c ≠ 0 then (false, w) else (true, setElem w c ElemType.emptyType)

/-- `SymbolClass::getElementType`; SymbolClass.cpp:1178-1193.  `none`: the generator stops with a
failed assertion or never returns. -/
def getElementType (e : Env) (w : World) (c : Nat) : Option (Nat × World) :=
  if w.elemType c = 0 then
    if c = e.empty then
      let w' := (assignEmptyElementType w c).2
      some (w'.elemType c, w')
    else
      match ElemType.makeNextType w.gen c with
      | .ok t g =>
        let w' := (assignElementType { w with gen := g } c t).2
        some (w'.elemType c, w')
      | _ => none
  else some (w.elemType c, w)

/-- `CompilerState::lookupClassByElementType`; CompilerState.cpp:7325-7331.  `none`: assertion. -/
def lookupClassByElementType (e : Env) (w : World) (ele : Nat) : Option Nat :=
  if ele = ElemType.emptyType then some e.empty
  else if ele ≠ 0 then some (ElemType.findElementTypeClass w.gen ele)
  else none

/-- The calls the compiler makes. -/
inductive Op where
  | number (c : Nat) (ready : Bool)
  | locals (l : Nat) (ready : Bool)
  | temp (l : Nat) (ready : Bool)
  | elem (c : Nat)

/-- One call. -/
def step (e : Env) (w : World) : Op → Option World
  | .number c r => (getClassNumber e w c r).map (·.2)
  | .locals l r => (getLocalsNumber e w l r).map (·.2)
  | .temp l r => tempClass e w l r
  | .elem c => (getElementType e w c).map (·.2)

/-- A history of calls; `none` if one of them stops the compiler. -/
def run (e : Env) : World → List Op → Option World
  | w, [] => some w
  | w, o :: os => (step e w o).bind fun w' => run e w' os

end Ulam.Registry
