import Verif.Walker.Model
/-!
# Virtual function tables (model)

How the tables of virtual functions are built: `SymbolFunction.cpp:570-678`, `SymbolClass.cpp:1826-1921` and `1962-1984`,
`SymbolTableOfFunctions.cpp:167-219`, `NodeBlockClass.cpp:1488-1544`, the two searches of `CompilerState.cpp:4808-4994`, and
the repeated passes over all classes, `SymbolTableOfClasses.cpp:289-307` and `Compiler.cpp:291-307`. The hierarchy and the
walk over it are those of `Verif.Walker.Model`.

A function is named by its signature (name and parameter types) as a number; `matchingTypesStrictly` is equality of
signatures. A failed `assert` is `none`. Messages other than errors are left out.
-/
namespace Ulam.Virtual
open Ulam.Walker

/-- What is declared in the class body: `NodeFuncDecl`s in order, with the flags set by the parser. -/
structure Decl where
  sig : Nat
  virt : Bool
  pure : Bool
  must : Bool
  deriving DecidableEq

/-- The parts of `SymbolFunction` used here (`include/SymbolFunction.h`): `m_virtualFunction`, `m_pureVirtual`,
`m_insureVirtualOverride`, `m_virtualIdx`, `m_virtualOrigUTI` (`none`: `Nouti`). -/
structure Func (n : Nat) where
  sig : Nat
  virt : Bool
  pure : Bool
  must : Bool
  vidx : Nat
  orig : Option (Fin n)
  deriving DecidableEq

/-- `include/VirtualTable.h:45-52` `VTEntry`. The function pointer is the class it is found in and the signature. -/
structure VTEntry (n : Nat) where
  func : Fin n × Nat
  ofClass : Fin n
  orig : Fin n
  vidx : Nat
  pure : Bool
  deriving DecidableEq

/-- Per class: its functions in order of declaration, `m_vtable`, `m_vownedVT`, `m_basesVTstart`, `m_vtableinitialized`, and
`m_virtualmethodMaxIdx` of the class block (`none`: `UNKNOWNSIZE`). -/
structure ClassSt (n : Nat) where
  funcs : List (Func n)
  vtable : List (VTEntry n)
  owned : List (VTEntry n)
  starts : List (Fin n × Nat)
  inited : Bool
  max : Option Nat
  deriving DecidableEq

/-- All classes, and the number of errors reported. -/
structure St (n : Nat) where
  cls : Fin n → ClassSt n
  errors : Nat

variable {n : Nat}

/-- A function as it is before the tables are built. -/
def fresh (d : Decl) : Func n := ⟨d.sig, d.virt, d.pure, d.must, 0, none⟩

/-- All classes before the tables are built. -/
def start (decls : Fin n → List Decl) : St n := ⟨fun c => ⟨(decls c).map fresh, [], [], [], false, none⟩, 0⟩

/-- The classes met by a walk begun with `walker.addAncestorsOf(csym)`, e.g. `CompilerState.cpp:4822-4828`. -/
def ancestors (w : World n) (breadth : Bool) (c : Fin n) : List (Fin n) :=
  (sightings w breadth (addAncestorPairsOf w breadth c w.nouti ⟨[], ∅⟩)).filter fun x => w.defined x

/-- `CompilerState.cpp:4788-4806` `findMatchingFunctionStrictlyByTypesInClassScope`: the function of the class itself with
that signature. Simplification: there is at most one (duplicates are reported before). -/
def findFunc (st : St n) (c : Fin n) (sig : Nat) : Option (Func n) := (st.cls c).funcs.find? fun f => f.sig = sig

/-- Loop body of `CompilerState.cpp:4828-4879`; the class found so far. -/
def overrideStep (w : World n) (st : St n) (sig : Nat) (found : Option (Fin n)) (b : Fin n) : Option (Fin n) :=
  match findFunc st b sig with
  | none => found
  | some f =>
    if f.virt then
      match found with
      | none => some b
      | some a => if isClassASubclassOf w b a then some b else some a
    else found

/-- `CompilerState.cpp:4808-4884` `findOverrideMatchingVirtualFunctionStrictlyByTypesInAncestorOf`. -/
def findOverride (w : World n) (st : St n) (c : Fin n) (sig : Nat) : Option (Fin n) :=
  (ancestors w true c).foldl (overrideStep w st sig) none

/-- What the loop of `findOriginating` carries: `foundOriginator`, `origfsymref` and the errors. -/
structure Orig (n : Nat) where
  found : Option (Fin n)
  func : Option (Func n)
  errors : Nat

/-- Loop body of `CompilerState.cpp:4902-4977`. -/
def originStep (w : World n) (st : St n) (sig : Nat) (a : Orig n) (b : Fin n) : Orig n :=
  match findFunc st b sig with
  | none => a
  | some f =>
    if f.virt then
      match a.found with
      | none => ⟨some b, some f, a.errors⟩
      | some o =>
        if o = b then a
        else if isClassASubclassOf w o b then ⟨some b, some f, a.errors⟩
        else if isClassASubclassOf w b o then a
        else ⟨some o, none, a.errors + 1⟩
    else a

/-- `CompilerState.cpp:4886-4994` `findOriginatingMatchingVirtualFunctionStrictlyByTypesInAncestorOf`. -/
def findOriginating (w : World n) (st : St n) (c : Fin n) (sig : Nat) : Orig n :=
  (ancestors w false c).foldl (originStep w st sig) ⟨none, none, 0⟩

/-- `SymbolClass.cpp:1962-1970` `getVTstartoffsetOfRelatedOriginatingClass`. -/
def startOf (k : ClassSt n) (o : Fin n) : Option Nat := (k.starts.find? fun p => p.1 = o).map (·.2)

/-- `SymbolClass.cpp:1894-1921` `updateVTable`. -/
def updateVTable (k : ClassSt n) (vidx : Nat) (func : Fin n × Nat) (kin orig : Fin n) (pure : Bool) : Option (ClassSt n) :=
  match startOf k orig with
  | none => none
  | some start =>
    let idx := start + vidx
    match k.vtable[idx]? with
    | some e =>
      if e.orig = orig ∧ e.vidx = vidx then
        some { k with vtable := k.vtable.set idx { e with func := func, ofClass := kin, pure := pure } }
      else none
    | none =>
      if k.vtable.length = idx ∧ k.owned.length = vidx then
        let ve : VTEntry n := ⟨func, kin, orig, vidx, pure⟩
        some { k with vtable := k.vtable ++ [ve], owned := k.owned ++ [ve] }
      else none

/-- The class state of `c` replaced. -/
def St.set (st : St n) (c : Fin n) (k : ClassSt n) : St n := { st with cls := Function.update st.cls c k }

/-- The fields of a function symbol changed in place. -/
def setFunc (k : ClassSt n) (f : Func n) : ClassSt n :=
  { k with funcs := k.funcs.map fun g => if g.sig = f.sig then f else g }

/-- What `SymbolFunction.cpp:577-650` works out before the table is changed: whether the function is virtual, its slot
if inherited, its originating class, whether it overrides, and the errors reported. -/
structure Plan (n : Nat) where
  virt : Bool
  vidx : Option Nat
  orig : Fin n
  overriding : Bool
  errors : Nat

/-- `SymbolFunction.cpp:577-650`. The branch for a found function that is not virtual cannot be reached: the search only
finds virtual ones. -/
def plan (w : World n) (st : St n) (c : Fin n) (f : Func n) : Plan n :=
  match findOverride w st c f.sig with
  | some _ =>
    let o := findOriginating w st c f.sig
    match o.found, o.func with
    | some b, some g => ⟨true, some g.vidx, b, true, o.errors⟩
    | _, _ => ⟨true, none, c, true, o.errors⟩
  | none => ⟨f.virt, none, c, false, 0⟩

/-- `SymbolFunction.cpp:575-678` `calcMaxIndexOfVirtualFunction` for the function `f` of class `c`; `maxidx` is the number of
slots the class has added so far. -/
def calcFunction (w : World n) (c : Fin n) (f : Func n) (x : St n × Nat) : Option (St n × Nat) :=
  let p := plan w x.1 c f
  if p.virt then
    if f.orig.isSome then none
    else
      let vidx := p.vidx.getD x.2
      let next := if p.vidx.isSome then x.2 else x.2 + 1
      let k := setFunc (x.1.cls c) { f with virt := true, vidx := vidx, orig := some p.orig }
      match updateVTable k vidx (c, f.sig) c p.orig f.pure with
      | none => none
      | some k' =>
        let st := x.1.set c k'
        some ({ st with errors := st.errors + p.errors + (if f.must && !p.overriding then 1 else 0) }, next)
  else some (x.1, x.2)

/-- `NodeStatements.cpp:265-272`: the declarations of the class, in order. -/
def calcFunctions (w : World n) (c : Fin n) : List (Func n) → St n × Nat → Option (St n × Nat)
  | [], x => some x
  | f :: fs, x =>
    match calcFunction w c f x with
    | none => none
    | some y => calcFunctions w c fs y

/-- `SymbolClass.cpp:1855-1880`: an entry of base `b` as copied into the table of `c`. -/
def inherit (w : World n) (st : St n) (c b : Fin n) (ve : VTEntry n) : VTEntry n :=
  match findOverride w st c ve.func.2 with
  | none => ve
  | some a =>
    if a ≠ b ∧ isClassASubclassOf w a b then
      { ve with ofClass := a, func := (a, ve.func.2), pure := ((findFunc st a ve.func.2).map (·.pure)).getD false }
    else ve

/-- Loop body of `SymbolClass.cpp:1845-1884`: table and start offsets. Simplification: `basesmaxes` is the length of the
table. -/
def initStep (w : World n) (st : St n) (c : Fin n) (a : List (VTEntry n) × List (Fin n × Nat)) (b : Fin n) :
    List (VTEntry n) × List (Fin n × Nat) :=
  if (a.2.find? fun p => p.1 = b).isSome then a
  else (a.1 ++ (st.cls b).owned.map (inherit w st c b), a.2 ++ [(b, a.1.length)])

/-- `SymbolClass.cpp:1826-1892` `initVTable`. -/
def initVTable (w : World n) (st : St n) (c : Fin n) (initialmax : Nat) : Option (St n) :=
  if (st.cls c).inited then some st
  else
    let a := (ancestors w false c).foldl (initStep w st c) ((st.cls c).vtable, (st.cls c).starts)
    if a.1.length = initialmax then
      let starts := if (a.2.find? fun p => p.1 = c).isSome then a.2 else a.2 ++ [(c, a.1.length)]
      some (st.set c { st.cls c with vtable := a.1, starts := starts, inited := true })
    else none

/-- `NodeBlockClass.cpp:1488-1544` `calcMaxIndexOfVirtualFunctions`, with `SymbolTableOfFunctions.cpp:167-219`. `none`: an
assertion fails. Simplification: `none` also if an ancestor's table is not there although those of the bases are. -/
def calcClass (w : World n) (st : St n) (c : Fin n) : Option (St n) :=
  if (st.cls c).max.isSome then some st
  else
    let bases := ((w.table c).filter fun e => e.base ≠ w.nouti).map fun e => w.root e.base
    if bases.all fun b => w.defined b then
      if bases.all fun b => (st.cls b).max.isSome then
        let up := ancestors w false c
        if up.all fun b => (st.cls b).inited then
          let accum := (up.map fun b => (st.cls b).owned.length).sum
          match initVTable w st c accum with
          | none => none
          | some st1 =>
            match calcFunctions w c (st1.cls c).funcs (st1, 0) with
            | none => none
            | some (st2, owned) => some (st2.set c { st2.cls c with max := some (accum + owned) })
        else none
      else some st
    else none

/-- `SymbolTableOfClasses.cpp:289-307`: one pass over the classes, in the order of the table. -/
def pass (w : World n) : List (Fin n) → St n → Option (St n)
  | [], st => some st
  | c :: cs, st =>
    match calcClass w st c with
    | none => none
    | some st' => pass w cs st'

/-- `Compiler.cpp:291-307`: passes over all classes, at most `k`, until every class has its table. -/
def passes (w : World n) (cs : List (Fin n)) : Nat → St n → Option (St n)
  | 0, st => some st
  | k + 1, st =>
    match pass w cs st with
    | none => none
    | some st' => if cs.all fun c => (st'.cls c).max.isSome then some st' else passes w cs k st'

/-- `NodeFunctionCall.cpp:1077-1080`, `1779-1783`: the class whose function is called for function `f` on an object of class
`c`. -/
def dispatch (st : St n) (c : Fin n) (f : Func n) : Option (Fin n) :=
  match f.orig with
  | none => none
  | some o => (startOf (st.cls c) o).bind fun s => ((st.cls c).vtable[f.vidx + s]?).map (·.ofClass)

end Ulam.Virtual
