import Verif.Walker.Model
import Verif.Leximited.Model
/-!
# The functions of a class and the checks for duplicates (model)

`SymbolFunctionName.cpp`, `SymbolFunction.cpp`, `SymbolTableOfFunctions.cpp` and `NodeBlockClass.cpp`. After labelling, types
are complete and `UlamType::compare` on them is equality; the model has a number for each type. The key of a function,
`getMangledNameWithTypes` (`SymbolFunction.cpp:227-261`), is its name with the list of the types of its parameters: that the
string determines these is C03.
-/
namespace Ulam.FuncTable

/-! ## While parsing -/

/-- What is known of the type of a parameter when the parser enters the function: a `Hzy` type or holder with the number of
the node of the function, no type yet but a given one with or without `&`, or a type. -/
inductive Param
  | hazy (uti node : Nat)
  | unset (given : Nat) (ref : Bool)
  | known (uti : Nat)
  deriving DecidableEq

/-- The number of the type `Void`, `include/UlamType.inc` is the list the numbers come from; any number. -/
structure Consts where
  void : Nat

/-- `SymbolFunction.cpp:284-298`: what one parameter adds to the key, after the comma. -/
def item : Param → List Char
  | .hazy u k => Leximited.dec u ++ '-' :: Leximited.dec k
  | .unset g r => Leximited.dec g ++ (if r then ['r'] else [])
  | .known u => Leximited.dec u

/-- `SymbolFunction.cpp:265-301` `getMangledNameWithUTIparameters`, after the name, which all functions of one
`SymbolFunctionName` have in common. -/
def utiKey (k : Consts) (ps : List Param) : List Char :=
  if ps.length = 0 then ',' :: Leximited.dec k.void
  else ps.flatMap fun p => ',' :: item p

/-- `m_mangledFunctionNames`: keys with what they stand for. -/
abbrev Names (α : Type) := List (List Char × α)

/-- `SymbolFunctionName.cpp:709-722` `isDefined`. -/
def isDefined {α : Type} (m : Names α) (key : List Char) : Option α := (m.find? fun e => e.1 = key).map Prod.snd

/-- `SymbolFunctionName.cpp:86-105` `overloadFunction`: whether the function was added, the table, and the one in the way. -/
def overloadFunction {α : Type} (m : Names α) (key : List Char) (f : α) : Bool × Names α × Option α :=
  match isDefined m key with
  | none => (true, m ++ [(key, f)], none)
  | some g => (false, m, some g)

/-! ## After labelling -/

/-- A function: name, types of the parameters, return type, `virtual`. -/
structure Fun where
  name : Nat
  params : List Nat
  ret : Nat
  virt : Bool
  deriving DecidableEq

/-- The key: see the head of this file. -/
abbrev Key := Nat × List Nat
def Fun.key (f : Fun) : Key := (f.name, f.params)

/-- `include/FunctionSignatureTable.h:43-50` without the class, which is only shown. -/
structure FSEntry where
  rtnType : Nat
  isVirtual : Bool
  hasProblem : Bool
  matchesFound : Nat
  deriving DecidableEq

/-- `include/FunctionSignatureTable.h:53-53`. -/
abbrev FSTable := List (Key × FSEntry)

def FSTable.find (m : FSTable) (k : Key) : Option FSEntry := (m.find? fun e => e.1 = k).map Prod.snd

/-- Changing the entry of a key in place. -/
def FSTable.update (m : FSTable) (k : Key) (g : FSEntry → FSEntry) : FSTable :=
  m.map fun e => if e.1 = k then (e.1, g e.2) else e

/-- The two errors: a second definition, and another return type. -/
inductive Err
  | duplicate (f : Fun) | returns (f : Fun) (old : Nat)
  deriving DecidableEq

/-- The table and the errors shown; `probcount` is their number. -/
structure St where
  map : FSTable
  errs : List Err

/-- `SymbolFunctionName.cpp:382-426` `checkForDuplicateFunctionSignature`. -/
def checkForDup (s : St) (f : Fun) : Bool × St :=
  match s.map.find f.key with
  | some e =>
    (!e.isVirtual,
      { map := s.map.update f.key fun e =>
          { e with matchesFound := if e.isVirtual then e.matchesFound else e.matchesFound + 1,
                   hasProblem := if e.rtnType ≠ f.ret then true else e.hasProblem }
        errs := if e.rtnType ≠ f.ret then s.errs ++ [.returns f e.rtnType] else s.errs })
  | none => (false, { s with map := s.map ++ [(f.key, ⟨f.ret, f.virt, false, 1⟩)] })

/-- `SymbolFunctionName.cpp:342-366` `checkFunctionNames` over the functions of `SymbolTableOfFunctions.cpp:35-48`
`checkTableOfFunctions`, in the order of the tables. -/
def checkNames (s : St) : List Fun → St
  | [] => s
  | f :: l =>
    match checkForDup s f with
    | (true, t) => checkNames { t with errs := t.errs ++ [.duplicate f] } l
    | (false, t) => checkNames t l

/-- `SymbolFunctionName.cpp:368-380` `checkFunctionSignatureReturnTypes` over the functions of
`SymbolTableOfFunctions.cpp:50-63`. -/
def checkReturns (s : St) : List Fun → St
  | [] => s
  | f :: l => checkReturns (checkForDup s f).2 l

/-- A class block: whether the parser found `{ }` (`Parser.cpp:499-503`), and its functions in the order of its tables. -/
structure Block where
  empty : Bool
  funs : List Fun

/-- `NodeBlockClass.cpp:1464-1479` `checkMatchingFunctions`: the errors shown. -/
def checkMatching (b : Block) : List Err := if ¬ b.empty then (checkNames ⟨[], []⟩ b.funs).errs else []

/-- `NodeBlockClass.cpp:1452-1462` `checkDuplicateFunctions`. -/
def checkDuplicates (s : St) (b : Block) : St := if ¬ b.empty then checkReturns s b.funs else s

variable {n : Nat}

/-- The loop of `NodeBlockClass.cpp:1433-1448` over the classes the walker meets; errors of both checks, as they come. -/
def checkWalk (blk : Fin n → Block) (s : St) : List (Fin n) → St
  | [] => s
  | c :: l => checkWalk blk (checkDuplicates { s with errs := s.errs ++ checkMatching (blk c) } (blk c)) l

/-- `NodeBlockClass.cpp:1419-1450` `checkDuplicateFunctionsInClassAndAncestors`: the errors shown. -/
def checkClass (w : Walker.World n) (blk : Fin n → Block) (c : Fin n) : List Err :=
  if ¬ (blk c).empty then (checkWalk blk ⟨[], []⟩ (Walker.classes w false c)).errs else []

end Ulam.FuncTable
