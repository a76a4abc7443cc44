import Verif.Select.Model
/-!
# Reading constants in the generated code (model)

`Node::genCodeReadFromAConstantClassIntoATmpVar`, `genCodeReadArrayItemFromAConstantClassIntoATmpVar` (`Node.cpp:1073-1285`) with
`NodeConstantClass::genCodeToStoreInto` (`NodeConstantClass.cpp:566-587`), and the names written for constants:
`genConstantClassMangledName`, `genConstantArrayMangledName` (`Node.cpp:4301-4453`).

Simplified: of the C++ text the constant's name, and the position and length handed to `UlamRef`, are kept; the type of the temporary, the
usage argument and the method of `UlamRef` are left out (its `Read` methods are not in the repository; they are taken to read as many bits
as the length says, from the position on). Constants are numbered by the id of their name; the C++ name is a function of it.
-/
namespace Ulam.ConstRead
open Ulam.Select

/-! ## Positions -/

/-- The C++ expression that reads: the constant's own `read`, or that of one `UlamRef` made for bits of it; or its own `readArrayItem`. -/
inductive Code
  | whole
  | ref (pos len : Nat)
  | item (index len : Nat)
  deriving DecidableEq, Repr

/-- Whether the class of the constant itself is an element (`nclasstype`, `Node.cpp:1099-1101`): the flag of the first selection. -/
def rootElement : Expr → Bool
  | .named _ => false
  | .const _ _ => false
  | .data (.named _) element _ => element
  | .data l _ _ => rootElement l

/-- `Node.cpp:1073-1182` `genCodeReadFromAConstantClassIntoATmpVar`: `cos` is the last symbol of the chain, `cospos` its position in the class
that declares it (`Node.cpp:1121-1122`); `none`: the assertions of 1119-1121. `T::ATOM_FIRST_STATE_BIT` is 25. -/
def genRead : Expr → Option Code
  | .named _ => some .whole
  | .const _ _ => none
  | .data l element m =>
    match m.pos with
    | none => none
    | some p => some (.ref (if rootElement (.data l element m) then p + 25 else p) m.len)

/-- `Node.cpp:1184-1285` `genCodeReadArrayItemFromAConstantClassIntoATmpVar`: `i` is the value of the index when the code is run, `w` the size
of an item. -/
def genItem (i w : Nat) : Expr → Option Code
  | .named _ => some (.item i w)
  | .const _ _ => none
  | .data l element m =>
    match m.pos with
    | none => none
    | some p => some (.ref (if rootElement (.data l element m) then p + i * w + 25 else p + i * w) w)

/-- What the code reads, run on the bits of the constant (the methods of MFM: `UlamRef`, and `readArrayItem` of an array). -/
def run (c : List Bool) : Code → List Bool
  | .whole => c
  | .ref p n => (c.drop p).take n
  | .item i n => (c.drop (i * n)).take n

/-! ## Names -/

/-- Where a constant is declared: in a class (the number is its type), in a file outside of classes, as argument of a class template (the
instance, and whether that is a stub), or in a function. -/
inductive Home
  | member (cls : Nat)
  | file (file : Nat)
  | arg (inst : Nat) (stub : Bool)
  | function
  deriving DecidableEq, Repr

/-- A constant: the id of its name, and its home. -/
structure Const where
  id : Nat
  home : Home
  deriving DecidableEq, Repr

/-- What is known of classes: the ids of their names, and their ancestors in the order of the walk. -/
structure Env where
  name : Nat → Nat
  bases : Nat → List Nat

/-- What the name is qualified with. -/
inductive Qual
  | none
  | cls (n : Nat)
  | file (n : Nat)
  deriving DecidableEq, Repr

/-- `CompilerState.cpp:2714-2739` `findClassAncestorWithMatchingNameid`: how many ancestors bear the name, and the last of them. -/
def ancestors (E : Env) (c nameid : Nat) : Nat × Option Nat :=
  (E.bases c).foldl (fun a b => if E.name b = nameid then (a.1 + 1, some b) else a) (0, .none)

/-- `genConstantClassMangledName` (`Node.cpp:4301-4376`).
`genConstantArrayMangledName` (`Node.cpp:4379-4453`) is the same. `here` is the class compiled, `left` the type of the symbol left of the constant, if there is one, and `own` the type of the constant; `none`: abort. -/
def qualifier (E : Env) (here : Nat) (left : Option Nat) (own : Nat) (k : Const) : Option Qual :=
  match k.home with
  | .member c => if c = here then some .none else some (.cls c)
  | .file f => some (.file f)
  | .arg inst stub =>
    if stub then
      match ancestors E (left.getD own) (E.name inst) with
      | (1, some b) => some (.cls b)
      | _ => none
    else some (.cls inst)
  | .function =>
    match left with
    | .none => some .none
    | some l => some (.cls l)

end Ulam.ConstRead
