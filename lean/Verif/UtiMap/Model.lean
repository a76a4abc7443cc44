import Mathlib.Data.List.Nodup
/-!
# The types of a class instance in place of those of its template (model)

The map of types (UTIs) in the resolver of a class instance, and the copies of incomplete types made for the instance.

Simplifications: the map is a list without order; ancestors, aliases of types, and what makes a type be copied are left out: a request is for
a type that is to be copied. `none` is a failed assertion.
-/
namespace Ulam.UtiMap

/-- `m_mapUTItoUTI`. -/
abbrev Map := List (Nat × Nat)

/-- `Resolver.cpp:514-527` `findMappedUTI`. -/
def find : Map → Nat → Option Nat
  | [], _ => none
  | (a, b) :: m, k => if a = k then some b else find m k

/-- `std::map::insert`: whether it was inserted. -/
def insert (m : Map) (a b : Nat) : Bool × Map :=
  match find m a with
  | none => (true, (a, b) :: m)
  | some _ => (false, m)

/-- The type that is the key: what the given one is mapped to, if it is (`Resolver.cpp:489-498` in `mapUTItoUTI`). -/
def key (m : Map) (fm : Nat) : Nat :=
  match find m fm with
  | some x => x
  | none => fm

/-- `Resolver.cpp:485-512` `mapUTItoUTI`, with its assertions. -/
def mapUTI (m : Map) (fm to_ : Nat) : Option (Bool × Map) :=
  let r := insert m (key m fm) to_
  if r.1 && find r.2 (key m fm) != some to_ then none else some r

/-- `CompilerState.cpp:1098-1104` and `CompilerState.cpp:1192-1194` in `mapIncompleteUTIForAClassInstance`; `next` is the number of the next type made. -/
def request (m : Map) (next suti : Nat) : Option (Nat × Map × Nat) :=
  match find m suti with
  | some u => some (u, m, next)
  | none => (mapUTI m suti next).bind fun r => if r.1 then some (next, r.2, next + 1) else none

/-- The requests while an instance is made. -/
def requests : List Nat → Map → Nat → Option (List Nat × Map × Nat)
  | [], m, next => some ([], m, next)
  | s :: l, m, next => (request m next s).bind fun r => (requests l r.2.1 r.2.2).map fun q => (r.1 :: q.1, q.2)

/-- `Resolver.cpp:529-543` `cloneUTImapForNonclasses`; the answers of `mapUTItoUTI` are not used. -/
def cloneMap (isClass : Nat → Bool) : Map → Map → Option Map
  | [], m => some m
  | (a, b) :: fm, m => if isClass a then cloneMap isClass fm m else (mapUTI m a b).bind fun r => cloneMap isClass fm r.2

end Ulam.UtiMap
