import Mathlib.Data.List.Nodup
/-!
# Tables of symbols (model)

`SymbolTable`, and the renaming of the arguments of a class instance seen before its template.

Simplifications: names and symbols (pointers) are numbers; of a symbol only its id matters; the order of a table is not modelled. `none` is
a failed assertion. In the renaming, default arguments (added afterwards) and types are left out.
-/
namespace Ulam.SymTab

/-- `m_idToSymbolPtr`, and `getId` of the symbols there are; those from `next` on are not yet made. -/
structure ST where
  tab : List (Nat × Nat)
  ids : Nat → Nat
  next : Nat

/-- `m_idToSymbolPtr.find`. -/
def find (t : List (Nat × Nat)) (k : Nat) : Option Nat := (t.find? (·.1 == k)).map (·.2)

/-- `m_idToSymbolPtr.erase` of what was found. -/
def erase (t : List (Nat × Nat)) (k : Nat) : List (Nat × Nat) := t.filter (·.1 != k)

/-- `SymbolTable.cpp:123-134` `isInTable`, with its assertion. -/
def isIn (s : ST) (k : Nat) : Option (Option Nat) :=
  match find s.tab k with
  | none => some none
  | some p => if s.ids p = k then some (some p) else none

/-- `SymbolTable.cpp:149-154` `addToTable`. -/
def add (s : ST) (k p : Nat) : Option ST :=
  match find s.tab k with
  | none => some { s with tab := (k, p) :: s.tab }
  | some _ => none

/-- `SymbolTable.cpp:190-201` `removeFromTable`. -/
def remove (s : ST) (k : Nat) : Option (Nat × ST) := (find s.tab k).map fun p => (p, { s with tab := erase s.tab k })

/-- The first half of the next one. -/
def dropOld (s : ST) (old p : Nat) : Option ST :=
  match find s.tab old with
  | none => some s
  | some q => if q = p then some { s with tab := erase s.tab old } else none

/-- The second half. -/
def dropNew (s : ST) (new p : Nat) : Option ST :=
  match find s.tab new with
  | none => some s
  | some q => if q ≠ p then some { s with tab := erase s.tab new } else none

/-- `SymbolTable.cpp:156-175` `replaceInTable`, with a new name. -/
def replaceId (s : ST) (old new p : Nat) : Option ST := (dropOld s old p).bind fun s => (dropNew s new p).bind fun s => add s new p

/-- `SymbolTable.cpp:177-188` `replaceInTable`, with a new symbol. -/
def replaceSym (s : ST) (p q : Nat) : Option ST :=
  if s.ids p = s.ids q then
    match find s.tab (s.ids p) with
    | none => some s
    | some p' => if p' = p then some { s with tab := s.tab.map fun e => if e.1 = s.ids p then (e.1, q) else e } else none
  else none

/-- `clone` of a symbol: a new one with the same id. -/
def clone (s : ST) (i : Nat) : Nat × ST := (s.next, { s with ids := fun q => if q = s.next then i else s.ids q, next := s.next + 1 })

/-- `SymbolTable.cpp:22-33` `copyATableHere`, of entries with the ids of their symbols. -/
def copy : List (Nat × Nat) → ST → Option ST
  | [], s => some s
  | (k, i) :: fm, s => (add (clone s i).2 k (clone s i).1).bind fun s => copy fm s

/-- `SymbolTable.cpp:41-66` `mergeATableHere`, likewise; the aliases of types are left out. -/
def merge : List (Nat × Nat) → ST → Option ST
  | [], s => some s
  | (k, i) :: fm, s =>
    (isIn s k).bind fun o =>
    match o with
    | none => (add (clone s i).2 k (clone s i).1).bind fun s => merge fm s
    | some _ => merge fm s

/-- `SymbolWithValue.cpp:910-914` `changeConstantId`. -/
def setId (s : ST) (p i : Nat) : ST := { s with ids := fun q => if q = p then i else s.ids q }

/-- The loop of `SymbolClassNameTemplate.cpp:657-688` in `fixAnyUnseenClassInstances`, over the temporary names of the arguments and those of the
parameters. -/
def rename : List (Nat × Nat) → ST → Option ST
  | [], s => some s
  | (sid, pid) :: rest, s =>
    (isIn s sid).bind fun o =>
    match o with
    | some p => (replaceId (setId s p pid) sid pid p).bind fun s => rename rest s
    | none => rename rest s

end Ulam.SymTab
