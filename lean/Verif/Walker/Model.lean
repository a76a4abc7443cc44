import Mathlib.Data.Fintype.Card
/-!
# Walking base classes (model)

`BaseclassWalker.cpp` and the functions of `CompilerState.cpp` that use it. Types are numbers below `n` (`UTI` is a 16-bit
number, `n = 65536`; the model works for every `n`).
-/
namespace Ulam.Walker

/-- One entry of a class's table of bases, `include/SymbolClass.h` `BaseClassEntry`: the base, and how many classes share
it (0: not shared). -/
structure Entry (n : Nat) where
  base : Fin n
  shared : Nat
  deriving DecidableEq

/-- What the functions below read of the compiler's state: the number for "no type", the root of a type under aliasing
(`findRootUTIAlias`, `CompilerState.cpp:2324-2351`), the type with the reference removed (`getUlamTypeAsDeref`), whether a
class symbol exists (`alreadyDefinedSymbolClass`), its table of bases with the superclass first, and its name id. -/
structure World (n : Nat) where
  nouti : Fin n
  root : Fin n → Fin n
  deref : Fin n → Fin n
  defined : Fin n → Bool
  table : Fin n → List (Entry n)
  name : Fin n → Nat

/-- `include/BaseclassWalker.h:61-63`: `m_bases` and `m_seenset`. -/
structure State (n : Nat) where
  bases : List (Fin n × Fin n)
  seen : Finset (Fin n)

variable {n : Nat}

/-- `BaseclassWalker.cpp:18-22` `init`. -/
def init (w : World n) (c : Fin n) : State n := ⟨[(c, w.nouti)], ∅⟩

/-- `BaseclassWalker.cpp:35-51` `addAncestorPairsOf`. -/
def addAncestorPairsOf (w : World n) (breadth : Bool) (c head : Fin n) (s : State n) : State n :=
  if breadth then { s with bases := (w.table c).foldl (fun q e => q ++ [(e.base, head)]) s.bases }
  else { s with bases := (w.table c).reverse.foldl (fun q e => (e.base, head) :: q) s.bases }

/-- `BaseclassWalker.cpp:60-96` `getNextBasePair`: pops entries until the root type of one is seen for the first time. -/
def getNextBasePair (w : World n) : List (Fin n × Fin n) → Finset (Fin n) → Option ((Fin n × Fin n) × State n)
  | [], _ => none
  | (b, h) :: q, seen =>
    let r := w.root b
    if r ∈ seen then getNextBasePair w q seen else some ((r, h), ⟨q, insert r seen⟩)

/-- `BaseclassWalker.cpp:53-58` `getNextBase`. -/
def getNextBase (w : World n) (s : State n) : Option (Fin n × State n) :=
  (getNextBasePair w s.bases s.seen).map fun x => (x.1.1, x.2)

theorem getNextBasePair_some {w : World n} {q : List (Fin n × Fin n)} {seen : Finset (Fin n)} {r h : Fin n} {s : State n}
    (e : getNextBasePair w q seen = some ((r, h), s)) : r ∉ seen ∧ s.seen = insert r seen := by
  induction q with
  | nil => cases e
  | cons b q ih =>
    obtain ⟨b, h'⟩ := b
    simp only [getNextBasePair] at e
    split at e
    · exact ih e
    · rename_i hn; cases e; exact ⟨hn, rfl⟩

theorem fuel_lt {r : Fin n} {seen t : Finset (Fin n)} (h : r ∉ seen) (e : t = insert r seen) : n - t.card < n - seen.card := by
  have h1 : t.card = seen.card + 1 := by rw [e, Finset.card_insert_of_notMem h]
  have h2 : t.card ≤ n := by have := Finset.card_le_univ t; simpa using this
  omega

theorem getNextBase_some {w : World n} {s t : State n} {r : Fin n} (e : getNextBase w s = some (r, t)) :
    r ∉ s.seen ∧ t.seen = insert r s.seen := by
  unfold getNextBase at e
  rw [Option.map_eq_some_iff] at e
  obtain ⟨⟨⟨r', h⟩, s'⟩, e1, e2⟩ := e
  cases e2
  exact getNextBasePair_some e1

theorem add_seen (w : World n) (b : Bool) (c h : Fin n) (s : State n) : (addAncestorPairsOf w b c h s).seen = s.seen := by
  unfold addAncestorPairsOf; split <;> rfl

/-- The loop shared by the searches that go on to the end, e.g. `CompilerState.cpp:2724-2736`: the types returned by
`getNextBase`, when the ancestors of each class met are added. -/
def sightings (w : World n) (breadth : Bool) (s : State n) : List (Fin n) :=
  match h : getNextBase w s with
  | none => []
  | some (r, t) =>
    r :: (if w.defined r then sightings w breadth (addAncestorPairsOf w breadth r w.nouti t) else sightings w breadth t)
termination_by n - s.seen.card
decreasing_by
  all_goals have h1 := getNextBase_some h
  · rw [add_seen]; exact fuel_lt h1.1 h1.2
  · exact fuel_lt h1.1 h1.2

/-- The classes such a loop handles, from class `c` on. -/
def classes (w : World n) (breadth : Bool) (c : Fin n) : List (Fin n) :=
  (sightings w breadth (init w c)).filter fun x => w.defined x

/-- `SymbolClass.cpp:171-190` `isABaseClassItemSearch`. Simplification: `UlamType::compare` on complete types is equality of
root types. -/
def baseItem (w : World n) (c b : Fin n) : Option Nat :=
  (w.table c).findIdx? fun e => decide (e.base ≠ w.nouti ∧ w.root e.base = w.root b)

/-- The loop of `CompilerState.cpp:2668-2678`. -/
def subclassLoop (w : World n) (b : Fin n) (s : State n) : Bool :=
  match h : getNextBase w s with
  | none => false
  | some (r, t) =>
    if w.defined r then
      if (baseItem w r b).isSome then true else subclassLoop w b (addAncestorPairsOf w false r w.nouti t)
    else subclassLoop w b t
termination_by n - s.seen.card
decreasing_by
  all_goals have h1 := getNextBase_some h
  · rw [add_seen]; exact fuel_lt h1.1 h1.2
  · exact fuel_lt h1.1 h1.2

/-- `CompilerState.cpp:2654-2680` `isClassASubclassOf`. -/
def isClassASubclassOf (w : World n) (c b : Fin n) : Bool :=
  if w.deref c = w.deref b then false else subclassLoop w (w.deref b) (init w (w.deref c))

/-- `CompilerState.cpp:2697-2710` `isBaseClassADirectAncestorOf`. -/
def isDirectAncestorOf (w : World n) (c b : Fin n) : Bool :=
  if w.defined (w.deref c) then (baseItem w (w.deref c) (w.deref b)).isSome else false

/-- The loop of `CompilerState.cpp:2724-2736`: number of matches and the last match. -/
def nameLoop (w : World n) (nameid : Nat) (count : Nat) (basep : Fin n) (s : State n) : Nat × Fin n :=
  match h : getNextBase w s with
  | none => (count, basep)
  | some (r, t) =>
    if w.defined r then
      if w.name r = nameid then nameLoop w nameid (count + 1) r (addAncestorPairsOf w false r w.nouti t)
      else nameLoop w nameid count basep (addAncestorPairsOf w false r w.nouti t)
    else nameLoop w nameid count basep t
termination_by n - s.seen.card
decreasing_by
  all_goals have h1 := getNextBase_some h
  · rw [add_seen]; exact fuel_lt h1.1 h1.2
  · rw [add_seen]; exact fuel_lt h1.1 h1.2
  · exact fuel_lt h1.1 h1.2

/-- `CompilerState.cpp:2714-2739` `findClassAncestorWithMatchingNameid`; `basep` is the argument passed by reference. -/
def findAncestorByName (w : World n) (c : Fin n) (nameid : Nat) (basep : Fin n) : Nat × Fin n :=
  nameLoop w nameid 0 basep (init w (w.deref c))

/-- `CompilerState.cpp:5370-5404` `findNearestBaseClassToAnAncestor`, its loop: the class found. -/
def nearestLoop (w : World n) (a : Fin n) (s : State n) : Option (Fin n) :=
  match h : getNextBasePair w s.bases s.seen with
  | none => none
  | some ((r, head), t) =>
    if w.defined r then
      if (baseItem w r a).isSome then some (if head = w.nouti then r else head)
      else nearestLoop w a (addAncestorPairsOf w false r (if head = w.nouti then r else head) t)
    else nearestLoop w a t
termination_by n - s.seen.card
decreasing_by
  all_goals have h1 := getNextBasePair_some h
  · rw [add_seen]; exact fuel_lt h1.1 h1.2
  · exact fuel_lt h1.1 h1.2

/-- `CompilerState.cpp:5370-5404` `findNearestBaseClassToAnAncestor`. -/
def findNearest (w : World n) (c a : Fin n) : Option (Fin n) := nearestLoop w a (init w c)

/-- A `std::map<UTI,u32>` of counters: absent keys are 0. Simplification: the map is a function; its keys are the types with
a count. -/
abbrev Counts (n : Nat) := Fin n → Nat

/-- `SymbolClass.cpp:213-244` `findDirectSharedBases`: updated map and number of entries. -/
def findDirectSharedBases (w : World n) (c : Fin n) (m : Counts n) : Counts n × Nat :=
  (w.table c).foldl (fun acc e =>
    if e.base ≠ w.nouti ∧ e.shared > 0 then (Function.update acc.1 (w.root e.base) (acc.1 (w.root e.base) + 1), acc.2 + 1)
    else acc) (m, 0)

/-- The loop of `CompilerState.cpp:2753-2763`. -/
def sharedLoop (w : World n) (m : Counts n) (count : Nat) (s : State n) : Counts n × Nat :=
  match h : getNextBase w s with
  | none => (m, count)
  | some (r, t) =>
    if w.defined r then
      sharedLoop w (findDirectSharedBases w r m).1 (count + (findDirectSharedBases w r m).2)
        (addAncestorPairsOf w false r w.nouti t)
    else sharedLoop w m count t
termination_by n - s.seen.card
decreasing_by
  all_goals have h1 := getNextBase_some h
  · rw [add_seen]; exact fuel_lt h1.1 h1.2
  · exact fuel_lt h1.1 h1.2

/-- `CompilerState.cpp:2743-2766` `findTheSharedVirtualBasesInAClassHierarchy`. -/
def findSharedBases (w : World n) (c : Fin n) (m : Counts n) : Counts n × Nat := sharedLoop w m 0 (init w (w.deref c))

end Ulam.Walker
