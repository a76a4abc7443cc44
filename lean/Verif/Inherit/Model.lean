/-!
# The check of base classes (model)

`NodeBlockClass.cpp:729-1240` `checkMultipleInheritances`, called each time a class is labelled (`709`), and the rounds of labelling.

Simplifications. What is known about types is given by functions (`Types`): these are `okUTItoContinue`, `isHolder`, `isComplete`,
`isAClass`, `isClassAStub`, `isClassAStubCopy`, `mappedIncompleteUTI`, `findRootUTIAlias`, `compare`, the kind of a class, and whether
the class has a symbol; they do not change during one check. Of the messages only the errors are counted. The `Super` typedef, by
which base 0 may be renamed before the check (`743-758`), is taken to be base 0. Shared bases that are mapped to others are changed
in the table of bases only if they are direct (`resetABaseClassType`), which leaves the list of shared bases as it is.
-/
namespace Ulam.Inherit
variable {U : Type} [DecidableEq U]

inductive Kind | quark | element | transient | other
  deriving DecidableEq

/-- The node type of the block of a class: the class itself, `Hzy`, `Nav`; or there is no block. -/
inductive Blk | ok | hazy | nav | missing
  deriving DecidableEq

structure Types (U : Type) where
  ok : U → Bool
  holder : U → Bool
  complete : U → Bool
  isClass : U → Bool
  stub : U → Bool
  stubCopy : U → Bool
  defined : U → Bool
  mapped : U → Option U
  root : U → U
  /-- `UlamType::compare`: `none` if not known yet. -/
  same : U → U → Option Bool
  kind : U → Kind
  /-- `Nav`, `Nouti` and `UrSelf`. -/
  navU : U
  noU : U
  urself : U

/-- `NodeBlockClass.cpp:620-646` `isBaseClassBlockReady`; that the block's type is the class is in `Blk.ok`. -/
def ready (T : Types U) (blk : U → Blk) (b : U) : Bool :=
  T.ok b && !T.holder b && T.isClass b && !T.stub b && (blk b == .ok)

/-- What one turn of a loop adds: a mistake, waiting, errors that are reported. -/
structure Acc where
  errs : Bool := false
  hazy : Bool := false
  msgs : Nat := 0
  deriving DecidableEq

def Acc.add (a b : Acc) : Acc := ⟨a.errs || b.errs, a.hazy || b.hazy, a.msgs + b.msgs⟩

def bad : Acc := ⟨true, false, 1⟩
def wait : Acc := ⟨false, true, 0⟩

/-- `CompilerState.cpp:2783-2794` `resetABaseClassItem`: what is in the table after. -/
def reset (T : Types U) (old new : U) : U := if old = new ∨ T.same old new = some true then old else new

/-- `NodeBlockClass.cpp:765-855`: what is in the table after, the variable `baseuti` after, and what is added. -/
def settle (T : Types U) (me b : U) : U × U × Acc :=
  if T.ok b then
    if T.holder b || !T.complete b then
      if (T.mapped b).isSome && T.isClass ((T.mapped b).getD b) then
        if T.same me b = some true then (b, b, bad)
        else
          let m := T.root ((T.mapped b).getD b)
          if T.same m b ≠ some true ∧ T.stubCopy m = false then (reset T b m, m, wait) else (b, b, wait)
      else if !T.isClass ((T.mapped b).getD b) && !T.holder ((T.mapped b).getD b) then (reset T b T.navU, b, bad)
      else (b, b, wait)
    else if T.root b = b then (b, b, {})
    else if T.isClass (T.root b) then (reset T b (T.root b), T.root b, {})
    else (reset T b T.navU, b, bad)
  else (b, b, wait)

/-- `NodeBlockClass.cpp:857-903`, and for shared bases `946-993`. -/
def unready (T : Types U) (blk : U → Blk) (b : U) : Acc :=
  if !ready T blk b && decide (b ≠ T.noU) && !T.complete b then
    if T.stub b || T.holder b then wait else {}
  else {}

/-- The first loop, `NodeBlockClass.cpp:762-906`. -/
def first (T : Types U) (blk : U → Blk) (me : U) : List U → List U × Acc
  | [] => ([], {})
  | b :: l =>
    let r := settle T me b
    let s := first T blk me l
    (r.1 :: s.1, (r.2.2.add (unready T blk r.2.1)).add s.2)

/-- One turn of the first loop over the shared bases, `NodeBlockClass.cpp:914-995`. -/
def firstShared (T : Types U) (blk : U → Blk) (s : U) : Acc :=
  if T.ok s then
    if (T.holder s || !T.complete s) && (T.mapped s).isSome then
      wait.add (unready T blk (if T.same s (T.root ((T.mapped s).getD s)) = some false then T.root ((T.mapped s).getD s) else s))
    else unready T blk s
  else {}

/-- `isABaseClassItem(s) < 0`, `SymbolClass.cpp:166-192`: not a direct base, as far as known. -/
def indirect (T : Types U) (bases : List U) (s : U) : Bool :=
  bases.all fun b => decide (b = T.noU) || T.same b s == some false

/-- One turn of the second loop, `NodeBlockClass.cpp:1020-1055`; `say` whether the message is given (`1079`, `1088` for shared
bases). -/
def second (T : Types U) (blk : U → Blk) (say : Bool) (b : U) : Acc :=
  if T.defined b && !ready T blk b then
    if blk b = .nav then ⟨true, false, if say then 1 else 0⟩ else wait
  else {}

/-- `NodeBlockClass.cpp:1121-1140`: may a class of kind `k` inherit from one of kind `b`? -/
def allowed (k b : Kind) : Bool :=
  if k = .transient then decide (b = .transient ∨ b = .quark) else decide (b = .quark)

/-- One turn of the third loop, `NodeBlockClass.cpp:1115-1168` and `1172-1230`. -/
def third (T : Types U) (me : U) (say : Bool) (b : U) : Acc :=
  if T.ok b && !allowed (T.kind me) (T.kind b) then ⟨true, false, if say then 1 else 0⟩ else {}

def sum (l : List Acc) : Acc := l.foldr Acc.add {}

/-- What the check comes to: the node type of the block after, the table of bases after, the errors reported. -/
structure Result (U : Type) where
  blk : Blk
  bases : List U
  msgs : Nat

/-- `NodeBlockClass.cpp:729-1240`, for a class that is not `UrSelf`. -/
def checkBases (T : Types U) (blk : U → Blk) (me : U) (bases shared : List U) : Result U :=
  let f := first T blk me bases
  let a := f.2.add (sum (shared.map (firstShared T blk)))
  if a.errs then ⟨.nav, f.1, a.msgs⟩
  else if a.hazy then ⟨.hazy, f.1, a.msgs⟩
  else
    let b := a.add ((sum (f.1.map (second T blk true))).add (sum (shared.map fun s => second T blk (indirect T f.1 s) s)))
    if b.errs then ⟨.nav, f.1, b.msgs⟩
    else if b.hazy then ⟨.hazy, f.1, b.msgs⟩
    else
      let c := b.add ((sum (f.1.map (third T me true))).add (sum (shared.map fun s => third T me (indirect T f.1 s) s)))
      ⟨if c.errs then .nav else .ok, f.1, c.msgs⟩

/-- The labelling of a class of a program whose classes have bases and shared bases, as far as the check goes; for `UrSelf`
nothing is changed (`NodeBlockClass.cpp:735-736`). -/
def label (T : Types U) (bases shared : U → List U) (blk : U → Blk) (c : U) : U → Blk :=
  if c = T.urself then blk
  else fun x => if x = c then (checkBases T blk c (bases c) (shared c)).blk else blk x

/-- Classes are labelled one after the other. -/
def labelAll (T : Types U) (bases shared : U → List U) (order : List U) (blk : U → Blk) : U → Blk :=
  order.foldl (label T bases shared) blk

/-- Rounds of labelling, each in an order of its own. -/
def rounds (T : Types U) (bases shared : U → List U) : List (List U) → (U → Blk) → U → Blk
  | [], blk => blk
  | o :: l, blk => rounds T bases shared l (labelAll T bases shared o blk)

end Ulam.Inherit
