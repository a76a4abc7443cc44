/-!
# Declarations of variables with initial values (model)

`NodeVarDecl::checkAndLabelType` and what it calls: `safeToCastTo`, `checkSafeToCastTo`, `checkReferenceCompatibility`
(`NodeVarDecl.cpp:358-843`), the same of `NodeVarRef` (`NodeVarRef.cpp:89-326`), and the labelling of lists of initial values
(`NodeList.cpp:192-222`, `341-365`, `NodeListArrayInitialization.cpp:48-66`, `130-187`).

Simplified: types are the entries of a table `U` with what the code asks about them (`Types`); an initial value is what the code asks
it (`Init`): the answers to `safeToCastTo` and `makeCastingNode` are those of the areas Cast and ClassCast. A casting node that cannot
be made counts as an error reported (`Node.cpp:3020-3200`). The text of messages is left out, their number by severity is kept.
-/
namespace Ulam.Decl

/-- `TBOOL`. -/
inductive Tri where
  | no | yes | hazy
  deriving DecidableEq, Repr

/-- `FORECAST`. -/
inductive Forecast where
  | clear | bad | hazy
  deriving DecidableEq, Repr

/-- `ULAMTYPECOMPARERESULTS`, `UlamType.cpp:519-532`. -/
inductive Cmp where
  | same | notSame | dontKnow
  deriving DecidableEq, Repr

/-- What is asked about types. `still`: `isStillHazy`, `CompilerState.cpp:7787-7790`. `sizable`: whether the type is complete once its
array size is known (`CompilerState.cpp:2402-2500`). -/
structure Types (U : Type) where
  nav : U
  hzy : U
  nouti : U
  void : U
  still : U → Bool
  complete : U → Bool
  holder : U → Bool
  scalar : U → Bool
  isVoid : U → Bool
  cls : U → Bool
  atom : U → Bool
  ref : U → Bool
  constRef : U → Bool
  deref : U → U
  same : U → U → Cmp
  size : U → Int
  sizable : U → Bool

variable {U : Type} [DecidableEq U]

/-- `CompilerState.cpp:7718-7721`. -/
def Types.ok (T : Types U) (u : U) : Bool := u != T.nav && u != T.hzy && u != T.nouti && !T.still u

/-- `setUTISizes`, `CompilerState.cpp:2082-2096`, for a type that is not complete; a complete one stays as it is (`2407-2408`). -/
def Types.resize (T : Types U) (d : U) (n : Nat) : Types U :=
  if T.ok d && !T.complete d then
    { T with
      size := fun u => if u = d then n else T.size u
      scalar := fun u => if u = d then false else T.scalar u
      complete := fun u => if u = d then T.sizable d else T.complete u }
  else T

/-- What a fold of the initial value comes to: `foldArrayInitExpression` (`NodeVarDecl.cpp:280-328`) or
`buildDefaultValueForClassConstantInitialization` (`330-356`), and whether the type is `Nav` after it failed. -/
inductive Fold where
  | done | bad | wait
  deriving DecidableEq, Repr

/-- The initial value: its type once labelled, whether it is a list and of how many, and the answers to questions. -/
structure Init (U : Type) where
  label : U
  list : Bool
  n : Nat
  const : Tri
  self : Tri
  forecast : U → Forecast
  explicitRef : Bool
  cast : U → Bool
  fold : U → Fold
  store : Tri
  referable : Tri

/-- The node of the type. -/
structure Desc (U : Type) where
  label : U
  given : U
  scalar : U
  emptySize : Bool

/-- The declaration. `sym`: the type of the symbol, if there is one; `kin`: a base class is not known yet. `isRef`: a `NodeVarRef`. -/
structure Decl (U : Type) where
  isRef : Bool
  sym : Option U
  kin : Bool
  desc : Option (Desc U)
  param : Bool
  constParam : Bool
  inSwitch : Bool
  hasInit : Bool
  ready : Bool
  init : Option (Init U)

/-- What the labelling comes to. -/
structure Out (U : Type) where
  ty : U
  errs : Nat
  waits : Nat
  again : Bool
  T : Types U
  surgery : Bool := false
  store : Tri := .hazy

/-- `NodeVarDecl.cpp:532-556`: the type of the symbol, or of the node that describes it. -/
def firstType (T : Types U) (D : Decl U) (s : U) : U :=
  match D.desc with
  | none => s
  | some d =>
    if d.label = T.nav then T.nav
    else if d.label ≠ s ∧ ((T.ok d.label = true ∧ T.holder d.label = false) ∨ D.param = true) then d.label
    else s

/-- `NodeVarDecl.cpp:572-590`: the type after, errors, waits. -/
def secondType (T : Types U) (v : U) : U × Nat × Nat :=
  if !T.ok v || !T.complete v then
    if T.ok v || T.still v then (T.hzy, 0, 1) else (v, 1, 0)
  else (v, 0, 0)

/-- `NodeVarDecl.cpp:622-640`: the variable of a switch has the type of the condition. -/
def switchType (T : Types U) (D : Decl U) (e v : U) : U :=
  match D.desc with
  | some d =>
    if D.inSwitch then
      let w := if T.holder d.given && T.complete e then e else d.given
      if T.ref w then T.deref w else w
    else v
  | none => v

/-- `NodeVarDecl.cpp:651-688`: an array of no given size has as many items as there are in the list. -/
def sized (T : Types U) (D : Decl U) (i : Init U) (v : U) : Types U × U :=
  match D.desc with
  | none => (T, v)
  | some d =>
    if !T.complete v && d.emptySize && T.ok d.scalar && !T.complete d.label then
      let T' := if i.n > 0 then T.resize d.given i.n else T
      if T'.complete d.given then (T', d.given) else (T', v)
    else (T, v)

/-- `NodeVarDecl.cpp:690-731`: may a list of `n` be given? -/
def listFits (T : Types U) (n : Nat) (v : U) : Bool :=
  if T.complete v then
    if n = 0 then !(T.ok v && T.scalar v && !T.cls v)
    else if T.size v < 0 then false
    else if (n : Int) > T.size v ∧ T.size v > 0 then false
    else true
  else true

/-- The errors reported. -/
def Forecast.errs : Forecast → Nat
  | .bad => 1
  | _ => 0

/-- The messages to wait. -/
def Forecast.waits : Forecast → Nat
  | .hazy => 1
  | _ => 0

/-- `NodeVarDecl.cpp:358-436`: forecast, errors, waits. -/
def declCast (T : Types U) (i : Init U) (v : U) : Forecast × Nat × Nat :=
  if i.forecast v ≠ .clear then
    (i.forecast v, (i.forecast v).errs, (T.atom v).toNat * (i.forecast v).waits)
  else if i.explicitRef then (.bad, 1, 0)
  else if i.cast v then (.clear, 0, 0)
  else (.bad, 1, 0)

/-- `NodeVarRef.cpp:89-182`. -/
def refCast (T : Types U) (i : Init U) (v : U) : Forecast × Nat × Nat :=
  if i.forecast v ≠ .clear then
    (i.forecast v, (i.forecast v).errs, (i.forecast v).waits)
  else if T.cls v || T.atom v then (.clear, 0, 0)
  else if i.const ≠ .no ∧ T.constRef v = false then
    if i.const = .hazy then (.hazy, 0, 1) else (.bad, 1, 0)
  else (.clear, 0, 0)

/-- `NodeVarDecl.cpp:437-462`: the type after, errors, waits. -/
def checkCast (T : Types U) (D : Decl U) (i : Init U) (e v : U) : U × Nat × Nat :=
  if !T.complete e || !T.complete v then (T.hzy, 0, 0)
  else if T.same e v = .same then (v, 0, 0)
  else
    let r := if T.same v e = .same then (Forecast.clear, 0, 0) else if D.isRef then refCast T i v else declCast T i v
    (match r.1 with
      | .clear => v
      | .hazy => T.hzy
      | .bad => T.nav, r.2)

/-- `NodeVarDecl.cpp:745-815`: the use of itself and the fold. `none`: go on. -/
def useAndFold (T : Types U) (D : Decl U) (i : Init U) (has : Bool) (e : U) : Option (Out U) :=
  if T.ok e && T.complete e then
    match i.self with
    | .hazy => some { ty := T.hzy, errs := 0, waits := 1, again := true, T := T }
    | .yes => some { ty := T.nav, errs := 1, waits := 0, again := false, T := T }
    | .no =>
      if has && !D.ready && (!T.scalar e || (T.cls e && i.list)) then
        match i.fold e with
        | .done => none
        | .bad => some { ty := T.nav, errs := 1, waits := 0, again := false, T := T }
        | .wait => some { ty := T.hzy, errs := 0, waits := 1, again := true, T := T }
      else none
  else none

/-- `NodeVarDecl.cpp:823-826`. -/
def storeOf (D : Decl U) : Tri := if D.param && D.constParam then .no else .yes

/-- `NodeVarDecl.cpp:827-843` with `checkReferenceCompatibility` (`464-517`, `NodeVarRef.cpp:184-197`). -/
def finish (T : Types U) (D : Decl U) (v : U) (errs waits : Nat) : Out U :=
  if T.ok v then
    if D.isRef then
      if T.ref v then { ty := v, errs := errs, waits := waits, again := false, T := T, store := storeOf D }
      else { ty := T.nav, errs := errs + 1, waits := waits, again := false, T := T, store := storeOf D }
    else { ty := v, errs := errs, waits := waits, again := T.ref v, T := T, surgery := T.ref v, store := storeOf D }
  else if v = T.hzy then { ty := v, errs := errs, waits := waits + 1, again := true, T := T, store := storeOf D }
  else { ty := v, errs := errs, waits := waits, again := false, T := T, store := storeOf D }

/-- What was reported before counts too. -/
def Out.plus (o : Out U) (c : Nat × Nat) : Out U := { o with errs := o.errs + c.1, waits := o.waits + c.2 }

/-- `NodeVarDecl.cpp:737-822`: after lists. -/
def rest (T : Types U) (D : Decl U) (i : Init U) (has : Bool) (e v : U) : Out U :=
  match useAndFold T D i has e with
  | some o => o
  | none =>
    if T.ok e && T.ok v then
      let r := checkCast T D i e v
      finish T D r.1 r.2.1 r.2.2
    else finish T D v 0 0

/-- `NodeVarDecl.cpp:594-822`: with an initial value. -/
def withInit (T : Types U) (D : Decl U) (i : Init U) (v : U) : Out U :=
  if i.label = T.nav then { ty := T.nav, errs := 1, waits := 0, again := false, T := T }
  else if T.still i.label then { ty := T.hzy, errs := 0, waits := 1, again := true, T := T }
  else
    let v := switchType T D i.label v
    if i.list && i.label == T.void then
      let r := sized T D i v
      if listFits r.1 i.n r.2 then rest r.1 D i true r.2 r.2
      else { ty := T.nav, errs := 1, waits := 0, again := false, T := r.1 }
    else rest T D i (D.hasInit || (!T.scalar v && i.const == .yes) || (T.cls i.label && i.list)) i.label v

/-- `NodeVarDecl.cpp:519-849` `checkAndLabelType`; without a symbol, `846-889` `checkForSymbol`. -/
def label (T : Types U) (D : Decl U) : Out U :=
  match D.sym with
  | none => { ty := T.nav, errs := if D.kin then 0 else 1, waits := if D.kin then 1 else 0, again := false, T := T }
  | some s =>
    let v := firstType T D s
    if T.isVoid v then { ty := T.nav, errs := 1, waits := 0, again := false, T := T }
    else
      let r := secondType T v
      match D.init with
      | none => (finish T D r.1 0 0).plus r.2
      | some i => (withInit T D i r.1).plus r.2

/-- `NodeVarRef.cpp:199-326` `checkAndLabelType`. -/
def labelRef (T : Types U) (D : Decl U) : Out U :=
  let o := label T D
  match D.init with
  | none =>
    { o with again := o.again || o.ty == T.hzy, store := storeOf D }
  | some i =>
    if o.ty = T.nav ∨ i.label = T.nav then { o with ty := T.nav, errs := o.errs + if i.label = T.nav then 1 else 0 }
    else if T.ok o.ty = false ∨ T.still i.label = true ∨ i.label = T.nouti then
      { o with ty := T.hzy, waits := o.waits + if T.still i.label then 1 else 0, again := true }
    else
      let store := if T.constRef o.ty then Tri.no else i.store
      if (i.referable ≠ .yes ∨ store ≠ .yes) ∧ T.constRef o.ty = false then
        if store = .hazy then { o with ty := T.hzy, waits := o.waits + 1, again := true, store := store }
        else { o with ty := T.nav, errs := o.errs + 1, store := store }
      else if T.same i.label o.ty = .notSame ∧ i.cast o.ty = false then { o with ty := T.nav, errs := o.errs + 1, store := store }
      else { o with store := store }

/-! ## Lists -/

/-- The items of a list: their type once labelled, whether they are constant. -/
structure Item (U : Type) where
  label : U
  const : Tri

/-- `NodeList.cpp:192-222`. -/
def listLabel (T : Types U) : List (Item U) → U → U
  | [], r => r
  | x :: l, r =>
    listLabel T l (if x.label = T.nav then T.nav else if r ≠ T.nav ∧ T.complete x.label = false then T.hzy else r)

/-- `NodeListArrayInitialization.cpp:138-184`: the type after, errors, waits. -/
def arrayItems (T : Types U) : List (Item U) → U × Nat × Nat → U × Nat × Nat
  | [], r => r
  | x :: l, (r, errs, waits) =>
    arrayItems T l (
      if T.ok x.label = false then (x.label, if x.label = T.nav then (errs + 1, waits) else (errs, waits + 1))
      else if x.label = T.void then (T.nav, errs + 1, waits)
      else
        match x.const with
        | .yes => (r, errs, waits)
        | .hazy => (if r ≠ T.nav then T.hzy else r, errs, waits + 1)
        | .no => (T.nav, errs + 1, waits))

/-- `NodeListArrayInitialization.cpp:130-187`; `r` the type of the list before. -/
def arrayLabel (T : Types U) (l : List (Item U)) (r : U) : U × Nat × Nat :=
  let r := if T.still r then T.void else r
  if T.ok r = false then (r, 0, 0) else arrayItems T l (r, 0, 0)

/-- `NodeList.cpp:341-363`, `NodeListArrayInitialization.cpp:48-66`. -/
def listConst : List Tri → Tri → Tri
  | [], r => r
  | x :: l, r =>
    let r' := if x ≠ r then (if r = .yes then x else if r = .hazy then x else r) else r
    if r' = .no then r' else listConst l r'

/-- `NodeList.cpp:112-130`, with the number of hazy ones so far. -/
def listUses : List Tri → Nat → Tri
  | [], h => if h > 0 then .hazy else .no
  | .yes :: _, _ => .yes
  | .hazy :: l, h => listUses l (h + 1)
  | .no :: l, h => listUses l h

end Ulam.Decl
