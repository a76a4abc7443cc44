/-
Class templates: parameters, the arguments of a use, and default values.

A use `T(e1, …, ek)` of a class template makes a stub: a class block that gets
for every parameter a symbol and an argument node with the expression of its
value.  When the template was parsed before its use, the parser names the
arguments after the parameters and takes the default values for the missing ones.
When the use comes first, the parser makes temporary names `_0`, `_1`, … and the
stub is put right once the template has been parsed.  Later, the expressions are
folded: those given by the user in the scope of the user, default values in the
scope of the instance.

Modelled: `Parser::parseRestOfClassParameters`, `Parser::parseClassArguments`,
`Parser::parseRestOfClassArguments`,
`SymbolClassNameTemplate::fixAClassStubsDefaultArgs`,
`SymbolClassNameTemplate::fixAnyUnseenClassInstances` and the choice of the scope
in `Resolver::constantFoldNonreadyClassArgs`.  Not modelled: types of parameters
and the member symbols that are copied into a stub besides the parameters.
-/

namespace Ulam.Templ

/-- A parameter of a class template: its name and the expression of its default value. -/
structure Param (E : Type) where
  name : Nat
  dflt : Option E

/-- What the parser meets between the parentheses of a template definition: a
parameter (type, name and maybe `= e`), a comma, the closing parenthesis, or
something else. -/
inductive PTok (E : Type) where
  | param (p : Param E)
  | comma
  | close
  | other

/-- The last parameter so far has a default value, so the next one needs one too
(`assignrequired`, /repo/src/ulam/Parser.cpp:597-598). -/
def needsDefault {E : Type} (ps : List (Param E)) : Bool :=
  match ps.getLast? with
  | some p => p.dflt.isSome
  | none => false

/-- `Parser::parseRestOfClassParameters` (/repo/src/ulam/Parser.cpp:569-642), with
`parseClassParameterConstdef`, `makeConstdefSymbol` and `parseRestOfConstantDef`
(/repo/src/ulam/Parser.cpp:2438-2493, /repo/src/ulam/Parser.cpp:6265-6364,
/repo/src/ulam/Parser.cpp:5486-5559): a name twice and a missing default value are errors,
a comma is skipped if there is one.  `none`: an error was given. -/
def parseParams {E : Type} (ps : List (Param E)) : List (PTok E) → Option (List (Param E))
  | [] => none
  | .close :: _ => if ps.isEmpty then none else some ps
  | .param p :: .comma :: r =>
    if ps.any (fun q => q.name == p.name) then none
    else if needsDefault ps && p.dflt.isNone then none
    else parseParams (ps ++ [p]) r
  | .param p :: r =>
    if ps.any (fun q => q.name == p.name) then none
    else if needsDefault ps && p.dflt.isNone then none
    else parseParams (ps ++ [p]) r
  | _ :: _ => none

/-- What the parser meets between the parentheses of a use: an expression, a comma,
the closing parenthesis, or something that is no expression. -/
inductive Tok (E : Type) where
  | expr (e : E)
  | comma
  | close
  | other

/-- The name of a symbol in the block of a stub: a name of the program, or the
temporary name `"_i"`. -/
inductive Name where
  | own (n : Nat)
  | temp (i : Nat)
  deriving DecidableEq

/-- A symbol in the table of the stub: its name and whether it is flagged as a
default value (`m_isClassArgDefaultValue`, /repo/src/ulam/SymbolConstantValue.cpp:155-158). -/
structure Sym where
  name : Name
  flag : Bool

/-- An argument node of the stub: the name of its symbol and its expression. -/
structure Node (E : Type) where
  name : Name
  expr : Option E

/-- The class block of a stub: symbol table and argument nodes. -/
structure Block (E : Type) where
  syms : List Sym
  nodes : List (Node E)

/-- The symbol is in the table. -/
def has (l : List Sym) (n : Name) : Bool := l.any (fun s => s.name == n)

/-- Flagging a symbol of the table. -/
def mark (l : List Sym) (n : Name) : List Sym :=
  l.map (fun s => if s.name = n then ⟨s.name, true⟩ else s)

/-- Adding a symbol unless there is one of that name. -/
def ensure (l : List Sym) (n : Name) (flag : Bool) : List Sym :=
  if has l n then l else l ++ [⟨n, flag⟩]

/-- The name the argument number `i` gets: the parameter's if the template has been
seen, else a temporary one (/repo/src/ulam/Parser.cpp:3206-3247). -/
def argName {E : Type} (ps : Option (List (Param E))) (i : Nat) : Option Name :=
  match ps with
  | some l => (l[i]?).map (fun p => .own p.name)
  | none => some (.temp i)

/-- The arguments parsed so far: the block, the number of the next parameter and the
errors. -/
structure Got (E : Type) where
  block : Block E
  idx : Nat
  errs : Nat

/-- One argument of `Parser::parseRestOfClassArguments` (/repo/src/ulam/Parser.cpp:3184-3304):
beyond the parameters of a template that has been seen it is an error, otherwise a
symbol is added unless it is there, and a node. -/
def addArg {E : Type} (ps : Option (List (Param E))) (g : Got E) (e : E) : Got E :=
  match argName ps g.idx with
  | some n => ⟨⟨ensure g.block.syms n false, g.block.nodes ++ [⟨n, some e⟩]⟩, g.idx + 1, g.errs⟩
  | none => ⟨g.block, g.idx + 1, g.errs + 1⟩

/-- A closing parenthesis comes next. -/
def closes {E : Type} : List (Tok E) → Bool
  | .close :: _ => true
  | _ => false

/-- `Parser::parseRestOfClassArguments` (/repo/src/ulam/Parser.cpp:3162-3324): stops at the closing
parenthesis; a missing expression is an error and ends the list; after an argument a
comma is skipped if there is one, and must not be followed by the closing parenthesis. -/
def parseRest {E : Type} (ps : Option (List (Param E))) (g : Got E) : List (Tok E) → Got E
  | .close :: _ => g
  | .expr e :: .comma :: r =>
    let g' := addArg ps g e
    parseRest ps (if closes r then { g' with errs := g'.errs + 1 } else g') r
  | .expr e :: r => parseRest ps (addArg ps g e) r
  | _ => { g with errs := g.errs + 1 }

/-- The number of parameters with a default value
(`getTotalParametersWithDefaultValues`, /repo/src/ulam/SymbolClassNameTemplate.cpp:102-112). -/
def numDefaults {E : Type} (ps : List (Param E)) : Nat := (ps.filter (fun p => p.dflt.isSome)).length

/-- `parameterHasDefaultValue` (/repo/src/ulam/SymbolClassNameTemplate.cpp:92-100). -/
def hasDefault {E : Type} (ps : List (Param E)) (i : Nat) : Bool :=
  match ps[i]? with
  | some p => p.dflt.isSome
  | none => false

/-- `SymbolClassNameTemplate::fixAClassStubsDefaultArgs` (/repo/src/ulam/SymbolClassNameTemplate.cpp:767-824),
for the parameters from the first missing one on: the symbol is added or, being there
already, flagged; the node gets the default value. -/
def fixDefaults {E : Type} (b : Block E) : List (Param E) → Block E
  | [] => b
  | p :: r =>
    fixDefaults ⟨mark (ensure b.syms (.own p.name) true) (.own p.name), b.nodes ++ [⟨.own p.name, p.dflt⟩]⟩ r

/-- The symbols a stub starts with: those of the template, if it has been seen
(`partialInstantiationOfMemberNodesAndSymbols`, /repo/src/ulam/SymbolClassNameTemplate.cpp:412-416). -/
def patched {E : Type} (ps : List (Param E)) : List Sym := ps.map (fun p => ⟨.own p.name, false⟩)

/-- `Parser::parseClassArguments` (/repo/src/ulam/Parser.cpp:3033-3160) for a template that has been
seen.  `none`: an error was given. -/
def useSeen {E : Type} (ps : List (Param E)) (ts : List (Tok E)) : Option (Block E) :=
  if closes ts && decide (ps.length > 0) && decide (numDefaults ps ≠ ps.length) then none
  else
    let g := parseRest (some ps) ⟨⟨patched ps, []⟩, 0, 0⟩ ts
    if g.errs > 0 then none
    else if g.idx < ps.length then
      if hasDefault ps g.idx then some (fixDefaults g.block (ps.drop g.idx)) else none
    else some g.block

/-- `Parser::parseClassArguments` (/repo/src/ulam/Parser.cpp:3033-3160) for a template that has not
been seen yet.  `none`: an error was given. -/
def useUnseen {E : Type} (ts : List (Tok E)) : Option (Block E) :=
  let g := parseRest none ⟨⟨[], []⟩, 0, 0⟩ ts
  if g.errs > 0 then none else some g.block

/-- `changeConstantId` and `replaceIdInScope` (/repo/src/ulam/SymbolClassNameTemplate.cpp:671-673,
/repo/src/ulam/NodeBlock.cpp:190-194) together with `fixPendingArgumentNode`
(/repo/src/ulam/SymbolClassNameTemplate.cpp:687): symbol and node get the new name. -/
def rename {E : Type} (b : Block E) (old new : Name) : Block E :=
  ⟨b.syms.map (fun s => if s.name = old then ⟨new, s.flag⟩ else s),
   b.nodes.map (fun n => if n.name = old then ⟨new, n.expr⟩ else n)⟩

/-- The loop of `fixAnyUnseenClassInstances`: the block, `foundArgs`,
`lastDefaultParamUsed` (`none` before the first default) and the errors. -/
structure Fix (E : Type) where
  block : Block E
  found : Nat
  last : Option Nat
  errs : Nat

/-- A parameter without an argument (/repo/src/ulam/SymbolClassNameTemplate.cpp:690-732): the default
value, if the parameters before it since the first default had theirs. -/
def fixMissing {E : Type} (f : Fix E) (i : Nat) (p : Param E) : Fix E :=
  if i > f.last.getD i + 1 then { f with errs := f.errs + 1, last := some (f.last.getD i) }
  else if has f.block.syms (.own p.name) then ⟨f.block, f.found + 1, some i, f.errs⟩
  else ⟨⟨f.block.syms ++ [⟨.own p.name, true⟩], f.block.nodes ++ [⟨.own p.name, p.dflt⟩]⟩, f.found + 1, some i, f.errs⟩

/-- One round of the loop over the parameters (/repo/src/ulam/SymbolClassNameTemplate.cpp:658-733). -/
def fixOne {E : Type} (f : Fix E) (i : Nat) (p : Param E) : Fix E :=
  if has f.block.syms (.temp i) then { f with block := rename f.block (.temp i) (.own p.name), found := f.found + 1 }
  else fixMissing f i p

/-- The loop over the parameters. -/
def fixLoop {E : Type} (f : Fix E) (i : Nat) : List (Param E) → Fix E
  | [] => f
  | p :: r => fixLoop (fixOne f i p) (i + 1) r

/-- `SymbolClassNameTemplate::fixAnyUnseenClassInstances` (/repo/src/ulam/SymbolClassNameTemplate.cpp:550-765)
for one stub: the number of arguments is checked, then names and default values are
put in.  `none`: an error was given. -/
def fixUnseen {E : Type} (ps : List (Param E)) (b : Block E) : Option (Block E) :=
  let cargs := b.nodes.length
  if cargs < ps.length ∧ cargs + numDefaults ps < ps.length then none
  else if cargs > ps.length then none
  else
    let f := fixLoop ⟨b, 0, none, 0⟩ 0 ps
    if f.found ≠ ps.length ∨ f.errs > 0 then none else some f.block

/-- The use comes before the template: parsed with temporary names, then put right. -/
def useBefore {E : Type} (ps : List (Param E)) (ts : List (Tok E)) : Option (Block E) :=
  (useUnseen ts).bind (fixUnseen ps)

/-- The scope in which an expression is folded. -/
inductive Scope where
  | user
  | inst
  deriving DecidableEq

/-- The flag of the symbol of a node (`isClassArgumentItsDefaultValue`,
/repo/src/ulam/NodeConstantDef.cpp:346-351). -/
def flagOf {E : Type} (b : Block E) (n : Node E) : Bool :=
  b.syms.any (fun s => s.name == n.name && s.flag)

/-- The loop of `Resolver::constantFoldNonreadyClassArgs` (/repo/src/ulam/Resolver.cpp:374-451) over the
nodes still pending: from the first default value on the scope of the instance is
pushed.  `none`: the assertion "once a default, always a default" (line 418) fails. -/
def scopes {E : Type} (b : Block E) (pushed : Bool) : List (Node E) → Option (List (Node E × Scope))
  | [] => some []
  | n :: r =>
    let p := pushed || flagOf b n
    if flagOf b n = p then (scopes b p r).map (fun l => (n, if p then .inst else .user) :: l)
    else none

end Ulam.Templ
