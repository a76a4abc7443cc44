/-!
# Reading initialization lists (model)

`Parser.cpp`: how `{ 1, 2 }`, `{ .a = 1, .b = { 2, 3 } }` and `{ {}, { .a = 1 } }` are read from tokens.

Simplifications, as for statements (C94): an expression is one token (how it is read from its tokens: C28), and where an expression is
wanted and there is none nothing is consumed and nothing reported (`parseFactor`, `Parser.cpp:4337-4345`). The result counts the messages
of severity ERR; the others have no effect. Types, symbols and places in the source are left out, as are structured comments and
low-level errors of the tokenizer. Every call costs a unit of fuel; `none` is that the fuel ran out.
-/
namespace Ulam.InitParse

/-- An expression; a name by itself is one. -/
inductive Ex where
  | name (n : Nat)
  | other (n : Nat)
  deriving DecidableEq, Repr

/-- Tokens; the end of the list is `TOK_EOF`. -/
inductive Tok where
  | oc | cc | comma | semi | dot | eq
  | ex (e : Ex)
  | junk (n : Nat)
  deriving DecidableEq, Repr

mutual
/-- The nodes made: an expression, `NodeListArrayInitialization`, `NodeListClassInit`, `NodeListEmpty`. -/
inductive Val where
  | ex (e : Ex)
  | arr (items : Items)
  | cls (mems : Mems)
  | empty
/-- The items of an array: expressions and lists for a class. -/
inductive Items where
  | nil
  | ex (e : Ex) (l : Items)
  | cls (m : Mems) (l : Items)
/-- The members of a class: `NodeInitDM`. -/
inductive Mems where
  | nil
  | cons (n : Nat) (v : Val) (l : Mems)
end

/-- What a function returns (`none` is NULL or false), the tokens left, and the errors reported. -/
abbrev R (α : Type) := Option α × List Tok × Nat

/-- `parseAssignExpr`. -/
def pAssign : List Tok → Option Ex × List Tok
  | .ex e :: r => (some e, r)
  | r => (none, r)

/-- A result used for a larger node; NULL stays NULL. -/
def R.map {α β : Type} (g : α → β) (x : R α) : R β := (x.1.map g, x.2)

/-- More errors, reported before. -/
def R.add {α : Type} (k : Nat) (x : R α) : R α := (x.1, x.2.1, x.2.2 + k)

mutual
/-- `Parser.cpp:5230-5255` `parseArrayOrClassInitialization`, the curly being eaten, with `parseArrayInitialization` (5257-5269) and
`parseClassInstanceInitialization` (5365-5383). -/
def pInit : Nat → List Tok → Option (R Val)
  | 0, _ => none
  | f + 1, ts => match ts with
    | .dot :: _ => (pCls f false ts).map (R.map .cls)
    | .cc :: r => some (some .empty, r, 0)
    | _ => (pArr f false ts).map (R.map .arr)

/-- `Parser.cpp:5271-5363` `parseArrayItemInit` up to line 5307; `some'` is that there is an item already. -/
def pArr : Nat → Bool → List Tok → Option (R Items)
  | 0, _, _ => none
  | f + 1, some', ts => match ts with
    | .cc :: r => some (some .nil, r, 0)
    | .semi :: _ => some (some .nil, ts, 0)
    | .comma :: r => pItem f some' true r
    | .oc :: r => pItem f some' false r
    | .dot :: _ => some (none, ts, 1)
    | _ => if some' then some (none, ts, 1) else pItem f some' false ts

/-- `Parser.cpp:5309-5363`, the rest of it; `comma` is that the token before was one. -/
def pItem : Nat → Bool → Bool → List Tok → Option (R Items)
  | 0, _, _, _ => none
  | f + 1, some', comma, ts =>
    match ts with
    | .dot :: _ => (pCls f false ts).bind fun x => match x with
      | (some m, r, k) => (pArr f true r).map fun y => (R.map (.cls m) y).add k
      | (none, r, k) => pMissing f some' k r
    | .cc :: r =>
      if comma then pMissing f some' 0 ts
      else match r with
        | .comma :: _ => (pArr f true r).map (R.map (.cls .nil))
        | .cc :: _ => (pArr f true r).map (R.map (.cls .nil))
        | _ => pMissing f some' 0 r
    | _ => match pAssign ts with
      | (some e, r) => (pArr f true r).map (R.map (.ex e))
      | (none, r) => pMissing f some' 0 r

/-- No item, `Parser.cpp:5344-5359`: an error if it would be the first; `k` errors have been reported. -/
def pMissing : Nat → Bool → Nat → List Tok → Option (R Items)
  | 0, _, _, _ => none
  | f + 1, some', k, ts => if some' then (pArr f true ts).map (R.add k) else some (none, ts, k + 1)

/-- `Parser.cpp:5385-5428` `parseClassItemInit` as far as the dot. -/
def pCls : Nat → Bool → List Tok → Option (R Mems)
  | 0, _, _ => none
  | f + 1, some', ts => match ts with
    | .cc :: r => some (some .nil, r, 0)
    | .comma :: .dot :: r => pMem f r
    | .comma :: .cc :: r => some (some .nil, r, 0)
    | .comma :: r => some (none, r, 1)
    | .dot :: r => if some' then some (none, ts, 1) else pMem f r
    | _ => some (none, ts, 1)

/-- `Parser.cpp:5430-5484`, after the dot. -/
def pMem : Nat → List Tok → Option (R Mems)
  | 0, _ => none
  | f + 1, ts => match ts with
    | .ex (.name n) :: .eq :: .oc :: r => (pInit f r).bind fun x => match x with
      | (some v, r', k) => (pCls f true r').map fun y => (R.map (.cons n v) y).add k
      | (none, r', k) => some (none, r', k + 1)
    | .ex (.name n) :: .eq :: r => match pAssign r with
      | (some e, r') => (pCls f true r').map (R.map (.cons n (.ex e)))
      | (none, r') => some (none, r', 1)
    | .ex (.name _) :: r => some (none, r, 1)
    | r => some (none, r, 1)
end

end Ulam.InitParse
