/-!
# Reading parameters and arguments of functions (model)

`Parser.cpp`: how `(Int a, Bool b, ...)` behind the name in a definition, and `(1, x)` behind the name in a call are read from tokens;
the opening parenthesis is eaten.

Simplifications: a type is one token (`ty`; it stands also for the keywords `local` and `constant` that may begin one) and is always
valid, an expression is one token (C28), the brackets behind the name of a parameter are left out, and where an expression is
wanted and there is none nothing is consumed and nothing reported (`parseFactor`, `Parser.cpp:4337-4345`). The result counts the
messages of severity ERR. Structured comments and low-level errors of the tokenizer are left out. The body is taken to be read
without trouble, and other functions of the same name and parameters are left out (C101).
-/
namespace Ulam.CallParse

/-- Tokens; the end of the list is `TOK_EOF`. -/
inductive Tok where
  | ty (t : Nat)
  | id (n : Nat)
  | ex (e : Nat)
  | comma | close | ell | eq
  | junk (n : Nat)
  deriving DecidableEq, Repr

/-- What has been read: the parameters (type and name) in the block of the function, whether it `takesVariableArgs`, and the errors. -/
structure St where
  pars : List (Nat × Nat)
  var : Bool
  errs : Nat
  deriving DecidableEq, Repr

/-- One more error. -/
def St.err (s : St) : St := { s with errs := s.errs + 1 }

/-- A parameter: `makeVariableSymbol` (`Parser.cpp:6085-6181`) reports a name that is in the block already with two messages and makes no
node; else it is added, and reported if an ellipsis was before (`parseRestOfFunctionParameters`, `Parser.cpp:5836-5858`). `self`, the only other name in the block
(`makeFunctionBlock`, `Parser.cpp:5709-5717`), is a keyword. -/
def St.param (s : St) (t n : Nat) : St :=
  if s.pars.any (fun p => p.2 == n) then s.err.err
  else
    let s' : St := { s with pars := s.pars ++ [(t, n)] }
    if s.var then s'.err else s'

/-- `Parser.cpp:5813-5880` `parseRestOfFunctionParameters`, with `parseFunctionParameterDecl` (5883-5922): `behind` is that something
was read, behind which `getExpectedToken(TOK_COMMA)` may eat a comma (5874-5878). A token in the place of a name is eaten. -/
def pPars : Bool → St → List Tok → St × List Tok
  | _, s, [] => (s.err, [])
  | _, s, .close :: r => (s, r)
  | _, s, .ell :: r => pPars true (if s.var then s.err else { s with var := true }) r
  | _, s, [.ty _] => (s.err.err, [])
  | _, s, .ty t :: .id n :: r => pPars true (s.param t n) r
  | _, s, .ty _ :: _ :: r => pPars true s.err r
  | _, s, .eq :: r => pPars true s.err r
  | behind, s, .comma :: r =>
    if behind then pPars false (if s.var then s.err else s) r else (s.err, r)
  | _, s, _ :: r => (s.err, r)

/-- The kind of function: a constructor, an overloaded operator; and whether its body is `native`. -/
structure Kind where
  constr : Bool
  op : Bool
  native : Bool
  deriving DecidableEq, Repr

/-- `Parser.cpp:5726-5811`, the rest of `makeFunctionBlock`: the function made, if any, with its parameters and whether it takes variable
arguments; the errors; the tokens left. -/
def pFunc (k : Kind) (ts : List Tok) : Option (List (Nat × Nat) × Bool) × Nat × List Tok :=
  let x := pPars false ⟨[], false, 0⟩ ts
  let s := x.1
  if k.constr && s.pars.length == 0 then (none, s.errs + 1, x.2)
  else if k.op && decide (s.pars.length > 1) then (none, s.errs + 1, x.2)
  else if s.var && !k.native then (some (s.pars, false), s.errs + 1, x.2)
  else (some (s.pars, s.var), s.errs, x.2)

/-- `parseAssignExpr`. -/
def pAssign : List Tok → Option Nat × List Tok
  | .ex e :: r => (some e, r)
  | r => (none, r)

/-- An argument added to the node of the call, if there is one (`Parser.cpp:4089-4091`). -/
def addArg (a : Option Nat) (x : Option (List Nat) × Nat × List Tok) : Option (List Nat) × Nat × List Tok :=
  (x.1.map (a.toList ++ ·), x.2)

theorem pAssign_le (ts : List Tok) : (pAssign ts).2.length ≤ ts.length := by
  unfold pAssign; split <;> simp

/-- `Parser.cpp:4087-4106` `parseRestOfFunctionCallArguments` (`none`: it returns false and the call is deleted, 4071-4077). -/
def pCall (ts : List Tok) : Option (List Nat) × Nat × List Tok :=
  match _h : pAssign ts with
  | (_, []) => (none, 1, [])
  | (a, .close :: r) => addArg a (some [], 0, r)
  | (a, .comma :: r) => addArg a (pCall r)
  | (_, _ :: r) => (none, 1, r)
termination_by ts.length
decreasing_by
  have := pAssign_le ts
  simp_all
  omega

end Ulam.CallParse
