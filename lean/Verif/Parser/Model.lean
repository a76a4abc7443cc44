/-!
# The expression part of the recursive-descent parser

Modelled code: `/repo/src/ulam/Parser.cpp`, the functions from `parseAssignExpr` to
`parseRestOfAssignExpr` (lines 3718-4800) and the node makers they use (6518-6960), together with
the token classes they look at (`/repo/include/Token.inc`).

What is simplified:

* The token stream is a list.  `getNextToken` takes the head; `unreadToken` gives it back, so
  "get, look, unread" is a look at the head of the list.  At the end of the stream the tokenizer
  keeps answering `TOK_EOF`; here the list is empty, which every function treats as it treats
  `TOK_EOF` (unread it, return what there is).
* A node is a `Tree`, and the NULL pointer is the tree `null`.  Locations, symbols, node numbers and
  the parser's context stack do not influence which functions are called and are left out.
* A type is a single token (`Foo`, `Int`), possibly with a `&` behind it; types with arguments,
  bit sizes, dots or brackets are left out.
* Constants of a type (`Foo.sizeof`), the keywords `local` and `as`, member selection by a type,
  `instanceof` and the `__FUNC__`-like flags are left out: those tokens are the `other` tokens (`asKw`
  for `as`), and nothing is claimed about expressions in which they occur.
* The functions recurse without a bound; here every call costs one unit of fuel and `none` is "the
  fuel ran out".  `Runs` (file `Spec.lean`) speaks about all sufficiently large amounts of fuel.
-/

namespace Ulam.Parser

/-- The tokens the expression functions distinguish (`/repo/include/Token.inc`).  A token carries
its name or value as a number; `typ` is a type name (`Token::isTokenAType`), `ofKw` one of `sizeof`,
`minof`, `maxof`, `lengthof`, `classidof`, `posof`, `atomof`, `constantof`. -/
inductive Tok
  | ident (n : Nat) | num (n : Nat) | str (n : Nat)
  | openParen | closeParen | openSquare | closeSquare | square | dot | comma | question | colon
  | ampAmp | pipePipe | amp | pipe | hat | equalEqual | notEqual
  | less | greater | lessOrEqual | greaterOrEqual | shiftLeft | shiftRight
  | plus | minus | star | slash | percent | bang | twiddle | plusPlus | minusMinus
  | equal | plusEqual | minusEqual | starEqual | slashEqual | percentEqual
  | ampEqual | pipeEqual | hatEqual | shiftLeftEqual | shiftRightEqual
  | typ (n : Nat) | ofKw (n : Nat) | isKw | asKw | error | other (n : Nat)
  deriving DecidableEq, Repr

/-- The classes of binary operator nodes (`NodeBinaryOp*`, not the assignments). -/
inductive BinOp
  | logicalAnd | logicalOr | bitwiseAnd | bitwiseOr | bitwiseXor | equalEqual | notEqual
  | lessThan | greaterThan | lessEqual | greaterEqual | shiftLeft | shiftRight
  | add | subtract | multiply | divide | remainder
  deriving DecidableEq, Repr

/-- The assignment nodes that have a right operand (`NodeBinaryOpEqual*`). -/
inductive AsgOp
  | set | add | subtract | multiply | divide | remainder | bitwiseAnd | bitwiseOr | bitwiseXor
  | shiftLeft | shiftRight
  deriving DecidableEq, Repr

/-- The nodes made from an operator in front of a factor. -/
inductive PreOp
  | minus | plus | bang | twiddle | incr | decr
  deriving DecidableEq, Repr

/-- The nodes made from `++`, `--` behind an operand. -/
inductive PostOp
  | incr | decr
  deriving DecidableEq, Repr

/-- Expression nodes; `null` is the NULL pointer. -/
inductive Tree
  | null
  | ident (n : Nat)                      -- NodeIdent
  | num (n : Nat)                        -- NodeTerminal, number or truth value
  | str (n : Nat)                        -- NodeTerminal, quoted string
  | call (n : Nat) (args : List Tree)    -- NodeFunctionCall
  | index (l i : Tree)                   -- NodeSquareBracket
  | member (l r : Tree)                  -- NodeMemberSelect
  | proxy (e : Tree) (k : Nat)           -- NodeTerminalProxy of a member expression
  | cast (n : Nat) (e : Tree)            -- NodeCast
  | isType (e : Tree) (n : Nat) (ref : Bool)  -- NodeConditionalIs; `ref`: the type was `n&`
  | pre (o : PreOp) (e : Tree)           -- NodeUnaryOp*, NodeBinaryOpEqualArithPreIncr/PreDecr
  | post (o : PostOp) (e : Tree)         -- NodeBinaryOpEqualArithPostIncr/PostDecr
  | bin (o : BinOp) (l r : Tree)
  | cond (c a b : Tree)                  -- NodeQuestionColon
  | assign (o : AsgOp) (l r : Tree)
  deriving Repr

/-- Whether the pointer is NULL. -/
def Tree.isNull : Tree → Bool
  | .null => true
  | _ => false

/-- The six levels of left-associative operators that have their own trio of functions
`parseX`, `parseRestOfX`, `makeXNode`, named as in the code. -/
inductive Level
  | logical   -- parseLogicalExpression 4117, parseRestOfLogicalExpression 4661, makeLogicalExpressionNode 6677
  | bit       -- parseBitExpression 4126, parseRestOfBitExpression 4635, makeBitExpressionNode 6715
  | eq        -- parseEqExpression 4135, parseRestOfEqExpression 4607, makeEqExpressionNode 6750
  | compare   -- parseCompareExpression 4144, parseRestOfCompareExpression 4581, makeCompareExpressionNode 6791
  | shift     -- parseShiftExpression 4153, parseRestOfShiftExpression 4555, makeShiftExpressionNode 6826
  | term      -- parseTerm 4162, parseRestOfTerm 4530, makeTermNode 6861
  deriving DecidableEq, Repr

/-- The function called for the operands of a level; `none` is `parseFactor`
(Parser.cpp:4117-4169 for the left operand, 6677-6897 for the right operand). -/
def Level.operand : Level → Option Level
  | .logical => some .bit
  | .bit => some .eq
  | .eq => some .compare
  | .compare => some .shift
  | .shift => some .term
  | .term => none

/-- The cases of the switches in `parseRestOfX` and `makeXNode`: the node a token makes on a level
(Parser.cpp:4530-4686 and 6677-6897). -/
def Level.makes : Level → Tok → Option BinOp
  | .logical, .amp => some .bitwiseAnd
  | .logical, .pipe => some .bitwiseOr
  | .logical, .hat => some .bitwiseXor
  | .bit, .equalEqual => some .equalEqual
  | .bit, .notEqual => some .notEqual
  | .eq, .less => some .lessThan
  | .eq, .greater => some .greaterThan
  | .eq, .lessOrEqual => some .lessEqual
  | .eq, .greaterOrEqual => some .greaterEqual
  | .compare, .shiftLeft => some .shiftLeft
  | .compare, .shiftRight => some .shiftRight
  | .shift, .plus => some .add
  | .shift, .minus => some .subtract
  | .term, .star => some .multiply
  | .term, .slash => some .divide
  | .term, .percent => some .remainder
  | _, _ => none

/-- The switches of `parseRestOfExpression` (Parser.cpp:4688-4716) and `makeExpressionNode`
(6641-6675). -/
def makesExpression : Tok → Option BinOp
  | .ampAmp => some .logicalAnd
  | .pipePipe => some .logicalOr
  | _ => none

/-- The switch of `makeAssignExprNode` (Parser.cpp:6550-6587). -/
def makesAssign : Tok → Option AsgOp
  | .equal => some .set
  | .plusEqual => some .add
  | .minusEqual => some .subtract
  | .starEqual => some .multiply
  | .slashEqual => some .divide
  | .percentEqual => some .remainder
  | .ampEqual => some .bitwiseAnd
  | .pipeEqual => some .bitwiseOr
  | .hatEqual => some .bitwiseXor
  | .shiftLeftEqual => some .shiftLeft
  | .shiftRightEqual => some .shiftRight
  | _ => none

/-- The first two cases of `makeAssignExprNode` (Parser.cpp:6525-6537). -/
def makesPost : Tok → Option PostOp
  | .plusPlus => some .incr
  | .minusMinus => some .decr
  | _ => none

/-- The switch of `makeFactorNodePreUnaryOp` (Parser.cpp:6914-6951). -/
def makesPre : Tok → Option PreOp
  | .minus => some .minus
  | .plus => some .plus
  | .bang => some .bang
  | .twiddle => some .twiddle
  | .plusPlus => some .incr
  | .minusMinus => some .decr
  | _ => none

/-- The `&` behind a type name makes it a reference type (Parser.cpp:2875-2910, the end of
`parseTypeDescriptor`). -/
def restOfType : List Tok → Bool × List Tok
  | .amp :: r => (true, r)
  | ts => (false, ts)

/-- What a parsing function answers: a node and the tokens that are left, or out of fuel. -/
abbrev Res := Option (Tree × List Tok)

mutual

/-- `parseAssignExpr` (Parser.cpp:3718-3727). -/
def parseAssignExpr : Nat → List Tok → Res
  | 0, _ => none
  | f + 1, ts =>
    match parseExpression f ts with
    | none => none
    | some (e, r) => if e.isNull then some (.null, r) else parseRestOfAssignExpr f e r

/-- `parseRestOfAssignExpr` (Parser.cpp:4762-4803). -/
def parseRestOfAssignExpr : Nat → Tree → List Tok → Res
  | 0, _, _ => none
  | f + 1, left, ts =>
    if left.isNull then some (.null, ts)
    else match ts with
      | [] => some (left, [])
      | t :: r =>
        if (makesAssign t).isSome || (makesPost t).isSome then
          match makeAssignExprNode f left (t :: r) with
          | none => none
          | some (e, r') => parseRestOfAssignExpr f e r'
        else if t = .error then parseRestOfAssignExpr f left r
        else some (left, t :: r)

/-- `makeAssignExprNode` (Parser.cpp:6518-6593).  `abortUnexpectedToken` is not reachable: the
callers have looked at the token. -/
def makeAssignExprNode : Nat → Tree → List Tok → Res
  | 0, _, _ => none
  | _ + 1, _, [] => some (.null, [])
  | f + 1, left, t :: r =>
    match makesPost t with
    | some o => some (.post o left, r)
    | none =>
      match parseAssignExpr f r with
      | none => none
      | some (right, r') =>
        if right.isNull then some (.null, r')
        else match makesAssign t with
          | some o => some (.assign o left right, r')
          | none => some (.null, r')

/-- `parseExpression` (Parser.cpp:4108-4115). -/
def parseExpression : Nat → List Tok → Res
  | 0, _ => none
  | f + 1, ts =>
    match parseLevel f .logical ts with
    | none => none
    | some (e, r) => if e.isNull then some (.null, r) else parseRestOfExpression f e r

/-- `parseRestOfExpression` (Parser.cpp:4688-4716); `makeExpressionNode` (6641-6675) in place. -/
def parseRestOfExpression : Nat → Tree → List Tok → Res
  | 0, _, _ => none
  | f + 1, left, ts =>
    if left.isNull then some (.null, ts)
    else match ts with
      | [] => some (left, [])
      | t :: r =>
        match makesExpression t with
        | some o =>
          match parseLevel f .logical r with
          | none => none
          | some (right, r') =>
            parseRestOfExpression f (if right.isNull then .null else .bin o left right) r'
        | none =>
          if t = .question then makeQuestionColonNode f left r
          else if t = .error then parseRestOfExpression f left r
          else some (left, t :: r)

/-- `makeQuestionColonNode` (Parser.cpp:6595-6640), after the question mark. -/
def makeQuestionColonNode : Nat → Tree → List Tok → Res
  | 0, _, _ => none
  | f + 1, cond, ts =>
    match parseExpression f ts with
    | none => none
    | some (a, r) =>
      if a.isNull then some (.null, r)
      else match r with
        | .colon :: r' =>
          match parseExpression f r' with
          | none => none
          | some (b, r'') => if b.isNull then some (.null, r'') else some (.cond cond a b, r'')
        | r => some (.null, r)

/-- `parseLogicalExpression` … `parseTerm` (Parser.cpp:4117-4169). -/
def parseLevel : Nat → Level → List Tok → Res
  | 0, _, _ => none
  | f + 1, lv, ts =>
    match parseOperand f lv ts with
    | none => none
    | some (e, r) => if e.isNull then some (.null, r) else parseRestOfLevel f lv e r

/-- The call for an operand of a level. -/
def parseOperand : Nat → Level → List Tok → Res
  | 0, _, _ => none
  | f + 1, lv, ts =>
    match lv.operand with
    | some lv' => parseLevel f lv' ts
    | none => parseFactor f ts

/-- `parseRestOfLogicalExpression` … `parseRestOfTerm` (Parser.cpp:4530-4686) with
`makeLogicalExpressionNode` … `makeTermNode` (6677-6897) in place.  These do not look whether the
left node is NULL; `parseRestOfTerm` has no case for the error token. -/
def parseRestOfLevel : Nat → Level → Tree → List Tok → Res
  | 0, _, _, _ => none
  | _ + 1, _, left, [] => some (left, [])
  | f + 1, lv, left, t :: r =>
    match lv.makes t with
    | some o =>
      match parseOperand f lv r with
      | none => none
      | some (right, r') =>
        parseRestOfLevel f lv (if right.isNull then .null else .bin o left right) r'
    | none =>
      if t = .error && lv ≠ .term then parseRestOfLevel f lv left r
      else some (left, t :: r)

/-- `parseFactor` (Parser.cpp:4171-4349) with `parseRestOfCastOrExpression` (4477-4528) and, for a
type behind the parenthesis, `makeCastNode` (6962-6996) in place.  The cast is not followed by a
search for the closing parenthesis, but by `parseRestOfFactor` as any parenthesis is. -/
def parseFactor : Nat → List Tok → Res
  | 0, _ => none
  | _ + 1, [] => some (.null, [])
  | f + 1, t :: r =>
    match t with
    | .ident n =>
      match parseIdentExpr f n r with
      | none => none
      | some (e, r') => parseRestOfFactor f e r'
    | .num n => some (.num n, r)
    | .str n => parseRestOfFactor f (.str n) r
    | .openParen =>
      match r with
      | .typ n :: .closeParen :: r' =>
        match parseFactor f r' with
        | none => none
        | some (e, r'') =>
          if e.isNull then some (.null, r'') else parseRestOfFactor f (.cast n e) r''
      | .typ _ :: r' => some (.null, r')
      | r =>
        match parseAssignExpr f r with
        | none => none
        | some (e, r') =>
          match r' with
          | .closeParen :: r'' => parseRestOfFactor f e r''
          | r'' => some (.null, r'')
    | .error => parseFactor f r
    | t =>
      match makesPre t with
      | some o =>
        match parseFactor f r with
        | none => none
        | some (e, r') => if e.isNull then some (.null, r') else some (.pre o e, r')
      | none => some (.null, t :: r)

/-- `parseRestOfFactor` (Parser.cpp:4438-4478), with `makeConditionalExprNode` (6448-6516) in place,
without `as`. -/
def parseRestOfFactor : Nat → Tree → List Tok → Res
  | 0, _, _ => none
  | f + 1, left, ts =>
    if left.isNull then some (.null, ts)
    else match ts with
      | [] => some (left, [])
      | .dot :: r =>
        match parseRestOfMemberSelectExpr f left (.dot :: r) with
        | none => none
        | some (e, r') => parseRestOfFactor f e r'
      | .square :: r =>
        match parseRestOfLvalExpr f left (.square :: r) with
        | none => none
        | some (e, r') => parseRestOfFactor f e r'
      | .openSquare :: r =>
        match parseRestOfLvalExpr f left (.openSquare :: r) with
        | none => none
        | some (e, r') => parseRestOfFactor f e r'
      | .plusPlus :: r =>
        match makeAssignExprNode f left (.plusPlus :: r) with
        | none => none
        | some (e, r') => parseRestOfFactor f e r'
      | .minusMinus :: r =>
        match makeAssignExprNode f left (.minusMinus :: r) with
        | none => none
        | some (e, r') => parseRestOfFactor f e r'
      | .isKw :: .typ n :: r =>
        parseRestOfFactor f (.isType left n (restOfType r).1) (restOfType r).2
      | .isKw :: r => some (.null, r)
      | .error :: r => some (.null, r.drop 1)
      | ts => some (left, ts)

/-- `parseRestOfMemberSelectExpr` (Parser.cpp:3805-3939), the loop; identifiers
(Parser.cpp:3820-3844) and, by `parseMinMaxSizeofType` (3957-4058), the keywords are followed after
the dot, anything else answers NULL here. -/
def parseRestOfMemberSelectExpr : Nat → Tree → List Tok → Res
  | 0, _, _ => none
  | f + 1, left, ts =>
    match ts with
    | .dot :: .ident n :: r =>
      match parseIdentExpr f n r with
      | none => none
      | some (e, r') =>
        if e.isNull then some (.null, r') else parseRestOfMemberSelectExpr f (.member left e) r'
    | .dot :: .ofKw k :: r => parseRestOfMemberSelectExpr f (.proxy left k) r
    | .dot :: r => some (.null, r)
    | ts => some (left, ts)

/-- `parseIdentExpr` (Parser.cpp:3777-3803) after the identifier; `parseLvalExpr` (3729-3773). -/
def parseIdentExpr : Nat → Nat → List Tok → Res
  | 0, _, _ => none
  | f + 1, n, ts =>
    match ts with
    | .openParen :: r => parseFunctionCall f n [] r
    | .dot :: r => some (.ident n, .dot :: r)
    | ts => parseRestOfLvalExpr f (.ident n) ts

/-- `parseFunctionCall` and `parseRestOfFunctionCallArguments` (Parser.cpp:4058-4106); `args` are
the arguments already added, the last one first. -/
def parseFunctionCall : Nat → Nat → List Tree → List Tok → Res
  | 0, _, _, _ => none
  | f + 1, n, args, ts =>
    match parseAssignExpr f ts with
    | none => none
    | some (a, r) =>
      match r with
      | .closeParen :: r' => some (.call n (if a.isNull then args else a :: args).reverse, r')
      | .comma :: r' => parseFunctionCall f n (if a.isNull then args else a :: args) r'
      | r' => some (.null, r'.drop 1)

/-- `parseRestOfLvalExpr` (Parser.cpp:4718-4760). -/
def parseRestOfLvalExpr : Nat → Tree → List Tok → Res
  | 0, _, _ => none
  | f + 1, left, ts =>
    if left.isNull then some (.null, ts)
    else match ts with
      | .square :: r => some (.index left .null, r)
      | .openSquare :: r =>
        match parseExpression f r with
        | none => none
        | some (i, r') =>
          match r' with
          | .closeSquare :: r'' => parseRestOfLvalExpr f (.index left i) r''
          | r'' => some (.null, r'')
      | ts => some (left, ts)

end

end Ulam.Parser
