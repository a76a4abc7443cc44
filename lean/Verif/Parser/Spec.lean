import Verif.Parser.Model

/-!
# What it means to write an expression down

`Derives` is the documented grammar of expressions (`/repo/include/Parser.h:266-345`, comments of the
parsing functions) as a relation between token lists and trees; `print` writes a tree with the
fewest parentheses the table of levels asks for.  Neither mentions a parsing function.

Levels, from loosest to tightest:

| level | operators | associativity |
|---|---|---|
| 0 | `=` `+=` `-=` `*=` `/=` `%=` `&=` `\|=` `^=` `<<=` `>>=` | right |
| 1 | `? :` | right |
| 2 | `&&` `\|\|` | left |
| 3 | `&` `\|` `^` | left |
| 4 | `==` `!=` | left |
| 5 | `<` `>` `<=` `>=` | left |
| 6 | `<<` `>>` | left |
| 7 | `+` `-` | left |
| 8 | `*` `/` `%` | left |
| 9 | prefix `-` `+` `!` `~` `++` `--`; casts; `a is T`; numbers | |
| 10 | `a.b` | left |
| 11 | names, strings, calls, `a[i]`, `a++`, `a--`, `a.f()`, `a.sizeof`, parentheses | left |
-/

namespace Ulam.Parser

/-- The level of a binary operator. -/
def BinOp.level : BinOp → Nat
  | .logicalAnd | .logicalOr => 2
  | .bitwiseAnd | .bitwiseOr | .bitwiseXor => 3
  | .equalEqual | .notEqual => 4
  | .lessThan | .greaterThan | .lessEqual | .greaterEqual => 5
  | .shiftLeft | .shiftRight => 6
  | .add | .subtract => 7
  | .multiply | .divide | .remainder => 8

/-- How an operator is written. -/
def BinOp.tok : BinOp → Tok
  | .logicalAnd => .ampAmp | .logicalOr => .pipePipe
  | .bitwiseAnd => .amp | .bitwiseOr => .pipe | .bitwiseXor => .hat
  | .equalEqual => .equalEqual | .notEqual => .notEqual
  | .lessThan => .less | .greaterThan => .greater
  | .lessEqual => .lessOrEqual | .greaterEqual => .greaterOrEqual
  | .shiftLeft => .shiftLeft | .shiftRight => .shiftRight
  | .add => .plus | .subtract => .minus
  | .multiply => .star | .divide => .slash | .remainder => .percent

def AsgOp.tok : AsgOp → Tok
  | .set => .equal | .add => .plusEqual | .subtract => .minusEqual | .multiply => .starEqual
  | .divide => .slashEqual | .remainder => .percentEqual | .bitwiseAnd => .ampEqual
  | .bitwiseOr => .pipeEqual | .bitwiseXor => .hatEqual | .shiftLeft => .shiftLeftEqual
  | .shiftRight => .shiftRightEqual

def PreOp.tok : PreOp → Tok
  | .minus => .minus | .plus => .plus | .bang => .bang | .twiddle => .twiddle
  | .incr => .plusPlus | .decr => .minusMinus

def PostOp.tok : PostOp → Tok
  | .incr => .plusPlus | .decr => .minusMinus

mutual

/-- `Derives k ts e`: the tokens `ts` write the tree `e` as an expression of level `k`. -/
inductive Derives : Nat → List Tok → Tree → Prop
  | up {k ts e} : Derives (k + 1) ts e → Derives k ts e
  | assign (o : AsgOp) {l r tl tr} : Derives 1 tl l → Derives 0 tr r →
      Derives 0 (tl ++ o.tok :: tr) (.assign o l r)
  | cond {c a b tc ta tb} : Derives 2 tc c → Derives 1 ta a → Derives 1 tb b →
      Derives 1 (tc ++ .question :: (ta ++ .colon :: tb)) (.cond c a b)
  | bin (o : BinOp) {l r tl tr} : Derives o.level tl l → Derives (o.level + 1) tr r →
      Derives o.level (tl ++ o.tok :: tr) (.bin o l r)
  | pre (o : PreOp) {e te} : Derives 9 te e → Derives 9 (o.tok :: te) (.pre o e)
  | num (n) : Derives 9 [.num n] (.num n)
  | cast (n) {e te} : Derives 9 te e →
      Derives 9 (.openParen :: .typ n :: .closeParen :: te) (.cast n e)
  | isType (n) {e te} : Derives 10 te e → Derives 9 (te ++ [.isKw, .typ n]) (.isType e n false)
  | member {l r tl tr} : Derives 10 tl l → DerivesLval tr r →
      Derives 10 (tl ++ .dot :: tr) (.member l r)
  | ident (n) : Derives 11 [.ident n] (.ident n)
  | str (n) : Derives 11 [.str n] (.str n)
  | call (n) {args ta} : DerivesArgs ta args →
      Derives 11 (.ident n :: .openParen :: ta) (.call n args)
  | methodCall (n) {l args tl ta} : Derives 10 tl l → DerivesArgs ta args →
      Derives 11 (tl ++ .dot :: .ident n :: .openParen :: ta) (.member l (.call n args))
  | proxy (k) {e te} : Derives 10 te e → Derives 11 (te ++ [.dot, .ofKw k]) (.proxy e k)
  | index {l i tl ti} : Derives 11 tl l → Derives 1 ti i →
      Derives 11 (tl ++ .openSquare :: (ti ++ [.closeSquare])) (.index l i)
  | post (o : PostOp) {e te} : Derives 10 te e → Derives 11 (te ++ [o.tok]) (.post o e)
  | paren {e te} : Derives 0 te e → Derives 11 (.openParen :: (te ++ [.closeParen])) e

/-- `DerivesLval ts e`: a name with any number of subscripts. -/
inductive DerivesLval : List Tok → Tree → Prop
  | ident (n) : DerivesLval [.ident n] (.ident n)
  | index {l i tl ti} : DerivesLval tl l → Derives 1 ti i →
      DerivesLval (tl ++ .openSquare :: (ti ++ [.closeSquare])) (.index l i)

/-- `DerivesArgs ts es`: arguments up to and including the closing parenthesis. -/
inductive DerivesArgs : List Tok → List Tree → Prop
  | none : DerivesArgs [.closeParen] []
  | last {a ta} : Derives 0 ta a → DerivesArgs (ta ++ [.closeParen]) [a]
  | more {a b ta tb bs} : Derives 0 ta a → DerivesArgs tb (b :: bs) →
      DerivesArgs (ta ++ .comma :: tb) (a :: b :: bs)

end

/-! ## Printing -/

/-- A name with subscripts: what may stand behind a dot besides a call. -/
inductive IsLval : Tree → Prop
  | ident (n) : IsLval (.ident n)
  | index {l i} : IsLval l → IsLval (.index l i)

/-- Expressions with nothing missing, and only names, subscripted names and calls behind a dot. -/
inductive Complete : Tree → Prop
  | ident (n) : Complete (.ident n)
  | num (n) : Complete (.num n)
  | str (n) : Complete (.str n)
  | call (n) {args} : (∀ a ∈ args, Complete a) → Complete (.call n args)
  | index {l i} : Complete l → Complete i → Complete (.index l i)
  | member {l r} : Complete l → Complete r → IsLval r → Complete (.member l r)
  | methodCall (n) {l args} : Complete l → (∀ a ∈ args, Complete a) →
      Complete (.member l (.call n args))
  | proxy (k) {e} : Complete e → Complete (.proxy e k)
  | cast (n) {e} : Complete e → Complete (.cast n e)
  | isType (n) {e} : Complete e → Complete (.isType e n false)
  | pre (o) {e} : Complete e → Complete (.pre o e)
  | post (o) {e} : Complete e → Complete (.post o e)
  | bin (o) {l r} : Complete l → Complete r → Complete (.bin o l r)
  | cond {c a b} : Complete c → Complete a → Complete b → Complete (.cond c a b)
  | assign (o) {l r} : Complete l → Complete r → Complete (.assign o l r)

/-- The level of a tree written without parentheses around it. -/
def Tree.level : Tree → Nat
  | .assign .. => 0
  | .cond .. => 1
  | .bin o _ _ => o.level
  | .pre .. | .num _ | .cast .. | .isType .. => 9
  | .member _ (.call ..) => 11
  | .member .. => 10
  | _ => 11

/-- Put parentheses around `ts` if asked to. -/
def parens (b : Bool) (ts : List Tok) : List Tok :=
  if b then .openParen :: (ts ++ [.closeParen]) else ts

mutual

/-- Write a tree down without parentheses around it; operands get parentheses only if their level
is lower than their place asks for. -/
def Tree.print : Tree → List Tok
  | .null => []
  | .ident n => [.ident n]
  | .num n => [.num n]
  | .str n => [.str n]
  | .call n args => .ident n :: .openParen :: printArgs args
  | .index l i => parens (l.level < 11) l.print ++ .openSquare ::
      (parens (i.level < 1) i.print ++ [.closeSquare])
  | .member l r => parens (l.level < 10) l.print ++ .dot :: r.print
  | .proxy e k => parens (e.level < 10) e.print ++ [.dot, .ofKw k]
  | .cast n e => .openParen :: .typ n :: .closeParen :: parens (e.level < 9) e.print
  | .isType e n _ => parens (e.level < 10) e.print ++ [.isKw, .typ n]
  | .pre o e => o.tok :: parens (e.level < 9) e.print
  | .post o e => parens (e.level < 10) e.print ++ [o.tok]
  | .bin o l r => parens (l.level < o.level) l.print ++ o.tok ::
      parens (r.level < o.level + 1) r.print
  | .cond c a b => parens (c.level < 2) c.print ++ .question ::
      (parens (a.level < 1) a.print ++ .colon :: parens (b.level < 1) b.print)
  | .assign o l r => parens (l.level < 1) l.print ++ o.tok :: r.print

def printArgs : List Tree → List Tok
  | [] => [.closeParen]
  | [a] => a.print ++ [.closeParen]
  | a :: b :: r => a.print ++ .comma :: printArgs (b :: r)

end

/-- No `is T` has a `&` directly behind it. -/
def NoIsAmp (ts : List Tok) : Prop :=
  ∀ a n b, ts ≠ a ++ .isKw :: .typ n :: .amp :: b

/-! ## Running a parsing function -/

/-- With enough fuel, and from then on with any amount of it, the answer is `out`. -/
def Runs (F : Nat → Res) (out : Tree × List Tok) : Prop :=
  ∃ N, ∀ f, N ≤ f → F f = some out

/-- The level at which a token continues an expression standing before it; nothing for tokens that
end every expression. -/
def Tok.continues : Tok → Option Nat
  | .openParen | .dot | .openSquare | .square | .plusPlus | .minusMinus | .isKw | .asKw | .error
    => some 11
  | .star | .slash | .percent => some 8
  | .plus | .minus => some 7
  | .shiftLeft | .shiftRight => some 6
  | .less | .greater | .lessOrEqual | .greaterOrEqual => some 5
  | .equalEqual | .notEqual => some 4
  | .amp | .pipe | .hat => some 3
  | .ampAmp | .pipePipe => some 2
  | .question => some 1
  | .equal | .plusEqual | .minusEqual | .starEqual | .slashEqual | .percentEqual
  | .ampEqual | .pipeEqual | .hatEqual | .shiftLeftEqual | .shiftRightEqual => some 0
  | _ => none

/-- The tokens `ts` do not continue an expression of level `k` standing before them. -/
def Ends (k : Nat) (ts : List Tok) : Prop :=
  ∀ t r, ts = t :: r → ∀ j, t.continues = some j → j < k

end Ulam.Parser
