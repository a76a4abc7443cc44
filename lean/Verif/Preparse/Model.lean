import Mathlib.Data.Nat.Init
/-!
# Directives: `ulam`, `use`, `load` (model)

`Preparser.cpp` (all of it), `Parser.cpp:7069-7073`, `7105-7128` (`peekFirstToken`, `getNextToken`, `unreadToken`),
`Tokenizer.cpp:11-14`, `SourceStream.cpp:267-280` (`setFileUlamVersion`).

Simplifications. The level is that of tokens: what the lexer makes of a text is C22 and C23, that the bytes of a loaded file
come in place of the directive is C26. So a file is the list of its tokens, and the open files are a stack. Files end with
white space, so that no token runs from one file into another; only of the file the program starts with the other case is
looked at (`bare`: it ends with its last token). A file is not loaded again while it is open (C26). `exists` asks whether a
file was opened before or can be opened: the same question, since files do not change. The version that is recorded for a file
is not read anywhere, and left out. A message is a token `err`.
-/
namespace Ulam.Preparse

/-- A token. Of strings: the file name, when all characters are printable (`formatDoubleQuotedFileNameUnquoted`,
`StringPoolUser.cpp:249-280`). Of numbers: the value, when `strtol` reads the whole text (`Preparser.cpp:202-205`). -/
inductive Tok where
  | ident (s : List Char) | typeIdent (s : List Char) | dot | semi
  | str (s : Option (List Char))
  | num (v : Option Nat) | float
  | use | load | ulam
  | comment (k : Nat)
  | err
  | eof
  | other (k : Nat)
  deriving DecidableEq

/-- The open files with what is left of them, the innermost first; the token the lexer can unread; the one the preparser can
unread. -/
structure St where
  stack : List (List Tok)
  bare : Bool
  lexLast : Tok
  lexHave : Bool
  last : Tok
  have_ : Bool
  deriving DecidableEq

/-- A program that starts with a file. -/
def start (ts : List Tok) (bare : Bool) : St := ⟨[ts], bare, .eof, false, .eof, false⟩

def isNum : Tok → Bool
  | .num _ => true
  | _ => false

/-- The next token of the text, `SourceStream.cpp:46-82` as seen by the lexer: at the end of a file the one below goes on. To
see the end of a number a byte more is read, which closes a file that ends there (`SourceStream.cpp:72-78`). -/
def popTok (bare : Bool) : List (List Tok) → Tok × List (List Tok)
  | [] => (.eof, [])
  | [] :: fs => popTok bare fs
  | (t :: ts) :: fs => if bare && fs.isEmpty && ts.isEmpty && isNum t then (t, []) else (t, ts :: fs)

/-- `Lexer.cpp:54-155` `getNextToken`: the answer is `false` for an error. -/
def lexNext (s : St) : Bool × Tok × St :=
  if s.lexHave then (true, s.lexLast, { s with lexHave := false })
  else
    let r := popTok s.bare s.stack
    (decide (r.1 ≠ .err), r.1, { s with stack := r.2, lexLast := r.1 })

/-- `Tokenizer.cpp:11-14` `unreadToken`, of the lexer. -/
def lexUnread (s : St) : St := { s with lexHave := true }

/-- `Preparser.cpp:160-189` `preparsePackageName`; `none`: more than `fuel` tokens. -/
def pkgName : Nat → St → List Char → Option (Bool × List Char × St)
  | 0, _, _ => none
  | n + 1, s, p =>
    match lexNext s with
    | (false, _, s) => some (false, p, s)
    | (true, .typeIdent x, s) => pkgName n s (p ++ x)
    | (true, .ident x, s) => pkgName n s (p ++ x)
    | (true, .dot, s) => pkgName n s (p ++ ['/'])
    | (true, .semi, s) => some (true, p ++ ".ulam".toList, s)
    | (true, _, s) => some (false, p, lexUnread s)

/-- `Preparser.cpp:128-158` `preparseFileName`: it goes on with the name it is given. -/
def fileName (s : St) (p : List Char) : Bool × List Char × St :=
  match lexNext s with
  | (_, .str (some x), s) =>
    match lexNext s with
    | (_, .semi, s) => (true, p ++ x, s)
    | (_, _, s) => (false, p ++ x, lexUnread s)
  | (_, .str none, s) => (false, p, s)
  | (_, _, s) => (false, p, lexUnread s)

/-- Which files there are, with their tokens. -/
abbrev Disk := List Char → Option (List Tok)

/-- `SourceStream.cpp:101-160` `push`. -/
def push (s : St) (ts : List Tok) : St := { s with stack := ts :: s.stack }

/-- The first part of `Preparser.cpp:45-57`. -/
def first (s : St) : Tok × St :=
  if s.have_ then (s.last, { s with have_ := false })
  else
    let r := lexNext s
    (r.2.1, { r.2.2 with last := r.2.1 })

/-- `strtol` into an `s32`, handed on as a `u32` (`Preparser.cpp:204-213`). -/
def asU32 (v : Nat) : Nat := min v (2 ^ 63 - 1) % 2 ^ 32

/-- What the number of a version declaration comes to, `Preparser.cpp:200-245`: `none` is the `top` of an empty stack, which
`setFileUlamVersion` takes after all files are closed (`SourceStream.cpp:267-280`); otherwise whether all is well. -/
def setVersion (cur : Nat) (t : Tok) (s : St) : Option Bool :=
  match t with
  | .num none => some false
  | .num (some v) => if asU32 v ≤ cur then (if s.stack.isEmpty then none else some true) else some false
  | _ => some false

/-- What a call of the preparser comes to: out of fuel, undefined behaviour, or an answer and a token. -/
inductive Out where
  | fuel
  | ub
  | tok (b : Bool) (t : Tok) (s : St)

/-- `Preparser.cpp:45-71` `getNextToken`, with `preparseKeywordUse` (`73-98`), `preparseKeywordLoad` (`100-126`) and
`preparseKeywordUlam` (`191-264`); `cur` is the version of the compiler. -/
def pre (D : Disk) (cur : Nat) : Nat → St → Out
  | 0, _ => .fuel
  | n + 1, s =>
    match first s with
    | (.use, s) =>
      match pkgName n s [] with
      | none => .fuel
      | some (false, _, s) => .tok false .err s
      | some (true, p, s) => if (D p).isSome then pre D cur n s else .tok false .err s
    | (.load, s) =>
      match pkgName n s [] with
      | none => .fuel
      | some (true, p, s) =>
        match D p with
        | some ts => pre D cur n (push s ts)
        | none => .tok false .err s
      | some (false, p, s) =>
        match fileName s p with
        | (false, _, s) => .tok false .err s
        | (true, p, s) =>
          match D p with
          | some ts => pre D cur n (push s ts)
          | none => .tok false .err s
    | (.ulam, s) =>
      match pre D cur n s with
      | .fuel => .fuel
      | .ub => .ub
      | .tok _ t s =>
        match setVersion cur t s with
        | none => .ub
        | some ok =>
          match pre D cur n s with
          | .fuel => .fuel
          | .ub => .ub
          | .tok _ t s =>
            if ok then (if t = .semi then pre D cur n s else .tok false .err s) else .tok false .err s
    | (t, s) => .tok true t s

/-- `Preparser.cpp:36-43` and `Parser.cpp:7069-7073` `peekFirstToken`; `none`: the assertion of `Parser.cpp:123` fails. -/
def peekFirst (s : St) : Option St :=
  let r := lexNext s
  if r.1 then some { r.2.2 with last := r.2.1, have_ := true } else none

/-- What a call of the parser comes to; with a token comes the comment kept for it, if one was met just now. -/
inductive POut where
  | fuel
  | ub
  | tok (errs : Nat) (doc : Option Nat) (t : Tok) (s : St)

/-- `Parser.cpp:7105-7123` `getNextToken`: after a message, or a structured comment, another token is asked for, and taken as
it is. -/
def parserNext (D : Disk) (cur n : Nat) (s : St) : POut :=
  match pre D cur n s with
  | .fuel => .fuel
  | .ub => .ub
  | .tok _ .err s =>
    match pre D cur n s with
    | .fuel => .fuel
    | .ub => .ub
    | .tok _ t s => .tok 1 none t s
  | .tok _ (.comment k) s =>
    match pre D cur n s with
    | .fuel => .fuel
    | .ub => .ub
    | .tok _ t s => .tok 0 (some k) t s
  | .tok _ t s => .tok 0 none t s

/-- `Parser.cpp:7125-7128` `unreadToken`. -/
def unreadToken (s : St) : St := { s with have_ := true }

/-- The first `k` tokens the parser reads, each with its comment, when no message is given. -/
def stream (D : Disk) (cur n : Nat) : Nat → St → Option (List (Option Nat × Tok))
  | 0, _ => some []
  | k + 1, s =>
    match parserNext D cur n s with
    | .tok 0 d t s => (stream D cur n k s).map fun l => (d, t) :: l
    | _ => none

end Ulam.Preparse
