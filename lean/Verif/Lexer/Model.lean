import Verif.Token.Model
/-
Model of the lexer, `src/ulam/Lexer.cpp`.

The source stream is the spliced list of bytes of C26 (`Verif/Source/Spec.lean`): `read`
takes a byte off, `unread` puts the last one back. `none` is end of file; read errors
(values below -1) do not occur there.

Simplifications: tokens carry no position (C25) and no pool index, the string itself is the
data (C18); the messages of error tokens are left out; for `__FILE__`, `__FILEPATH__` and
`__LINE__` the data is left symbolic, and a path of more than 255 bytes, which would be an
error, does not occur.
-/
namespace Ulam.Lexer
open Ulam.Token

/-- The stream: bytes to come and, directly after a read, the byte read. -/
structure Str where
  rest : List Nat
  last : Option Nat
deriving DecidableEq, Repr

/-- `m_SS.read()`. -/
def read (s : Str) : Option Nat × Str :=
  match s.rest with
  | [] => (none, ⟨[], none⟩)
  | b :: r => (some b, ⟨r, some b⟩)

/-- `unread()`; without effect when nothing was just read. -/
def unread (s : Str) : Str :=
  match s.last with
  | none => s
  | some b => ⟨b :: s.rest, none⟩

/-- What a token carries. -/
inductive Data where
  | none
  | text (s : Bytes)
  | fileName
  | filePath
  | lineNo
deriving DecidableEq, Repr

/-- `Token`: `m_type` and data. -/
structure Tok where
  type : Nat
  data : Data
deriving DecidableEq, Repr

/-- A `std::string` seen as a C string: up to the first zero byte. -/
def cstr (s : Bytes) : Bytes := s.takeWhile (· ≠ 0)

/-- `Lexer::getTokenTypeFromString` (`Lexer.cpp:1058-1061`). -/
def ttypeOf (s : Bytes) : Nat := typeOf (cstr s)

/-- `isalpha`, `isdigit`, `isxdigit`, `isspace` in the C locale; `Token::isUpper` (`Token.cpp:161-164`). -/
def isAlpha (c : Nat) : Bool := (65 ≤ c && c ≤ 90) || (97 ≤ c && c ≤ 122)
def isDigit (c : Nat) : Bool := 48 ≤ c && c ≤ 57
def isXDigit (c : Nat) : Bool := isDigit c || (65 ≤ c && c ≤ 70) || (97 ≤ c && c ≤ 102)
def isSpace (c : Nat) : Bool := c = 32 || (9 ≤ c && c ≤ 13)
def isUpper (c : Nat) : Bool := 65 ≤ c && c ≤ 90
/-- letters, digits and underscore -/
def isWord (c : Nat) : Bool := isAlpha c || isDigit c || c = 95

/-- `c = read(); while(c >= 0 && p(c)) { push_back(c); c = read(); }`: the string, the last `c`, the stream. -/
def readWhile (p : Nat → Bool) : List Nat → Bytes → Bytes × Option Nat × Str
  | [], acc => (acc, none, ⟨[], none⟩)
  | b :: r, acc => if p b then readWhile p r (acc ++ [b]) else (acc, some b, ⟨r, some b⟩)

/-- `checkEllipsisToken` (`Lexer.cpp:560-582`): whether the third dot is there. -/
def checkEllipsis (s : Str) : Bool × Str :=
  match read s with
  | (none, s1) => (false, s1)
  | (some c, s1) => if c ≠ 46 then (false, unread s1) else (true, s1)

/-- `checkShiftEqualToken` (`Lexer.cpp:584-606`): `none` is the error at end of file, `some true` an equal sign. -/
def checkShiftEqual (s : Str) : Option Bool × Str :=
  match read s with
  | (none, s1) => (none, s1)
  | (some c, s1) => if c = 61 then (some true, s1) else (some false, unread s1)

/-- The end of `makeOperatorToken` (`Lexer.cpp:542-556`): a simple operator. -/
def simpleOperator (astring : Bytes) (s : Str) : Option Nat × Bytes × Str :=
  let s1 := unread s
  let t := ttypeOf astring
  if t ≠ lastOne then (some t, astring, s1) else (none, astring, s1)

/-- `makeOperatorToken` (`Lexer.cpp:506-558`): the token type or an error, the string as it is left, the stream. -/
def makeOperator (astring : Bytes) (s : Str) : Option Nat × Bytes × Str :=
  match read s with
  | (none, s1) => simpleOperator astring s1
  | (some c, s1) =>
    let two := astring ++ [c]
    let t := ttypeOf two
    if t ≠ lastOne then
      if t = tokEllipsis then
        match checkEllipsis s1 with
        | (false, s2) => (none, two, s2)
        | (true, s2) => (some t, two ++ [46], s2)
      else if t = tokShiftLeft ∨ t = tokShiftRight then
        match checkShiftEqual s1 with
        | (none, s2) => (none, two, s2)
        | (some true, s2) => (some (ttypeOf (two ++ [61])), two ++ [61], s2)
        | (some false, s2) => (some t, two, s2)
      else (some t, two, s1)
    else simpleOperator (two.take 1) s1

/-- `MAX_IDENTIFIER_LENGTH`, `MAX_USERSTRING_LENGTH`, `MAX_NUMERICSTRING_LENGTH` (`include/Constants.h`). -/
def maxLength : Nat := 255

/-- `makeWordToken` (`Lexer.cpp:158-258`), `aname` being the first letter. `none`: an error. -/
def makeWord (aname : Bytes) (s : Str) : Option Tok × Str :=
  let (name, _, s1) := readWhile isWord s.rest aname
  let s2 := unread s1
  let t := ttypeOf name
  let ident : Option Tok :=
    if name.length > maxLength then none
    else if isUpper (name.headD 0) then some ⟨tokTypeIdentifier, .text name⟩
    else some ⟨tokIdentifier, .text name⟩
  if t ≠ lastOne then
    match special t with
    | .keyword | .typekeyword | .ctlkeyword => (some ⟨t, .none⟩, s2)
    | .operatorkeyword =>
      match makeOperator [] s2 with
      | (none, _, s3) => (none, s3)
      | (some _, opstr, s3) =>
        match makeOperator opstr s3 with
        | (none, _, s4) => (none, s4)
        | (some op, _, s4) =>
          match fullName op with
          | some nm => (some ⟨tokIdentifier, .text nm⟩, s4)
          | none => (none, s4)
    | _ => (none, s2)
  else (ident, s2)

/-- The flags of `makeNumberToken`. -/
structure NumFlags where
  float : Bool
  unsigned : Bool
  octal : Bool
  hex : Bool
  binary : Bool
  bad : Bool

/-- Flags set by the second character (`Lexer.cpp:276-300`); `zero`: the first digit is 0. -/
def secondFlags (zero : Bool) (c : Nat) : NumFlags :=
  if zero then
    if c = 120 ∨ c = 88 then ⟨false, true, false, true, false, false⟩
    else if c = 98 ∨ c = 66 then ⟨false, true, false, false, true, false⟩
    else if c = 46 then ⟨true, true, false, false, false, false⟩
    else if (c : Int) - 48 < 8 then ⟨false, true, true, false, false, false⟩
    else ⟨false, true, false, false, false, true⟩
  else if c = 46 then ⟨true, false, false, false, false, false⟩
  else if !isDigit c then ⟨false, false, false, false, false, true⟩
  else ⟨false, false, false, false, false, false⟩

/-- Flags set by a later character (`Lexer.cpp:305-319`). -/
def laterFlags (f : NumFlags) (c : Nat) : NumFlags :=
  let f1 := if c = 46 then { f with float := true } else f
  let anum := (((c : Int) - 48) % 256).toNat
  if f1.octal && anum > 7 then { f1 with bad := true }
  else if f1.binary && anum > 1 then { f1 with bad := true }
  else if !f1.hex && !isDigit c then { f1 with bad := true }
  else f1

/-- The loop over the third and later characters (`Lexer.cpp:304-323`). -/
def numberLoop : List Nat → Bytes → NumFlags → Bytes × NumFlags × Option Nat × Str
  | [], acc, f => (acc, f, none, ⟨[], none⟩)
  | b :: r, acc, f =>
    if isXDigit b || b = 46 then numberLoop r (acc ++ [b]) (laterFlags f b)
    else (acc, f, some b, ⟨r, some b⟩)

/-- The end of `makeNumberToken` (`Lexer.cpp:325-354`). -/
def finishNumber (acc : Bytes) (f : NumFlags) (c : Option Nat) (s : Str) : Option Tok × Str :=
  let isU := c = some 117 ∨ c = some 85
  let acc1 := if isU then acc ++ [c.getD 0] else acc
  let f1 := if isU then { f with unsigned := true } else f
  let s1 := if isU then s else unread s
  if f1.bad then (none, s1)
  else if f1.float then (some ⟨57, .text acc1⟩, s1)
  else if f1.unsigned then (some ⟨tokNumberUnsigned, .text acc1⟩, s1)
  else (some ⟨tokNumberSigned, .text acc1⟩, s1)

/-- No flag set. -/
def noFlags : NumFlags := ⟨false, false, false, false, false, false⟩

/-- `makeNumberToken` (`Lexer.cpp:261-359`), `first` being the first digit. -/
def makeNumber (first : Nat) (s : Str) : Option Tok × Str :=
  match read s with
  | (none, s1) => finishNumber [first] noFlags none s1
  | (some c, s1) =>
    if isXDigit c || c = 120 || c = 88 || c = 46 then
      let (acc, f, c', s2) := numberLoop s1.rest [first, c] (secondFlags (first = 48) c)
      finishNumber acc f c' s2
    else
      -- the loop is not entered: such a character is no hexadecimal digit and no dot
      finishNumber [first] noFlags (some c) s1

/-- `makeFlagToken` (`Lexer.cpp:362-402`). -/
def makeFlag (s : Str) : Option Tok × Str :=
  match read s with
  | (none, s1) => (none, s1)
  | (some c, s1) =>
    if isUpper c then
      let (name, _, s2) := readWhile isWord s1.rest [64, c]
      let s3 := unread s2
      let t := ttypeOf name
      if t ≠ lastOne ∧ special t = .flagkeyword then (some ⟨t, .none⟩, s3) else (none, s3)
    else (none, if isAlpha c then unread s1 else s1)

/-- The token for an insert flag (`Lexer.cpp:430-487`). -/
def substituteOf (t : Nat) : Option Tok :=
  if t = 119 then some ⟨tokDquotedString, .fileName⟩
  else if t = 122 then some ⟨tokDquotedString, .filePath⟩
  else if t = 120 then some ⟨tokNumberUnsigned, .lineNo⟩
  else if t = 121 ∨ (123 ≤ t ∧ t ≤ 127) then some ⟨t, .none⟩
  else none

/-- `makeSubstituteToken` (`Lexer.cpp:405-501`). -/
def makeSubstitute (s : Str) : Option Tok × Str :=
  match read s with
  | (none, s1) => (none, s1)
  | (some c, s1) =>
    if c = 95 then
      let (name, _, s2) := readWhile (fun b => isUpper b || b = 95) s1.rest [95, c]
      let s3 := unread s2
      let t := ttypeOf name
      if t ≠ lastOne ∧ special t = .flagkeyword then (substituteOf t, s3) else (none, s3)
    else (none, s1)

/-- `formatOctalConstant` (`Lexer.cpp:795-832`): digits read so far `n`, their value `v`. -/
def octalLoop : Nat → Nat → Nat → Str → Option Nat × Str
  | 0, _, v, s => (if v ≤ maxLength then some v else none, s)
  | k + 1, n, v, s =>
    match read s with
    | (none, s1) => (none, s1)
    | (some c, s1) =>
      if 48 ≤ c ∧ c < 56 then octalLoop k (n + 1) (v * 8 + (c - 48)) s1
      else if n = 0 then (none, unread s1)
      else (if v ≤ maxLength then some v else none, unread s1)

/-- The value of a hexadecimal digit (`Lexer.cpp:840-889`). -/
def hexValue (c : Nat) : Option Nat :=
  if 48 ≤ c ∧ c ≤ 57 then some (c - 48)
  else if 97 ≤ c ∧ c ≤ 102 then some (c - 87)
  else if 65 ≤ c ∧ c ≤ 70 then some (c - 55)
  else none

/-- `formatHexConstant` (`Lexer.cpp:834-917`). -/
def hexLoop : Nat → Nat → Nat → Str → Option Nat × Str
  | 0, _, v, s => (if v ≤ maxLength then some v else none, s)
  | k + 1, n, v, s =>
    match read s with
    | (none, s1) => (none, s1)
    | (some c, s1) =>
      match hexValue c with
      | some d => hexLoop k (n + 1) (v * 16 + d) s1
      | none => if n = 0 then (none, unread s1) else (if v ≤ maxLength then some v else none, unread s1)

/-- The escapes of one character (`Lexer.cpp:708-737`). -/
def escapeValue (d : Nat) : Nat :=
  if d = 97 then 7 else if d = 98 then 8 else if d = 116 then 9 else if d = 110 then 10
  else if d = 118 then 11 else if d = 102 then 12 else if d = 114 then 13 else d

/-- `nextByte` (`Lexer.cpp:693-793`); `none`: an error. -/
def nextByte (s : Str) : Option Nat × Str :=
  match read s with
  | (none, s1) => (none, unread s1)
  | (some c, s1) =>
    if c = 92 then
      match read s1 with
      | (none, s2) => (none, unread s2)
      | (some d, s2) =>
        if 48 ≤ d ∧ d ≤ 55 then octalLoop 3 0 0 (unread s2)
        else if d = 120 ∨ d = 88 then hexLoop 2 0 0 s2
        else (some (escapeValue d), s2)
    else (some c, s1)

theorem read_length (s : Str) : (read s).2.rest.length ≤ s.rest.length ∧
    (∀ b, (read s).1 = some b → (read s).2 = ⟨s.rest.tail, some b⟩ ∧ s.rest = b :: s.rest.tail) := by
  unfold read
  cases s.rest <;> simp

theorem octalLoop_length (k n v : Nat) (s : Str) : (octalLoop k n v s).2.rest.length ≤ s.rest.length := by
  induction k generalizing n v s with
  | zero => simp [octalLoop]
  | succ k ih =>
    unfold octalLoop read
    cases h : s.rest with
    | nil => simp
    | cons b r =>
      dsimp only
      split
      · exact Nat.le_trans (ih _ _ _) (by simp)
      · split <;> simp [unread]

theorem hexLoop_length (k n v : Nat) (s : Str) : (hexLoop k n v s).2.rest.length ≤ s.rest.length := by
  induction k generalizing n v s with
  | zero => simp [hexLoop]
  | succ k ih =>
    unfold hexLoop read
    cases h : s.rest with
    | nil => simp
    | cons b r =>
      dsimp only
      split
      · exact Nat.le_trans (ih _ _ _) (by simp)
      · split <;> simp [unread]

/-- `nextByte` takes at least one byte when there is one. -/
theorem nextByte_length (b : Nat) (r : List Nat) (l : Option Nat) : (nextByte ⟨b :: r, l⟩).2.rest.length < (b :: r).length := by
  unfold nextByte read
  dsimp only
  split
  · cases r with
    | nil => simp [unread]
    | cons d r =>
      dsimp only
      split
      · have := octalLoop_length 3 0 0 (unread ⟨r, some d⟩)
        simp only [unread, List.length_cons] at this ⊢
        omega
      · split
        · have := hexLoop_length 2 0 0 ⟨r, some d⟩
          simp only [List.length_cons] at this ⊢
          omega
        · simp only [List.length_cons]; omega
  · simp

/-- The loop of `makeDoubleQuoteToken` (`Lexer.cpp:620-637`): the string, or `none` for an error. -/
def quoteLoop (s : Str) (acc : Bytes) : Option Bytes × Str :=
  match h : s.rest with
  | [] => (none, ⟨[], none⟩)
  | b :: r =>
    if b = 34 then (some acc, ⟨r, some b⟩)
    else
      match hn : nextByte ⟨b :: r, none⟩ with
      | (none, s1) => (none, s1)
      | (some x, s1) => quoteLoop s1 (acc ++ [x])
termination_by s.rest.length
decreasing_by
  have := nextByte_length b r none
  rw [hn] at this
  rw [h]
  exact this

/-- `formatUserString` (`Lexer.cpp:919-940`): what goes into the user string pool. -/
def formatUserString (s : Bytes) : Option Bytes :=
  if s.length > maxLength then none
  else if s.length = 0 then some [0]
  else some ([s.length] ++ s ++ [0])

/-- `makeDoubleQuoteToken` (`Lexer.cpp:609-648`). -/
def makeDoubleQuote (s : Str) : Option Tok × Str :=
  match quoteLoop s [] with
  | (none, s1) => (none, s1)
  | (some str, s1) => ((formatUserString str).map fun x => ⟨tokDquotedString, .text x⟩, s1)

/-- `makeSingleQuoteToken` (`Lexer.cpp:654-689`). -/
def makeSingleQuote (s : Str) : Option Tok × Str :=
  let finish (str : Bytes) (s1 : Str) : Option Tok × Str :=
    match read s1 with
    | (c, s2) => if c = some 39 then (some ⟨tokSquotedString, .text str⟩, s2) else (none, unread s2)
  match read s with
  | (none, s1) => finish [] s1
  | (some c, s1) =>
    if c = 39 then (none, s1)
    else match nextByte (unread s1) with
      | (none, s2) => (none, s2)
      | (some x, s2) => finish [x] s2

/-- `eatBlockComment` (`Lexer.cpp:983-1005`): the byte after the comment. -/
def eatBlock : List Nat → Option Nat × Str
  | [] => (none, ⟨[], none⟩)
  | 42 :: 47 :: r => read ⟨r, some 47⟩
  | _ :: r => eatBlock r

/-- `eatLineComment` (`Lexer.cpp:1007-1015`). -/
def eatLine : List Nat → Option Nat × Str
  | [] => (none, ⟨[], none⟩)
  | b :: r => if b = 10 then (some b, ⟨r, some b⟩) else eatLine r

/-- `makeStructuredCommentToken` (`Lexer.cpp:1017-1057`): the token, the byte after the comment. At a star
directly before the end of file the code unreads (without effect) and reads the end of file again. -/
def structured : List Nat → Bytes → Tok × Option Nat × Str
  | [], _ => (⟨tokErrorLowlevel, .none⟩, none, ⟨[], none⟩)
  | 42 :: 47 :: r, acc => (⟨tokStructuredComment, .text acc⟩, (read ⟨r, some 47⟩).1, (read ⟨r, some 47⟩).2)
  | [42], _ => (⟨tokErrorLowlevel, .none⟩, none, ⟨[], none⟩)
  | b :: r, acc => structured r (acc ++ [b])

/-- `eatComment` (`Lexer.cpp:942-981`): the byte, the token if the comment is a structured one, the stream. -/
def eatComment (s : Str) : Option Nat × Option Tok × Str :=
  match read s with
  | (none, s1) => (none, none, s1)
  | (some c, s1) =>
    if c = 47 then
      match read s1 with
      | (none, s2) => (some c, none, unread s2)
      | (some d, s2) =>
        if d = 47 then let (x, s3) := eatLine s2.rest; (x, none, s3)
        else if d = 42 then
          match read s2 with
          | (none, s3) => let (x, s4) := eatBlock (unread s3).rest; (x, none, s4)
          | (some e, s3) =>
            if e = 42 then
              match read s3 with
              | (none, s4) =>
                let (t, x, s5) := structured (unread s4).rest []; (x, some t, s5)
              | (some f, s4) =>
                if f = 47 then let (x, s5) := read s4; (x, none, s5)
                else let (t, x, s5) := structured (unread s4).rest []; (x, some t, s5)
            else let (x, s4) := eatBlock (unread s3).rest; (x, none, s4)
        else (some c, none, unread s2)
    else (some c, none, s1)

theorem readR_length (r : List Nat) (l : Option Nat) : (read ⟨r, l⟩).2.rest.length ≤ r.length := by
  have := (read_length ⟨r, l⟩).1; exact this

theorem eatBlock_length (l : List Nat) : (eatBlock l).2.rest.length ≤ l.length := by
  induction l using eatBlock.induct with
  | case1 => simp [eatBlock]
  | case2 r =>
    have := readR_length r (some 47)
    simp only [eatBlock, List.length_cons]; omega
  | case3 b r h ih =>
    rw [eatBlock]
    · simp only [List.length_cons]; omega
    · exact h

theorem eatLine_length (l : List Nat) : (eatLine l).2.rest.length ≤ l.length := by
  induction l with
  | nil => simp [eatLine]
  | cons b r ih =>
    unfold eatLine
    split
    · simp
    · simp only [List.length_cons]; omega

theorem structured_length (l : List Nat) (acc : Bytes) : (structured l acc).2.2.rest.length ≤ l.length := by
  induction l, acc using structured.induct with
  | case1 => simp [structured]
  | case2 r acc =>
    have := readR_length r (some 47)
    simp only [structured, List.length_cons]; omega
  | case3 => simp [structured]
  | case4 b r acc h1 h2 ih =>
    rw [structured]
    · simp only [List.length_cons]; omega
    · exact h1
    · exact h2

/-- `eatComment` takes at least one byte when there is one. -/
theorem eatComment_length (b : Nat) (r : List Nat) (l : Option Nat) :
    (eatComment ⟨b :: r, l⟩).2.2.rest.length < (b :: r).length := by
  unfold eatComment
  simp only [read]
  split
  · cases r with
    | nil => simp [unread]
    | cons d r =>
      dsimp only
      split
      · have := eatLine_length r
        simp only [List.length_cons]; omega
      · split
        · cases r with
          | nil => simp [unread, eatBlock]
          | cons e r =>
            dsimp only
            split
            · cases r with
              | nil => simp [unread, structured]
              | cons f r =>
                dsimp only
                split
                · have := readR_length r (some f)
                  simp only [read] at this
                  simp only [List.length_cons]; omega
                · have := structured_length (f :: r) []
                  simp only [List.length_cons] at this
                  show (structured (f :: r) []).2.2.rest.length < _
                  simp only [List.length_cons]; omega
            · have := eatBlock_length (e :: r)
              simp only [unread, List.length_cons] at this ⊢; omega
        · simp [unread]
  · simp

/-- The first loop of `getNextToken` (`Lexer.cpp:66-69`): the first byte that is no white space, the last
structured comment met. -/
def skipSpace (s : Str) (com : Option Tok) : Option Nat × Option Tok × Str :=
  match h : s.rest with
  | [] => (none, com, ⟨[], none⟩)
  | b :: r =>
    match he : eatComment ⟨b :: r, s.last⟩ with
    | (c, t, s1) =>
      if c.any isSpace then skipSpace s1 (t.or com)
      else (c, t.or com, s1)
termination_by s.rest.length
decreasing_by
  have := eatComment_length b r s.last
  rw [he] at this
  rw [h]
  exact this

/-- The switch of `getNextToken` (`Lexer.cpp:86-139`) on the first byte. -/
def dispatch (c : Option Nat) (s : Str) : Option Tok × Str :=
  let byte := c.getD 255
  let t := ttypeOf [byte]
  let sp := if t ≠ lastOne then special t else .unclear
  match sp with
  | .single => (some ⟨t, .none⟩, s)
  | .dquote => makeDoubleQuote s
  | .squote => makeSingleQuote s
  | _ =>
    if c.any isAlpha then makeWord [byte] s
    else if c.any isDigit then makeNumber byte s
    else if c = some 64 then makeFlag s
    else if c = some 95 then makeSubstitute s
    else match makeOperator [byte] s with
      | (some t, _, s1) => (some ⟨t, .none⟩, s1)
      | (none, _, s1) => (none, s1)

/-- `getNextToken` (`Lexer.cpp:54-155`) when no token was put back: the result of the call, the token, the stream. -/
def nextToken (s : Str) : Bool × Tok × Str :=
  match skipSpace s none with
  | (_, some t, s1) => (true, t, unread s1)
  | (c, none, s1) =>
    match dispatch c s1 with
    | (some t, s2) => (true, t, s2)
    | (none, s2) => (false, ⟨tokErrorLowlevel, .none⟩, s2)

/-- The lexer: the stream, `m_lastToken` and `m_haveUnreadToken` (`Tokenizer.h:80-81`). -/
structure Lex where
  s : Str
  lastToken : Tok
  haveUnread : Bool

/-- `getNextToken` (`Lexer.cpp:54-155`). -/
def getNextToken (x : Lex) : Bool × Tok × Lex :=
  if x.haveUnread then (true, x.lastToken, { x with haveUnread := false })
  else
    let (ok, t, s) := nextToken x.s
    (ok, t, ⟨s, t, false⟩)

/-- `unreadToken` (`Tokenizer.cpp:11-14`). -/
def unreadToken (x : Lex) : Lex := { x with haveUnread := true }

end Ulam.Lexer
