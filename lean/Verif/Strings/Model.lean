import Verif.Leximited.Model
/-!
# String pools (model)

The compiler's string pool (`StringPool.cpp`) and the pool of user strings (`StringPoolUser.cpp`). A string is a list of
bytes. A failed `assert` gives `none`.
-/
namespace Ulam.Strings

/-- A C++ `std::string`. -/
abbrev Bytes := List Nat

/-- `std::map::find`. -/
def mget {κ α} [DecidableEq κ] : List (κ × α) → κ → Option α
  | [], _ => none
  | (k, v) :: m, x => if k = x then some v else mget m x

/-- `std::map<std::string,u32>::insert`: no effect if the key is present. Simplification: the map is a list in order of
insertion; it is never iterated. -/
def minsert {κ α} [DecidableEq κ] (m : List (κ × α)) (k : κ) (v : α) : List (κ × α) :=
  if (mget m k).isSome then m else m ++ [(k, v)]

/-- `std::map<u32,...>::insert`: ascending order, no effect if the key is present. -/
def ninsert {α} : List (Nat × α) → Nat → α → List (Nat × α)
  | [], k, v => [(k, v)]
  | (j, w) :: m, k, v => if k < j then (k, v) :: (j, w) :: m else if k = j then (j, w) :: m else (j, w) :: ninsert m k v

/-- `include/StringPool.h`: `m_dataAsString`, `m_stringToDataIndex`. -/
structure Pool where
  data : List (Nat × Bytes)
  index : List (Bytes × Nat)
  deriving DecidableEq, Repr

/-- `StringPool.cpp:8-18`, both constructors: index 0 is taken. -/
def Pool.new (dummy : Bytes) : Pool := ⟨[(0, dummy)], []⟩

/-- `StringPool.cpp:28-45` `getIndexForDataString`; `none` is the failed assertion. -/
def getIndex (p : Pool) (s : Bytes) : Option (Nat × Pool) :=
  match mget p.index s with
  | some idx => some (idx, p)
  | none =>
    let idx := (p.index.length + 1) % 2 ^ 32
    if idx = p.data.length then some (idx, ⟨ninsert p.data idx s, minsert p.index s idx⟩) else none

/-- Decimal digits as bytes (`std::ostringstream <<`). -/
def decBytes (n : Nat) : Bytes := (Leximited.dec n).map Char.toNat

/-- `StringPool.cpp:47-52` `getIndexForNumberAsString`. -/
def getIndexNum (p : Pool) (n : Nat) : Option (Nat × Pool) := getIndex p (decBytes n)

/-- `StringPool.cpp:54-61` `getDataAsString`. -/
def getData (p : Pool) (i : Nat) : Option Bytes :=
  if p.data.length > i ∧ i > 0 then mget p.data i else none

/-! ## User strings -/

/-- `include/StringPoolUser.h`: the pool's maps, `m_userIndexToStringPoolIndex`, `m_runningIndex`. -/
structure UPool where
  data : List (Nat × Bytes)
  index : List (Bytes × Nat)
  offs : List Nat
  running : Nat
  deriving DecidableEq, Repr

/-- `StringPoolUser.cpp:8-10`. -/
def UPool.new : UPool := ⟨[(0, [])], [], [0], 1⟩

/-- `str[0]` of a `std::string`: the terminating zero when empty. -/
def first (s : Bytes) : Nat := s.headD 0

/-- `StringPoolUser.cpp:16-39` `getIndexForDataString`. -/
def uGetIndex (p : UPool) (s : Bytes) : Nat × UPool :=
  match mget p.index s with
  | some i => (i, p)
  | none =>
    let slen := first s % 2 ^ 8
    let idx := p.running
    let user := p.offs.length % 2 ^ 32
    (user, ⟨ninsert p.data user s, minsert p.index s user, p.offs ++ [idx], (p.running + (slen + 2)) % 2 ^ 32⟩)

/-- `StringPoolUser.cpp:63-68` `getDataAsString`. -/
def uGetData (p : UPool) (i : Nat) : Option Bytes := mget p.data i

/-- `StringPoolUser.cpp:77-89` `getStringLength`. -/
def uStringLength (p : UPool) (i : Nat) : Option Nat :=
  match uGetData p i with
  | none => none
  | some s =>
    if s.length = 0 then some 0
    else
      let slen := if s.length < 2 then s.length - 1 else s.length - 2
      if slen = first s then some slen else none

/-- `StringPoolUser.cpp:91-97` `getByteOf`. `s[s.length]` is the terminating zero. -/
def uByteOf (p : UPool) (i offset : Nat) : Option Nat :=
  match uGetData p i with
  | none => none
  | some s => if s.length > offset then some (s.getD (offset + 1) 0) else none

/-- `StringPoolUser.cpp:99-102`. -/
def uPoolSize (p : UPool) : Nat := p.running

/-- `StringPoolUser.cpp:104-107`. -/
def uCount (p : UPool) : Nat := p.offs.length

/-- `CompilerState.cpp:5486-5496` `isValidUserStringIndex` (without the index mask). -/
def uValidIndex (p : UPool) (i : Nat) : Bool := decide (i ≠ 0 ∧ i < uPoolSize p)

/-- `Lexer.cpp:919-940` `formatUserString`, same text in `CompilerState.cpp:5509-5530`: what is stored for a string;
`none` when longer than `MAX_USERSTRING_LENGTH` (255). -/
def formatUser (s : Bytes) : Option Bytes :=
  if s.length > 255 then none
  else if s.length = 0 then some [0] else some (s.length % 2 ^ 8 :: (s ++ [0]))

/-! ## Emitted tables -/

/-- Octal digit as a byte. -/
def odigit (n : Nat) : Nat := 48 + n % 8

/-- `isgraph` in the C locale. -/
def isGraph (c : Nat) : Bool := decide (33 ≤ c ∧ c ≤ 126)

/-- `StringPoolUser.cpp:324-334` `writeEscaped`: `\%03o` or the raw byte. -/
def writeEscaped (c : Nat) : Bytes :=
  if !isGraph c || c == 63 then [92, odigit (c / 64), odigit (c / 8), odigit c] else [c]

/-- `StringPoolUser.cpp:305-315` `writeDblQuotedChar`. -/
def writeDblQuotedChar (c : Nat) : Bytes := if c == 34 || c == 92 then [92, c] else writeEscaped c

/-- `StringPoolUser.cpp:282-303` `writeDoubleQuotedString`. -/
def writeDoubleQuotedString (s : Bytes) : Bytes :=
  if s.length = 0 then [34] ++ writeEscaped 0 ++ [34]
  else
    let slen := first s % 2 ^ 8
    [34] ++ writeDblQuotedChar slen ++ (List.range slen).flatMap (fun i => writeDblQuotedChar (s.getD (i + 1) 0)) ++
      writeEscaped 0 ++ [34]

/-- `StringPoolUser.cpp:126-139` in `generateUserStringPoolEntries`: the initializer up to the semicolon, `ind` spaces of
indentation. -/
def emitEntries (ind : Nat) (p : UPool) : Bytes :=
  p.data.flatMap (fun e => List.replicate ind 32 ++ writeDoubleQuotedString e.2 ++ [10]) ++ List.replicate ind 32 ++ [59]

/-- `StringPoolUser.cpp:165-176` in `generateUserStringPoolIndexes`: the list of offsets. -/
def emitIndexes (p : UPool) : Bytes :=
  p.offs.flatMap (fun o => (if o > 0 then [44] else []) ++ decBytes o)

/-- `CompilerState.cpp:4240-4258`: the declared array size. -/
def declaredSize (p : UPool) : Nat := p.running + 1

/-- Generated function, `CompilerState.cpp:4276-4301`: the byte position of the first character of string `sidx` in the
generated pool with generated offsets `offs`; `none` is `FAIL`. -/
def genGetString (offs : List Nat) (sidx : Nat) : Option Nat :=
  if sidx = 0 then none else if sidx ≥ offs.length then none else some (offs.getD sidx 0 + 1)

/-- Generated function, `CompilerState.cpp:4323-4356`. -/
def genGetStringLength (pool offs : List Nat) (sidx : Nat) : Option Nat :=
  if sidx = 0 then none else if sidx ≥ offs.length then none else some (pool.getD (offs.getD sidx 0) 0)

/-- `isprint` in the C locale. -/
def isPrint (c : Nat) : Bool := decide (32 ≤ c ∧ c ≤ 126)

/-- Octal digits of a byte without leading zeros (`std::oct <<`). -/
def octBytes (c : Nat) : Bytes :=
  if c < 8 then [odigit c] else if c < 64 then [odigit (c / 8), odigit c] else [odigit (c / 64), odigit (c / 8), odigit c]

/-- `StringPoolUser.cpp:200-243`, one character of `formatDoubleQuotedString`. -/
def formatChar (c : Nat) : Bytes :=
  if c = 7 then [92, 97] else if c = 8 then [92, 98] else if c = 9 then [92, 116] else if c = 10 then [92, 110]
  else if c = 11 then [92, 118] else if c = 12 then [92, 102] else if c = 13 then [92, 114] else if c = 34 then [34]
  else if c = 39 then [39] else if c = 92 then [92, 92] else if isPrint c then [c] else 92 :: octBytes c

/-- `StringPoolUser.cpp:190-247` `formatDoubleQuotedString`: the text shown for a stored string. -/
def formatDoubleQuoted (s : Bytes) : Bytes :=
  if s.length = 0 then []
  else [34] ++ (List.range (first s % 2 ^ 8)).flatMap (fun i => formatChar (s.getD (i + 1) 0)) ++ [34]

/-- `StringPoolUser.cpp:249-280` `formatDoubleQuotedFileNameUnquoted`: `none` stands for the invalid id 0. -/
def fileNameUnquoted (s : Bytes) : Option Bytes :=
  if s.length = 0 then some []
  else
    let cs := (List.range (first s % 2 ^ 8)).map (fun i => s.getD (i + 1) 0)
    if cs.all isPrint then some cs else none

/-! ## Reading string literals -/

/-- Named escapes, `Lexer.cpp:706-771`; other characters stand for themselves. -/
def escapeByte (d : Nat) : Nat :=
  if d = 97 then 7 else if d = 98 then 8 else if d = 116 then 9 else if d = 110 then 10 else if d = 118 then 11
  else if d = 102 then 12 else if d = 114 then 13 else d

/-- `Lexer.cpp:801-813`: the digit loop of `formatOctalConstant`. Result: total, count, whether end of input was met, rest. -/
def octalLoop (total count : Nat) : Bytes → Nat × Nat × Bool × Bytes
  | [] => (total, count, count < 3, [])
  | c :: r =>
    if count < 3 then
      if 48 ≤ c ∧ c < 56 then octalLoop (total * 8 + (c - 48)) (count + 1) r else (total, count, false, c :: r)
    else (total, count, false, c :: r)

/-- `Lexer.cpp:795-832` `formatOctalConstant`. -/
def octalConstant (s : Bytes) : Option (Nat × Bytes) :=
  let (total, count, eof, r) := octalLoop 0 0 s
  if eof ∨ count = 0 then none else if total ≤ 255 then some (total, r) else none

/-- The switch of `Lexer.cpp:843-893`; `none` is `cnum == -1`. -/
def hexNum (c : Nat) : Option Nat :=
  if 97 ≤ c ∧ c ≤ 102 then some (c - 87) else if 65 ≤ c ∧ c ≤ 70 then some (c - 55)
  else if 48 ≤ c ∧ c ≤ 57 then some (c - 48) else none

/-- `Lexer.cpp:840-897`: the loop of `formatHexConstant`. -/
def hexLoop (total count : Nat) : Bytes → Nat × Nat × Bool × Bytes
  | [] => (total, count, count < 2, [])
  | c :: r =>
    if count < 2 then
      match hexNum c with
      | some n => hexLoop (total * 16 + n) (count + 1) r
      | none => (total, count, false, c :: r)
    else (total, count, false, c :: r)

/-- `Lexer.cpp:834-917` `formatHexConstant`. -/
def hexConstant (s : Bytes) : Option (Nat × Bytes) :=
  let (total, count, eof, r) := hexLoop 0 0 s
  if eof ∨ count = 0 then none else if total ≤ 255 then some (total, r) else none

/-- `Lexer.cpp:693-793` `nextByte`, on the bytes still to be read; `none` is an error. -/
def nextByte : Bytes → Option (Nat × Bytes)
  | [] => none
  | c :: r =>
    if c = 92 then
      match r with
      | [] => none
      | d :: r' =>
        if 48 ≤ d ∧ d ≤ 55 then octalConstant (d :: r')
        else if d = 120 ∨ d = 88 then hexConstant r'
        else some (escapeByte d, r')
    else some (c, r)

theorem octalLoop_len (t n : Nat) (s : Bytes) : (octalLoop t n s).2.2.2.length ≤ s.length := by
  induction s generalizing t n with
  | nil => simp [octalLoop]
  | cons c r ih =>
    rw [octalLoop]
    split
    · split
      · exact Nat.le_succ_of_le (ih _ _)
      · simp
    · simp

theorem hexLoop_len (t n : Nat) (s : Bytes) : (hexLoop t n s).2.2.2.length ≤ s.length := by
  induction s generalizing t n with
  | nil => simp [hexLoop]
  | cons c r ih =>
    rw [hexLoop]
    split
    · split
      · exact Nat.le_succ_of_le (ih _ _)
      · simp
    · simp

/-- Each call of `nextByte` consumes input, so the loop below ends. -/
theorem nextByte_len {s r : Bytes} {b : Nat} (h : nextByte s = some (b, r)) : r.length < s.length := by
  cases s with
  | nil => simp [nextByte] at h
  | cons c t =>
    simp only [nextByte] at h
    split at h
    · cases t with
      | nil => simp at h
      | cons d r' =>
        simp only at h
        split at h
        · have := octalLoop_len 0 0 (d :: r')
          unfold octalConstant at h
          generalize octalLoop 0 0 (d :: r') = o at h this
          obtain ⟨t, n, e, q⟩ := o
          simp only at h
          split at h
          · cases h
          · split at h
            · simp only [Option.some.injEq, Prod.mk.injEq] at h
              rw [← h.2]; simp only [List.length_cons] at this ⊢; omega
            · cases h
        · split at h
          · have := hexLoop_len 0 0 r'
            unfold hexConstant at h
            generalize hexLoop 0 0 r' = o at h this
            obtain ⟨t, n, e, q⟩ := o
            simp only at h
            split at h
            · cases h
            · split at h
              · simp only [Option.some.injEq, Prod.mk.injEq] at h
                rw [← h.2]; simp only [List.length_cons] at this ⊢; omega
              · cases h
          · simp only [Option.some.injEq, Prod.mk.injEq] at h
            rw [← h.2]; simp only [List.length_cons]; omega
    · simp only [Option.some.injEq, Prod.mk.injEq] at h
      rw [← h.2]; simp

/-- `Lexer.cpp:619-641`: the loop of `makeDoubleQuoteToken` after the opening quote: the bytes and the unread input. -/
def quoted (s : Bytes) : Option (Bytes × Bytes) :=
  match s with
  | [] => none
  | c :: r =>
    if c = 34 then some ([], r)
    else
      match h : nextByte (c :: r) with
      | none => none
      | some (b, r') =>
        match quoted r' with
        | none => none
        | some (bs, r'') => some (b :: bs, r'')
termination_by s.length
decreasing_by exact nextByte_len h

/-- `Lexer.cpp:609-648` `makeDoubleQuoteToken` after the opening quote: what is stored in the pool, and the unread input. -/
def doubleQuoted (s : Bytes) : Option (Bytes × Bytes) :=
  match quoted s with
  | none => none
  | some (bs, r) => (formatUser bs).map (·, r)

/-- `Lexer.cpp:650-691` `makeSingleQuoteToken` after the opening tic. -/
def singleQuoted (s : Bytes) : Option (Nat × Bytes) :=
  match s with
  | [] => none
  | c :: _ =>
    if c = 39 then none
    else match nextByte s with
      | none => none
      | some (b, r) => match r with
        | 39 :: r' => some (b, r')
        | _ => none

end Ulam.Strings
