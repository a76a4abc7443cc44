/-!
# Number literal conversion (model of `src/ulam/strto64.cpp`)

A C string is a list of bytes (`Nat`, each below 256) ending at the first 0 byte or at the end of the list.
`char` is signed (as on the supported x86/ARM-gcc builds): a byte `b ≥ 128` read through `(u32) tolower(*ptr++)`
comes back as the negative number `b - 256`.
The `u64 result` is a `Nat` below `2^64`; `S64` reads it as two's complement.
Only the ranges used by the two entry points `strtos64` (`validBits == -64`) and `strtou64` (`validBits == 64`),
`include/strto64.h:86-99`, are modelled; other `validBits` values are not.
-/
namespace Ulam.Strto64

/-- Error or value. Error texts are kept abstractly as strings. -/
abbrev Res := Except String

/-- `2^64`, the modulus of `u64`. -/
def M : Nat := 2 ^ 64

/-- `tolower` on a non-negative ASCII character (C locale). -/
def toLower (b : Nat) : Nat := if 65 ≤ b ∧ b ≤ 90 then b + 32 else b

/-- `Strto64::read` (strto64.cpp:51-55): -1 at the end of the string, otherwise the lower-cased signed char. -/
def read : List Nat → Int × List Nat
  | [] => (-1, [])
  | b :: r =>
    if b = 0 then (-1, b :: r)
    else if b < 128 then ((toLower b : Nat), r)
    else ((b : Int) - 256, r)

/-- `isspace` in the C locale. -/
def isSpace (c : Int) : Bool := c = 32 || (9 ≤ c && c ≤ 13)

/-- `Strto64::digitVal` (strto64.cpp:66-89); `base = 0` means not known yet. -/
def digitVal (base : Nat) (ch : Int) : Int :=
  if ch < 0 then -1
  else
    let b : Int := if base = 0 then 10 else base
    if ch < 48 then -1
    else if b ≤ 10 ∨ ch ≤ 57 then
      if ch ≥ 48 + b then -1 else ch - 48
    else if ch < 97 ∨ ch ≥ 97 + b - 10 then -1
    else ch - 97 + 10

/-- `Strto64::parseSign` (strto64.cpp:94-121): skips white space, allows one sign.
`sign` is -1, 0 or 1. Returns the sign and the unread input. -/
def parseSign (sign : Int) : List Nat → Res (Int × List Nat)
  | [] => .error "No number found"
  | b :: r =>
    let ch := (read (b :: r)).1
    if ch < 0 then .error "No number found"
    else if isSpace ch then parseSign sign r
    else if ch = 43 then
      if sign < 0 then .error "Both - and + signs found"
      else if sign > 0 then .error "Duplicate + signs found"
      else parseSign 1 r
    else if ch = 45 then
      if sign < 0 then .error "Duplicate - signs found"
      else if sign > 0 then .error "Both + and - signs found"
      else parseSign (-1) r
    else .ok (sign, b :: r)

/-- Outcome of `parseBase`: either the whole number was `0`/`0u` (`return false` with no error), or go on with a base. -/
inductive BaseRes where
  | zero
  | go (base : Nat) (rest : List Nat)

/-- `Strto64::parseBase` (strto64.cpp:123-175). -/
def parseBase (sign : Int) (s : List Nat) : Res BaseRes :=
  let val := digitVal 0 (read s).1
  if val < 0 then
    if sign < 0 then .error "No digits found after -"
    else if sign > 0 then .error "No digits found after +"
    else .error "No digits found"
  else if 1 ≤ val ∧ val ≤ 9 then .ok (.go 10 s)
  else if val ≠ 0 then .error "No radix prefix (0, 0x, 0b, or 1-9) found"
  else
    let s1 := (read s).2
    let ch := (read s1).1
    let s2 := (read s1).2
    if ch < 0 ∨ ch = 117 then
      if (read s2).1 ≥ 0 then .error "Characters after 'u' in number" else .ok .zero
    else if ch = 120 then .ok (.go 16 s2)
    else if ch = 98 then .ok (.go 2 s2)
    else if 48 ≤ ch ∧ ch ≤ 55 then .ok (.go 8 s1)
    else .error "Illegal character in number"

/-- `Strto64::parseDigits` (strto64.cpp:177-203): the accumulation is modulo 2^64, with the code's overflow test. -/
def parseDigits (base : Nat) (result : Nat) : List Nat → Res Nat
  | [] => .ok result
  | b :: r =>
    let ch := (read (b :: r)).1
    if ch < 0 then .ok result
    else if ch = 117 then
      if (read r).1 ≥ 0 then .error "Characters after 'u' in number" else .ok result
    else
      let val := digitVal base ch
      if val < 0 then .error "Illegal character in number"
      else
        let nextResult := (result * base + val.toNat) % M
        if nextResult / base ≠ result then .error "Number too large"
        else parseDigits base nextResult r

/-- `Strto64::checkRange` for `validBits == -64` (strto64.cpp:207-221). -/
def checkSigned (sign : Int) (result : Nat) : Res Nat :=
  if sign ≥ 0 then
    if result > 2 ^ 63 - 1 then .error "Positive number overflows Int(64)" else .ok result
  else if result > 2 ^ 63 then .error "Negative number overflows Int(64)"
  else if result = 2 ^ 63 then .ok (2 ^ 63)
  else .ok ((M - result) % M)

/-- Two's complement reading of a `u64` as `s64`. -/
def S64 (n : Nat) : Int := if n < 2 ^ 63 then n else (n : Int) - 2 ^ 64

/-- `Strto64::checkRange` for `validBits == 64` (strto64.cpp:223-230). `-(s64) result` is modelled as two's complement
negation (for `result == 2^63` the C++ negation overflows `s64`, formally undefined; two's complement assumed). -/
def checkUnsigned (sign : Int) (result : Nat) : Res Nat :=
  if sign ≥ 0 then .ok result
  else if S64 result > 0 then .error "Negative number underflows Unsigned(64)"
  else .ok ((M - result) % M)

/-- `Strto64::parse` (strto64.cpp:14-20) with the range check as a parameter. -/
def parse (check : Int → Nat → Res Nat) (s : List Nat) : Res Nat :=
  match parseSign 0 s with
  | .error e => .error e
  | .ok (sign, s1) =>
    match parseBase sign s1 with
    | .error e => .error e
    | .ok .zero => .ok 0
    | .ok (.go base s2) =>
      match parseDigits base 0 s2 with
      | .error e => .error e
      | .ok r => check sign r

/-- `strtos64` (strto64.h:96-99): the result cast to `s64`. -/
def strtos64 (s : List Nat) : Res Int :=
  match parse checkSigned s with
  | .ok r => .ok (S64 r)
  | .error e => .error e

/-- `strtou64` (strto64.h:86-89). -/
def strtou64 (s : List Nat) : Res Nat := parse checkUnsigned s

end Ulam.Strto64
