/-!
# Leximited encodings (model)

Models `src/ulam/UlamUtil.cpp` lines 12-152 (`ToLeximitedNumber`, `ToLeximitedHeader`, `ToLeximitedNumber64`,
`ToLeximited`). Strings are lists of characters (one `Char` per C++ `char`).
Fixed-width numbers are `Nat`/`Int`; the width bounds are hypotheses of the theorems, and the one silent
truncation in the code (`size_t` to `u32` in `ToLeximited`) is modelled by `% 2^32`.
-/
namespace Ulam.Leximited

/-- Text: a list of characters, one per C++ `char`. -/
abbrev Str := List Char

/-- The decimal digit character for `d % 10`. -/
def digit (d : Nat) : Char := Char.ofNat (48 + d % 10)

/-- Decimal text of an unsigned number, as `std::ostringstream << u32/u64` prints it (C++ library behaviour;
used in UlamUtil.cpp:47,58,68,70). -/
def dec (n : Nat) : Str :=
  if n < 10 then [digit n] else dec (n / 10) ++ [digit n]
termination_by n
decreasing_by omega

/-- `DigitCount(num,10)` of MFM's Util.cpp (external): number of decimal digits, used for `num > 0`
(UlamUtil.cpp:36,43,55,70). -/
def digitCount (n : Nat) : Nat :=
  if n < 10 then 1 else digitCount (n / 10) + 1
termination_by n
decreasing_by omega

theorem digitCount_le (n : Nat) (h : 0 < n) : digitCount n ≤ n := by
  induction n using Nat.strongRecOn with
  | ind n ih =>
    rw [digitCount]
    split
    · omega
    · have := ih (n / 10) (by omega) (by omega)
      omega

/-- `ToLeximitedHeader(u32 len)` (UlamUtil.cpp:64-72). -/
def header (len : Nat) : Str :=
  if len < 9 then dec len
  else '9' :: (header (digitCount len) ++ dec len)
termination_by len
decreasing_by
  rw [digitCount]
  split
  · omega
  · have := digitCount_le (len / 10) (by omega)
    omega

/-- `ToLeximitedNumber(u32)` and `ToLeximitedNumber64(u64)` (UlamUtil.cpp:52-61, 117-126). -/
def lexU (n : Nat) : Str :=
  header (if n = 0 then 1 else digitCount n) ++ dec n

/-- `ToLeximitedNumber(s32)` and `ToLeximitedNumber64(s64)` (UlamUtil.cpp:12-49, 75-115), `w` is the width (32 or 64).
The most negative number is coded `n10`. `num` is assumed to be in the range of the C++ type. -/
def lexS (w : Nat) (num : Int) : Str :=
  if num = 0 then header 1 ++ dec 0
  else if num < 0 then
    if num = -(2 ^ (w - 1) : Int) then 'n' :: (header 1 ++ dec 0)
    else 'n' :: (header (digitCount num.natAbs) ++ dec num.natAbs)
  else header (digitCount num.natAbs) ++ dec num.natAbs

/-- `ToLeximited(const std::string&)` (UlamUtil.cpp:128-133); the `size_t` length is passed as `u32`. -/
def lexStr (s : Str) : Str := header (s.length % 2 ^ 32) ++ s

end Ulam.Leximited
