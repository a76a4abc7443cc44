/-
Model of the escaping and file name helpers of /repo/src/ulam/UlamUtil.cpp
(lines 132-191) and of the class name taken from a file name
(/repo/src/ulam/CompilerState.cpp:219-244).  A `std::string` is a list of
bytes (`Nat`s below 256).
-/
namespace Ulam.Util

abbrev Bytes := List Nat

/-- `isgraph` of <cctype>, C locale: the ASCII characters that are neither control nor space. -/
def isGraph (c : Nat) : Bool := decide (33 ≤ c ∧ c ≤ 126)

/-- A lower case hexadecimal digit, as `std::hex` prints it. -/
def hexDigit (d : Nat) : Nat := if d < 10 then 48 + d else 87 + d

/-- `os << std::hex << n`: no leading zeros (C++ library behaviour). -/
def hex (n : Nat) : Bytes :=
  if n < 16 then [hexDigit n] else hex (n / 16) ++ [hexDigit (n % 16)]
termination_by n
decreasing_by omega

/-- `HexEscape`, one byte; UlamUtil.cpp:141-153. -/
def escapeByte (ch : Nat) : Bytes :=
  if isGraph ch && ch ≠ 37 then [ch]
  else 37 :: ((if ch < 16 then [48] else []) ++ hex ch)

/-- `HexEscape`; UlamUtil.cpp:132-156. -/
def hexEscape (source : Bytes) : Bytes := source.flatMap escapeByte

/-- `std::string::find`: the first position at which `pat` occurs. -/
def find (pat : Bytes) : Bytes → Option Nat
  | [] => if pat = [] then some 0 else none
  | c :: s => if pat.isPrefixOf (c :: s) then some 0 else (find pat s).map (· + 1)

/-- ".ulam" -/
def suffix : Bytes := [46, 117, 108, 97, 109]

/-- `FindUlamFilenameSuffix`; UlamUtil.cpp:181-191.  `fnstr.length()-5` wraps round for a short
name, but then the suffix is not found either. -/
def findSuffix (fnstr : Bytes) : Nat :=
  match find suffix fnstr with
  | none => 0
  | some found =>
    if (found : Int) ≠ (fnstr.length : Int) - 5 then 0
    else if found = 0 then 0
    else found

/-- `Token::isUpper`; Token.cpp:161-164. -/
def isUpper (c : Nat) : Bool := decide (0x40 < c ∧ c < 0x5B)

/-- `getClassNameFromFileName`; CompilerState.cpp:219-244: the class name, or `none` with an error. -/
def classNameFromFile (startstr : Bytes) : Option Bytes :=
  let found := findSuffix startstr
  if found = 0 then none
  else
    let compileThis := startstr.take found
    match compileThis with
    | [] => none
    | c :: _ => if isUpper c then some compileThis else none

/-- Text of a string literal, for the fixed parts of messages. -/
def hexU64Head : Bytes := [72, 101, 120, 85, 54, 52, 40, 48, 120]

/-- `ToUnsignedDecimal` and, on the two's complement pattern of its argument, `ToSignedDecimal`;
UlamUtil.cpp:158-179: "HexU64(0x<high word>, 0x<low word>)".  (`_ShiftFromBitNumber64` and
`_GetMask64` of MFM's library take the high and the low 32 bits.) -/
def hexU64 (data : Nat) : Bytes :=
  hexU64Head ++ hex (data / 2 ^ 32 % 2 ^ 32) ++ [44, 32, 48, 120] ++ hex (data % 2 ^ 32) ++ [41]

end Ulam.Util
