import Verif.Leximited.Model
import Verif.Types.Spec
/-!
# Values as text (model)

How values of constants and data members are written: in the list of members (`SymbolWithValue::getLexValueAsString`), as the items of
an array in generated C++ (`getHexValueAsString`, `printPostfixValueArray`, `NodeListArrayInitialization::genCode`), in the names of
instances shown to a person (`convertValueToAPrettyString`), and in the printed tree (`printPostfixValueScalar`), with the `File::write_*`
they use.

Simplified: the array of 32-bit words a value is made of (`BitVector::ToArray` of the MFM library) is the argument `ws`, missing words
being zero. The conversions of the MFM library read numbers as in `Types.Spec`. Strings of the user are given by their text.
-/
namespace Ulam.ValText
open Ulam.Leximited
open Ulam.Types (Base)
open Ulam.Types.Spec (twos ones truth)

/-- A lower case hexadecimal digit, as `std::hex` and `%x` write it (C++ library, used in `SymbolWithValue.cpp:684`, `File.cpp:80`). -/
def hexChar (n : Nat) : Char := if n % 16 < 10 then Char.ofNat (48 + n % 16) else Char.ofNat (87 + n % 16)

/-- Hexadecimal text of a number (C++ library, used in `SymbolWithValue.cpp:684`, `File.cpp:80`). -/
def hex (n : Nat) : Str :=
  if n < 16 then [hexChar n] else hex (n / 16) ++ [hexChar n]
termination_by n
decreasing_by omega

/-- Decimal text of a number with a sign, as `%d` and `<<` write it (C++ library, used in `File.cpp:44`, `SymbolWithValue.cpp:703`). -/
def sdec (i : Int) : Str := if i < 0 then '-' :: dec i.natAbs else dec i.natAbs

/-- The number a 32-bit word stands for as `s32`: what `%i` writes of it (`File.cpp:62`). -/
def asS32 (n : Nat) : Int := twos 32 (n % 2 ^ 32)

/-! ## `File` -/

/-- `File.cpp:41-46` `write_decimal`. -/
def writeDecimal (i : Int) : Str := sdec i

/-- `File.cpp:59-64` `write_decimal_unsigned`: the format is `%i`. -/
def writeDecimalUnsigned (n : Nat) : Str := sdec (asS32 n)

/-- `File.cpp:77-82` `write_hexadecimal`. -/
def writeHexadecimal (n : Nat) : Str := '0' :: 'x' :: hex (n % 2 ^ 32)

/-- `File.cpp:84-90` `write_hexadecimallong`: in spite of its name it writes decimal (`ToUnsignedDecimal` of the MFM library). -/
def writeHexadecimallong (n : Nat) : Str := dec (n % 2 ^ 64)

/-! ## Words -/

/-- Words for a number of bits (`SymbolWithValue.cpp:617`, `:659`). -/
def nwords (bits : Nat) : Nat := (bits + 31) / 32

/-- The descending loop for the last word that is not zero (`SymbolWithValue.cpp:621-629`); `n`: words still to be looked at. -/
def lastNonZero (ws : List Nat) : Nat → Option Nat
  | 0 => none
  | n + 1 => if ws.getD n 0 ≠ 0 then some n else lastNonZero ws n

/-- The words from `i` on, `n` of them, one after the other (`SymbolWithValue.cpp:644-647`). -/
def lexWords (ws : List Nat) (i : Nat) : Nat → Str
  | 0 => []
  | n + 1 => lexU (ws.getD i 0) ++ lexWords ws (i + 1) n

/-- `SymbolWithValue.cpp:611-650` `getLexValueAsString`: whether the value is not zero, and the text. -/
def lexValue (bits : Nat) (ws : List Nat) : Bool × Str :=
  match lastNonZero ws (nwords bits) with
  | none => (false, ['1', '0'])
  | some x => (true, lexU (x + 1) ++ lexWords ws 0 (x + 1))

/-- What the list of members shows as value: a constant's (`MapConstantDesc.cpp:31-36`), a data member's, zero if it has no initial
value (`MapDataMemberDesc.cpp:41-49`). -/
def memberValue (bits : Nat) : Option (List Nat) → Str
  | none => ['1', '0']
  | some ws => (lexValue bits ws).2

/-- The ascending loop that finds whether all words are zero (`SymbolWithValue.cpp:662-670`). -/
def allZero (ws : List Nat) (i : Nat) : Nat → Bool
  | 0 => true
  | n + 1 => if ws.getD i 0 ≠ 0 then false else allZero ws (i + 1) n

/-- The loop that writes the words (`SymbolWithValue.cpp:679-685`, `NodeListArrayInitialization.cpp:533-539`), from word `i`. -/
def hexWords (ws : List Nat) (i : Nat) : Nat → Str
  | 0 => []
  | n + 1 => (if i > 0 then [',', ' '] else []) ++ '0' :: 'x' :: hex (ws.getD i 0) ++ hexWords ws (i + 1) n

/-- `SymbolWithValue.cpp:652-688` `getHexValueAsString`. -/
def hexValue (bits : Nat) (ws : List Nat) : Bool × Str :=
  if allZero ws 0 (nwords bits) then (false, ['0', 'x', '0']) else (true, hexWords ws 0 (nwords bits))

/-- `SymbolWithValue.cpp:391-432` `printPostfixValueArray`, between the braces, for a value that is ready; `none`: abort. -/
def arrayItems (isString : Bool) (bits : Nat) (ws : List Nat) : Option Str :=
  if bits = 0 then some []
  else if (hexValue bits ws).1 then some (hexValue bits ws).2
  else if isString then none
  else some ['0']

/-- `NodeListArrayInitialization.cpp:521-541`, between the braces: an array that is not loaded as one number. -/
def listItems (n : Nat) (ws : List Nat) : Str := hexWords ws 0 n

/-- `NodeListArrayInitialization.cpp:543-568`: an array of `n` words that is loaded as one number `v`; `none`: abort. -/
def listNumber (n v : Nat) : Option Str :=
  if n ≤ 1 then some (writeHexadecimal v) else if n = 2 then some (writeHexadecimallong v) else none

/-! ## Single values -/

/-- `SymbolWithValue.cpp:690-756` `convertValueToAPrettyString`, for types other than `String`; `none`: abort. -/
def pretty (b : Base) (n raw : Nat) : Option Str :=
  match b with
  | .int => if n ≤ 64 then some (sdec (twos n raw)) else none
  | .bool => some (if truth .bool n raw then "true".toList else "false".toList)
  | .unary => some (dec (ones n raw))
  | .unsigned => if n ≤ 32 then some (dec (raw % 2 ^ 32) ++ ['u']) else if n ≤ 64 then some (dec raw ++ ['u']) else none
  | .bits => some ('0' :: 'x' :: hex raw)
  | _ => none

/-- `SymbolWithValue.cpp:325-389` `printPostfixValueScalar` for a value that is ready, for types other than `String`; `none`: abort. The
word size of a type is at most 32 exactly if its size is. -/
def printed (b : Base) (n raw : Nat) : Option Str :=
  match b with
  | .int =>
    if n ≤ 32 then some (writeDecimal (twos n raw))
    else if n ≤ 64 then some (writeHexadecimallong ((twos n raw) % 2 ^ 64).toNat)
    else none
  | .bool => some (if truth .bool n raw then "true".toList else "false".toList)
  | .unary | .unsigned | .bits =>
    if n ≤ 32 then some (writeDecimalUnsigned raw ++ ['u'])
    else if n ≤ 64 then some (writeHexadecimallong raw ++ ['u'])
    else none
  | _ => none

end Ulam.ValText
