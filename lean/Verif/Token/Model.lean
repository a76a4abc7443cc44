import Verif.Token.Table
import Verif.Util.Model
/-
Model of the internal names of operator overloads,
/repo/src/ulam/Token.cpp:196-249.  The string pool (properties C18 to C20) is left out:
names are used directly instead of their ids.
-/
namespace Ulam.Token

/-- "_operator" -/
def prefixName : Bytes := [95, 111, 112, 101, 114, 97, 116, 111, 114]

/-- `ophex << std::hex << (u32) opname.at(i)`; Token.cpp:218.  `char` is signed, so that a byte
above 127 prints with all upper bits set. -/
def hexOfChar (c : Nat) : Bytes := Util.hex (if c < 128 then c else c + 0xFFFFFF00)

/-- `getOperatorHexNameFromString`; Token.cpp:215-223. -/
def hexName (opname : Bytes) : Bytes := opname.flatMap hexOfChar

/-- `getOperatorOverloadFullNameId`; Token.cpp:197-207, with `getOperatorHexName` (208-212).
`none` stands for the id 0: not an operator that can be overloaded. -/
def fullName (t : Nat) : Option Bytes :=
  if overloadable t = false then none
  else some ([95] ++ spelling tokKwOperator ++ hexName (spelling t))

/-- `isOperatorOverloadIdentToken`; Token.cpp:225-234. -/
def isOverloadName (idname : Bytes) : Bool := prefixName.isPrefixOf idname

/-- The value of one hexadecimal digit as `strtol` takes it, upper or lower case. -/
def digitValue (c : Nat) : Option Nat :=
  if 48 ≤ c ∧ c ≤ 57 then some (c - 48)
  else if 97 ≤ c ∧ c ≤ 102 then some (c - 87)
  else if 65 ≤ c ∧ c ≤ 70 then some (c - 55)
  else none

/-- `strtol(byte, NULL, 16)` on at most two characters: the value of the leading digits.
Simplification: blanks, signs and "0x", which cannot occur in these names, are not accepted. -/
def strtol16 : Bytes → Nat
  | [] => 0
  | [a] => (digitValue a).getD 0
  | a :: b :: _ =>
    match digitValue a with
    | none => 0
    | some x => match digitValue b with
      | none => x
      | some y => 16 * x + y

/-- `for(i = 9; i < length; i += 2) ... substr(i,2) ...`; Token.cpp:242-246: the characters. -/
def decodePairs : Bytes → Bytes
  | [] => []
  | [a] => [strtol16 [a] % 256]
  | a :: b :: s => (strtol16 [a, b] % 256) :: decodePairs s

/-- `getUlamNameIdForOperatorOverloadToken`; Token.cpp:236-249.  `none`: the assertion fails. -/
def ulamName (ophexname : Bytes) : Option Bytes :=
  if isOverloadName ophexname then some (spelling tokKwOperator ++ decodePairs (ophexname.drop 9))
  else none

end Ulam.Token
