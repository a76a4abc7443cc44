import Verif.Leximited.Model
import Verif.Types.Spec
/-!
# Mangled names and template argument keys (model)

Names given to types, functions and class instances in generated code, and the keys under which template instances are
stored. Numbers and strings are encoded with the leximited encodings of `Verif.Leximited.Model`.
-/
namespace Ulam.Mangle
open Ulam.Leximited

/-- What a type's mangled name depends on besides its base: reference, array size (-1 scalar), bit size. -/
structure Shape where
  ref : Bool
  arr : Int
  bits : Int
  deriving DecidableEq, Repr

/-- Base types with their code letter, `include/UlamType.inc`. -/
inductive Code
  | nouti | nav | hzy | void | int | unsigned | bool | unary | bits | cls | atom | ptr | holder | fileScope | string
  deriving DecidableEq, Repr

/-- `include/UlamType.inc`, fourth column; `UlamType.cpp` `getUlamTypeEnumCodeChar`. -/
def Code.char : Code → Char
  | .nouti => 'o' | .nav => 'n' | .hzy => 'z' | .void => 'v' | .int => 'i' | .unsigned => 'u' | .bool => 'b'
  | .unary => 'y' | .bits => 't' | .cls => 'c' | .atom => 'a' | .ptr => 'p' | .holder => 'h' | .fileScope => 'l'
  | .string => 's'

/-- `UlamType.cpp:227-243` (same text in `UlamTypeClass.cpp:147-163`): reference mark, array size, bit size. -/
def shapeText (k : Shape) : Str :=
  (if k.ref then ['r'] else []) ++
  (if k.arr > 0 then lexS 32 k.arr else if k.arr = 0 then lexS 32 (-1) else "10".toList) ++
  (if k.bits > 0 then lexS 32 k.bits else "10".toList)

/-- `UlamType.cpp:223-249` `UlamType::getUlamTypeMangledType`. -/
def mangledType (k : Shape) (c : Code) : Str := shapeText k ++ lexStr [c.char]

/-- `UlamType.cpp:251-265` `UlamType::getUlamTypeMangledName` with the prefix of non-class types. -/
def mangledName (k : Shape) (c : Code) : Str := "Ut_".toList ++ mangledType k c

/-- `UlamTypeClass.cpp:143-168` `UlamTypeClass::getUlamTypeMangledType`; the class name is encoded by
`getDataAsStringMangled` (`CompilerState.cpp:5532-5538`). -/
def mangledClassType (k : Shape) (name : Str) : Str := shapeText k ++ lexStr name

/-- A lower case hexadecimal digit, as `std::hex` prints it. -/
def hexDigit (n : Nat) : Char := if n % 16 < 10 then Char.ofNat (48 + n % 16) else Char.ofNat (87 + n % 16)

/-- `std::hex << setfill('0') << setw(2) << (u32) c` for a (signed) `char` of byte value `b`: bytes from 128 up are sign
extended to 32 bits before printing (`SymbolWithValue.cpp:871`). -/
def hexByte (b : Nat) : Str :=
  if b < 128 then [hexDigit (b / 16), hexDigit b]
  else ['f', 'f', 'f', 'f', 'f', 'f', hexDigit (b / 16), hexDigit b]

/-- `SymbolWithValue.cpp:815-879` `convertValueToALexString`; `pool` gives the stored bytes of a user string
(length byte, characters, null byte). The MFM conversions read numbers as in `Types.Spec`. Other base types abort
(`none`). -/
def lexValue (pool : Nat → List Nat) (c : Code) (bs : Nat) (raw : Nat) : Option Str :=
  match c with
  | .int => if bs ≤ 32 then some (lexS 32 (Types.Spec.twos bs raw))
            else if bs ≤ 64 then some (lexS 64 (Types.Spec.twos bs raw)) else none
  | .bool => some (if 2 * Types.Spec.ones bs raw > bs then lexS 32 1 else lexS 32 0)
  | .unary => some (lexS 32 (Types.Spec.ones bs raw))
  | .unsigned | .bits => if bs ≤ 32 then some (lexU (raw % 2 ^ 32)) else if bs ≤ 64 then some (lexU raw) else none
  | .string => some ((pool raw).dropLast.flatMap hexByte)
  | _ => none

/-- Read `len` bits from bit `pos`, most significant first (MFM `BitVector::Read`). -/
def readBits (bs : List Bool) (pos len : Nat) : Nat :=
  ((bs.drop pos).take len).foldl (fun n b => 2 * n + b.toNat) 0

/-- `SymbolWithValue.cpp:478-513` `getValueAsHexString` on a value of `bs.length` bits. Note line 501 reads the `i`-th
nybble at bit `i`. -/
def hexString (bs : List Bool) : Str :=
  if bs.length = 0 then "0".toList
  else
    let t := bs.length / 4
    let rem := bs.length - t * 4
    (List.range t).map (fun i => hexDigit (readBits bs i 4)) ++
      (if rem > 0 then [hexDigit (readBits bs (t * 4) rem * 2 ^ (4 - rem))] else [])

/-- A template argument with a ready value: items of a primitive type (one for a scalar), or a class value as bits. -/
inductive Arg
  | prim (k : Shape) (c : Code) (items : List Nat)
  | cls (k : Shape) (bits : List Bool)
  deriving DecidableEq, Repr

/-- Number of items of a shape: one for a scalar. -/
def count (k : Shape) : Nat := if k.arr < 0 then 1 else k.arr.toNat

/-- Concatenate, failing if one fails. -/
def concatM : List (Option Str) → Option Str
  | [] => some []
  | none :: _ => none
  | some a :: xs => (concatM xs).map (a ++ ·)

/-- One iteration of the loop in `SymbolClassNameTemplate.cpp:945-993`, with `getArrayValueAsString`
(`SymbolWithValue.cpp:515-546`) and `getLexValue` (72-82) inlined. Simplification: all values are ready (`isok`). -/
def argText (pool : Nat → List Nat) : Arg → Option Str
  | .prim k c items =>
    if k.arr ≥ 0 then
      if k.bits * k.arr = 0 then some (mangledType k c ++ "10".toList)
      else (concatM (items.map (lexValue pool c k.bits.toNat))).map (mangledType k c ++ ·)
    else (concatM (items.map (lexValue pool c k.bits.toNat))).map (mangledType k c ++ ·)
  | .cls k bits => some (mangledType k .cls ++ lexStr (hexString bits))

/-- `SymbolClassNameTemplate.cpp:910-998` `formatAnInstancesArgValuesAsAString`; with no parameters it is also
`SymbolClassName.cpp:108-115`. -/
def instanceKey (pool : Nat → List Nat) (isRef : Bool) (args : List Arg) : Option Str :=
  (concatM (args.map (argText pool))).map fun t =>
    (if isRef then ['r'] else []) ++ lexU args.length ++ t

/-- A parameter type: primitive, or a class with its template arguments. -/
inductive PTy
  | prim (k : Shape) (c : Code)
  | cls (k : Shape) (name : Str) (args : List Arg)
  deriving DecidableEq, Repr

/-- `SymbolFunction.cpp:239-259`, one iteration (not dereferenced). A plain class has key `10`
(`SymbolClassName.cpp:114`), with no reference mark; `isTemplate` tells which. -/
def paramText (pool : Nat → List Nat) (isTemplate : Str → Bool) : PTy → Option Str
  | .prim k c => some (mangledType k c)
  | .cls k name args =>
    (if isTemplate name then instanceKey pool k.ref args else some "10".toList).map (mangledClassType k name ++ ·)

/-- `SymbolFunction.cpp:227-261` `getMangledNameWithTypes`, with `Symbol::getMangledName` (`Symbol.cpp:235-253`) and the
prefix of `SymbolFunction.cpp:171-174`. -/
def mangledFunction (pool : Nat → List Nat) (isTemplate : Str → Bool) (name : Str) (params : List PTy) : Option Str :=
  (concatM (params.map (paramText pool isTemplate))).map fun t =>
    "Uf_".toList ++ lexStr name ++ lexU params.length ++ t

end Ulam.Mangle
