import Mathlib.Data.Nat.Notation
/-
Model of the byte streams of /repo/share/ulam/stdlib: the array stream (ByteStreamArray.ulam), the printing of numbers and the copying
of ByteStream.ulam.

A byte is `ASCII`, an `Unsigned(8)`. A failing element (`Fail.fail`, an array subscript out of bounds) is `none`. `Unsigned` counters
stay below 2^32 here, so `++` does not saturate. The format controls and the native functions (`printf`, `print(UrSelf&)`) are left out.
-/
namespace Ulam.ByteStream

/-- The fields of ByteStreamArray.ulam:6-8. -/
structure Arr where
  write : Nat
  read : Nat
  data : List Nat
  deriving DecidableEq

/-- A new stream of `len` bytes. -/
def blank (len : Nat) : Arr := ⟨0, 0, List.replicate len 0⟩

/-- `mData[i] = x`. -/
def store (s : Arr) (i x : Nat) : Option Arr := if i < s.data.length then some { s with data := s.data.set i x } else none

/-- `stillRoom`; ByteStreamArray.ulam:10. -/
def stillRoom (len : Nat) (s : Arr) : Bool := decide (s.write < len)

/-- `writeByte`; ByteStreamArray.ulam:19-26. -/
def writeByte (len : Nat) (s : Arr) (x : Nat) : Option (Arr × Int) :=
  if stillRoom len s then (store { s with write := s.write + 1 } s.write x).map fun t => (t, 0) else some (s, -1)

/-- `readByte`; ByteStreamArray.ulam:29-34. -/
def readByte (len : Nat) (s : Arr) : Option (Arr × Int) :=
  if s.read < s.write then s.data[s.read]?.map fun (b : Nat) => ({ s with read := s.read + 1 }, (b : Int))
  else if stillRoom len s then some (s, -2) else some (s, -1)

/-- `reread`, `rewrite`, `reset`; ByteStreamArray.ulam:36-52. -/
def reread (s : Arr) : Arr := { s with read := 0 }
def rewrite (s : Arr) : Arr := { s with write := 0 }
def reset (s : Arr) : Arr := rewrite (reread s)

/-- The calls on a stream. -/
inductive Op
  | write (x : Nat)
  | read
  | reread
  | rewrite
  | reset
  deriving DecidableEq

/-- One call: the state after it and the answer (0 where there is none). -/
def step (len : Nat) (s : Arr) : Op → Option (Arr × Int)
  | .write x => writeByte len s x
  | .read => readByte len s
  | .reread => some (reread s, 0)
  | .rewrite => some (rewrite s, 0)
  | .reset => some (reset s, 0)

/-- A history of calls: the state after it and the answers. -/
def run (len : Nat) (s : Arr) : List Op → Option (Arr × List Int)
  | [] => some (s, [])
  | o :: os => (step len s o).bind fun r => (run len r.1 os).map fun q => (q.1, r.2 :: q.2)

/-! ### Printing, on any stream: `w` is its `writeByte`, whose answer is ignored -/

section
variable {σ : Type} (w : σ → Nat → Option σ)

/-- `print(String)`, `writeBytes(String)`; ByteStream.ulam:59-67, 130-135. -/
def printString (s : σ) : List Nat → Option σ
  | [] => some s
  | b :: bs => (w s b).bind fun t => printString t bs

/-- The string of ByteStream.ulam:94. -/
def digits : List Nat := "0123456789abcdefghijklmnopqrstuvwxyz".toList.map Char.toNat

/-- Lines 97-99 of `print(Unsigned, Unsigned)`, after the checks; the checks of the recursive calls succeed. -/
def printDigits (base : Nat) (s : σ) (n : Nat) : Option σ :=
  if h : n ≥ base ∧ base ≥ 2 then
    (printDigits base s (n / base)).bind fun t => digits[n % base]?.bind fun c => w t c
  else digits[n % base]?.bind fun c => w s c
termination_by n
decreasing_by exact Nat.div_lt_self (by omega) (by omega)

/-- `print(Unsigned n, Unsigned base)`; ByteStream.ulam:89-102. -/
def printBase (s : σ) (n base : Nat) : Option σ :=
  if n = 0 then printString w s ("0".toList.map Char.toNat)
  else
    let base := if base = 0 then 10 else base
    if base < 2 ∨ base ≥ digits.length then none else printDigits w base s n

/-- `print(Unsigned)`; ByteStream.ulam:84-87. -/
def printUnsigned (s : σ) (n : Nat) : Option σ := printBase w s n 10

/-- `print(Bool)`; ByteStream.ulam:76-82. -/
def printBool (s : σ) (b : Bool) : Option σ := w s (if b then '1'.toNat else '0'.toNat)

/-- A cast of an `Int` to `Unsigned` clamps. -/
def toUnsigned (n : Int) : Nat := n.toNat

/-- `print(Int)`; ByteStream.ulam:104-112. -/
def printInt (s : σ) (n : Int) : Option σ :=
  if n = -2147483648 then printString w s ("-2147483648".toList.map Char.toNat)
  else if n < 0 then (printString w s ("-".toList.map Char.toNat)).bind fun t => printBase w t (toUnsigned (-n)) 10
  else printBase w s (toUnsigned n) 10

variable {ρ : Type} (r : ρ → Option (ρ × Int))

/-- A cast of an `Int` to `ASCII` clamps. -/
def toASCII (n : Int) : Nat := min n.toNat 255

/-- The loop of `writeBytes(ByteStreamReader &, Unsigned)`, with `left` rounds to go; ByteStream.ulam:119-128. -/
def copyLoop (s : σ) (q : ρ) (i : Nat) : Nat → Option (σ × ρ × Nat)
  | 0 => some (s, q, i)
  | left + 1 => (r q).bind fun a =>
    if a.2 < 0 then some (s, a.1, i)
    else (w s (toASCII a.2)).bind fun t => copyLoop t a.1 (i + 1) left

/-- `writeBytes(ByteStreamReader &, Unsigned)`; ByteStream.ulam:119-128. -/
def writeBytes (s : σ) (q : ρ) (max : Nat) : Option (σ × ρ × Nat) := copyLoop w r s q 0 max

end

/-- The array stream as a stream to print to. -/
def arrWriter (len : Nat) (s : Arr) (x : Nat) : Option Arr := (writeByte len s x).map Prod.fst

/-! ### The string stream -/

/-- `ByteStreamString`: its string and position; ByteStreamString.ulam:4-29. -/
structure Str where
  str : List Nat
  index : Nat

/-- `readFrom`, which the constructor calls; ByteStreamString.ulam:8-16. -/
def readFrom (s : List Nat) : Str := ⟨s, 0⟩

/-- `readByte`; ByteStreamString.ulam:25-28. -/
def strRead (s : Str) : Option (Str × Int) :=
  if s.index ≥ s.str.length then some (s, -1) else s.str[s.index]?.map fun (b : Nat) => ({ s with index := s.index + 1 }, (b : Int))

end Ulam.ByteStream
