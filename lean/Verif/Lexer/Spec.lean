import Verif.Lexer.Model
/-
What is expected of the lexer, in terms of the bytes of the input.
-/
namespace Ulam.Lexer
open Ulam.Token

/-- The stream after `k` requests. -/
def after : Nat → Str → Str
  | 0, s => s
  | k + 1, s => after k (nextToken s).2.2

/-- What `k` requests answer. -/
def answers : Nat → Str → List (Bool × Tok)
  | 0, _ => []
  | k + 1, s => ((nextToken s).1, (nextToken s).2.1) :: answers k (nextToken s).2.2

/-- A stream about to give the bytes `l`. -/
def fresh (l : List Nat) : Str := ⟨l, none⟩

def eofTok : Tok := ⟨tokEof, .none⟩

/-- `bytes "..."`: the codes of the characters. -/
def bytes (s : String) : List Nat := s.toList.map Char.toNat

/-- The characters identifiers are made of. -/
def identBytes : List Nat :=
  bytes "abcdefghijklmnopqrstuvwxyzABCDEFGHIJKLMNOPQRSTUVWXYZ0123456789_"

/-- Space, tab, line feed, vertical tab, form feed, carriage return. -/
def white : List Nat := bytes " \t\n\x0b\x0c\r"

def letters : List Nat := bytes "abcdefghijklmnopqrstuvwxyzABCDEFGHIJKLMNOPQRSTUVWXYZ"
def capitals : List Nat := bytes "ABCDEFGHIJKLMNOPQRSTUVWXYZ"

/-- Neither white space nor the beginning of a word, a number, a flag, a quoted string; and not byte 255. -/
def operatorByte (b : Nat) : Prop :=
  b ∉ identBytes ∧ b ∉ bytes " \t\n\r@\"'" ∧ b ≠ 11 ∧ b ≠ 12 ∧ b ≠ 255

/-- `sub` occurs in `l`. -/
def occurs (sub l : List Nat) : Prop := ∃ x y, l = x ++ sub ++ y

/-- The outcome of a longest match: the token whose spelling is the longest in the table that starts the
input, or an error if there is none. -/
def LongestMatch (input : List Nat) (t : Option Nat) (rest : List Nat) : Prop :=
  match t with
  | some t => t < lastOne ∧ input = spelling t ++ rest ∧
      ∀ u < lastOne, spelling u <+: input → (spelling u).length ≤ (spelling t).length
  | none => (∀ u < lastOne, ¬ spelling u <+: input) ∧ input.tail = rest

end Ulam.Lexer
