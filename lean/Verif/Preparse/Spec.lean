import Verif.Preparse.Model
/-! # What a program with directives should be read as (specification for C97) -/
namespace Ulam.Preparse.Spec
open Ulam.Preparse

/-- A name of a file as a directive writes it: identifiers with dots in between, which stand for slashes. -/
inductive Package : List Tok → List Char → Prop
  | lower (s : List Char) : Package [.ident s] s
  | upper (s : List Char) : Package [.typeIdent s] s
  | lowerDot (s : List Char) {ns p} : Package ns p → Package (.ident s :: .dot :: ns) (s ++ '/' :: p)
  | upperDot (s : List Char) {ns p} : Package ns p → Package (.typeIdent s :: .dot :: ns) (s ++ '/' :: p)

/-- A token that is no directive, no message and no end. -/
def Plain (t : Tok) : Prop := t ≠ .use ∧ t ≠ .load ∧ t ≠ .ulam ∧ t ≠ .err ∧ t ≠ .eof

/-- A text with directives stands for a text without: a loaded file for what its text stands for, a version no newer than the
compiler's and the use of a file that is there for nothing. -/
inductive Expands (D : Disk) (cur : Nat) : List Tok → List Tok → Prop
  | nil : Expands D cur [] []
  | tok {t ts us} : Plain t → Expands D cur ts us → Expands D cur (t :: ts) (t :: us)
  | use {ns p ts us} : Package ns p → D (p ++ ".ulam".toList) ≠ none → Expands D cur ts us →
      Expands D cur (.use :: (ns ++ .semi :: ts)) us
  | load {ns p vs xs ts us} : Package ns p → D (p ++ ".ulam".toList) = some vs → Expands D cur vs xs → Expands D cur ts us →
      Expands D cur (.load :: (ns ++ .semi :: ts)) (xs ++ us)
  | loadFile {p vs xs ts us} : D p = some vs → Expands D cur vs xs → Expands D cur ts us →
      Expands D cur (.load :: .str (some p) :: .semi :: ts) (xs ++ us)
  | ulam {v ts us} : v ≤ cur → Expands D cur ts us → Expands D cur (.ulam :: .num (some v) :: .semi :: ts) us

def isComment : Tok → Bool
  | .comment _ => true
  | _ => false

/-- No comment directly after another. -/
def Apart : List Tok → Prop
  | [] => True
  | [_] => True
  | a :: b :: us => ¬ (isComment a = true ∧ isComment b = true) ∧ Apart (b :: us)

/-- The tokens without the comments, each with the comment before it. -/
def attach : List Tok → List (Option Nat × Tok)
  | [] => []
  | [.comment k] => [(some k, .eof)]
  | .comment k :: t :: us => (some k, t) :: attach us
  | t :: us => (none, t) :: attach us

end Ulam.Preparse.Spec
