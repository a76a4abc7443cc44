import Verif.Templ.Model

/-
What the use of a class template should stand for.
-/

namespace Ulam.Templ

/-- An argument list as one writes it: expressions with commas between them, and
the closing parenthesis. -/
def text {E : Type} : List E → List (Tok E)
  | [] => [.close]
  | [e] => [.expr e, .close]
  | e :: f :: r => .expr e :: .comma :: text (f :: r)

/-- A parameter list as one writes it. -/
def ptext {E : Type} : List (Param E) → List (PTok E)
  | [] => [.close]
  | [p] => [.param p, .close]
  | p :: q :: r => .param p :: .comma :: ptext (q :: r)

/-- An argument list whose commas may be missing. -/
inductive Loose {E : Type} : List (Tok E) → List E → Prop where
  | nil (r : List (Tok E)) : Loose (.close :: r) []
  | bare {e : E} {r : List (Tok E)} {es : List E} : Loose r es → Loose (.expr e :: r) (e :: es)
  | comma {e f : E} {r : List (Tok E)} {es : List E} :
      Loose r (f :: es) → Loose (.expr e :: .comma :: r) (e :: f :: es)

/-- A parameter list as the parser accepts it: names differ, and after a parameter with
a default value all have one. -/
structure Good {E : Type} (ps : List (Param E)) : Prop where
  names : (ps.map (·.name)).Nodup
  trailing : ps.Pairwise (fun p q => p.dflt.isSome → q.dflt.isSome)
  nonempty : ps ≠ []

/-- The arguments fit: not more than parameters, and every parameter without an argument
has a default value. -/
def Fits {E : Type} (ps : List (Param E)) (es : List E) : Prop :=
  es.length ≤ ps.length ∧ ∀ i p, es.length ≤ i → ps[i]? = some p → p.dflt.isSome

/-- What parameter number `i` stands for: the argument, in the scope of the user, or
the default value, in the scope of the instance. -/
def given {E : Type} (ps : List (Param E)) (es : List E) (i : Nat) : Option (E × Scope) :=
  match es[i]? with
  | some e => some (e, .user)
  | none => (ps[i]?).bind (fun p => p.dflt.map (fun e => (e, .inst)))

/-- The stub is as it should be: one node for each parameter, in order, with the
name of the parameter and what it stands for; and whichever of them are pending,
they are folded in the right scope. -/
structure Bound {E : Type} (ps : List (Param E)) (es : List E) (b : Block E) : Prop where
  count : b.nodes.length = ps.length
  node : ∀ i p, ps[i]? = some p → ∃ n e s, b.nodes[i]? = some n ∧ n.name = .own p.name ∧
    n.expr = some e ∧ given ps es i = some (e, s)
  scope : ∀ l, l.Sublist b.nodes → ∃ l', scopes b false l = some l' ∧ l'.map Prod.fst = l ∧
    ∀ n s, (n, s) ∈ l' → ∀ i p, ps[i]? = some p → n.name = .own p.name →
      ∃ e, given ps es i = some (e, s)

end Ulam.Templ
