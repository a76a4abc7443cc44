import Verif.Default.Model
import Verif.Layout.Props
/-! # What default values and initialized objects should hold (specification for C64, C65) -/
namespace Ulam.Default.Spec
open Ulam.Default Ulam.Layout Ulam.Layout.Spec Ulam.Walker Ulam.Walker.Spec
variable {n : Nat}

/-- A value is the default of class `d`. -/
def Is (G : Prog n) (d : Fin n) (u : Bits) : Prop := ∃ f, default G f d = some u

/-- Bits of one item of a member. -/
def item (m : Member) : Nat := if m.element then 96 else m.bits

/-- `b` is what bit `x` of member `m` should be: zero without initial value, a bit of the initial value, a bit of the default
of the class of the member, again for each item of an array, or a bit of an empty atom. -/
def Wanted (G : Prog n) (m : Member) (ini : Init n) (x : Nat) (b : Bool) : Prop :=
  match ini with
  | .plain => b = false
  | .value v => b = v x
  | .object d => ∃ u, Is G d u ∧ b = u (x % item m)
  | .atom => ∃ u, Is G G.empty u ∧ b = u (x % 96)

/-- Every member of class `c` has an entry for its initial value; the size of an `Atom` is 96. -/
structure Typed (G : Prog n) (c : Fin n) : Prop where
  all : (G.init c).length = (G.L c).members.length
  atom : ∀ (i : Nat) (m : Member), (G.L c).members[i]? = some m → (G.init c)[i]? = some .atom → item m = 96

/-- What the compiler has checked about the classes of a program before default values are built (see C15). -/
structure Checked (G : Prog n) : Prop where
  ok : Ok G.w
  acyclic : Acyclic G.w
  tables : Tables G.w G.L
  wf : ∀ x, Wf (G.L x)
  typed : ∀ x, Typed G x

/-- A class, itself and not a reference or alias, and with no base listed twice, which is laid out: no union, and its own bits
and those of its ancestors number less than `2 ^ 32`. -/
structure Laid (G : Prog n) (c : Fin n) : Prop where
  root : G.w.root c = c
  deref : G.w.deref c = c
  defined : G.w.defined c = true
  no_union : (G.L c).isUnion = false
  nodup : NoDuplicates G.w c
  fit : ∀ anc : List (Fin n), anc.Nodup → (∀ a ∈ anc, Ancestor G.w c a) →
    ownBits (G.L c) + (anc.map fun a => ownBits (G.L a)).sum < 2 ^ 32

/-- Class `c` has a part of class `d`: a member (of some bits) or an ancestor. -/
def Needs (G : Prog n) (c d : Fin n) : Prop :=
  (∃ (i : Nat) (m : Member), (G.L c).members[i]? = some m ∧ size m ≠ 0 ∧
    ((G.init c)[i]? = some (.object d) ∨ (G.init c)[i]? = some .atom ∧ d = G.empty)) ∨ Ancestor G.w c d

/-- Where the bits of member `i` of class `a` begin in an object of class `c`, and the member; `hd` bits come first. -/
def At (G : Prog n) (c a : Fin n) (i : Nat) (pos : Nat) (m : Member) : Prop :=
  ∃ p q r, pack G.w G.L a = some p ∧ p.members[i]? = some q ∧ (G.L a).members[i]? = some m ∧
    (c = a ∧ r = 0 ∨ Ancestor G.w c a ∧ relativePosition G.w (pack G.w G.L) c a = some r) ∧
    pos = (if (G.L c).kind = .element then 25 else 0) + r + q

/-- What an initialization list with all items placed (position, length, bits) makes of the bits `u` at `y`. -/
def Result (ws : List (Nat × Nat × Bits)) (u : Bits) (y : Nat) (b : Bool) : Prop :=
  (∃ p ∈ ws, p.1 ≤ y ∧ y < p.1 + p.2.1 ∧ b = p.2.2 (y - p.1)) ∨ (∀ p ∈ ws, ¬ (p.1 ≤ y ∧ y < p.1 + p.2.1)) ∧ b = u y

/-- No two of the ranges share a bit. -/
def Apart (ws : List (Nat × Nat × Bits)) : Prop :=
  ws.Pairwise fun p q => ∀ y, p.1 ≤ y → y < p.1 + p.2.1 → q.1 ≤ y → y < q.1 + q.2.1 → False

/-- The `s` bits from `pos` on. -/
def window (u : Bits) (pos s : Nat) : Bits := fun x => if x < s then u (pos + x) else false

/-- The items of a list for an object of class `d` with bits `u`: positions, lengths, and the bits to be there. The bits for a
nested list are those the member has in `u`, changed by the items of that list, which are apart. -/
inductive Placed (G : Prog n) : Fin n → Inits n → Bits → List (Nat × Nat × Bits) → Prop
  | nil (d : Fin n) (u : Bits) : Placed G d .nil u []
  | bits {d a : Fin n} {i pos : Nat} {m : Member} {v u : Bits} {rest : Inits n} {ws : List (Nat × Nat × Bits)} :
      At G d a i pos m → Placed G d rest u ws → Placed G d (.cons a i (.bits v) rest) u ((pos, size m, v) :: ws)
  | list {d a d' : Fin n} {i pos : Nat} {m : Member} {l rest : Inits n} {u r : Bits} {ws ws' : List (Nat × Nat × Bits)} :
      At G d a i pos m → Placed G d' l (window u pos (size m)) ws' → Apart ws' →
      (∀ y, Result ws' (window u pos (size m)) y (r y)) →
      Placed G d rest u ws → Placed G d (.cons a i (.list d' l) rest) u ((pos, size m, r) :: ws)

mutual
/-- Nested lists are for classes that are laid out. -/
def ResolvedVal (G : Prog n) : Val n → Prop
  | .bits _ => True
  | .list d l => Laid G d ∧ Resolved G d l
/-- The members named in a list for class `d` are declared in `d` or in an ancestor. -/
def Resolved (G : Prog n) (d : Fin n) : Inits n → Prop
  | .nil => True
  | .cons a i v rest => (d = a ∨ Ancestor G.w d a) ∧ i < (G.L a).members.length ∧ Laid G a ∧ ResolvedVal G v ∧ Resolved G d rest
end

/-- The members named in a list, not counting nested lists: declaring class and number. -/
def names : Inits n → List (Fin n × Nat)
  | .nil => []
  | .cons a i _ rest => (a, i) :: names rest

mutual
/-- In nested lists too, no member is named twice. -/
def DistinctVal : Val n → Prop
  | .bits _ => True
  | .list _ l => Distinct l
/-- No member is named twice. -/
def Distinct : Inits n → Prop
  | .nil => True
  | .cons a i v rest => (a, i) ∉ names rest ∧ DistinctVal v ∧ Distinct rest
end

/-- Class `c` or an ancestor has a data member (of some bits) of class `d`. -/
def Contains (G : Prog n) (c d : Fin n) : Prop :=
  ∃ a, (c = a ∨ Ancestor G.w c a) ∧ ∃ (i : Nat) (m : Member), (G.L a).members[i]? = some m ∧ size m ≠ 0 ∧
    ((G.init a)[i]? = some (.object d) ∨ (G.init a)[i]? = some .atom ∧ d = G.empty)

end Ulam.Default.Spec
