import Verif.BaseCopy.Model
/-
Where the bits of a class lie, said without the code that copies them.
-/
namespace Ulam.BaseCopy

/-- Bit `k` of a value of the class. It is a bit of its own members, or of the
members of one of its bases.  `home` says where the own members start, `rel` where
the members of each base start. -/
def Lies (C : Cls) (home : Nat) (rel : Nat → Nat) (k q : Nat) : Prop :=
  (k < C.own ∧ q = home + k) ∨
    ∃ b ∈ C.bases, b.pos ≤ k ∧ k < b.pos + b.len ∧ q = rel b.id + (k - b.pos)

/-- Two runs of bits do not meet. -/
def Apart (p n q m : Nat) : Prop := p + n ≤ q ∨ q + m ≤ p ∨ n = 0 ∨ m = 0

/-- The layout of the class itself: the members of the class first, each base
somewhere, no two meeting, nothing left over. -/
structure Laid (C : Cls) : Prop where
  own : C.own ≤ C.size
  base : ∀ b ∈ C.bases, b.pos + b.len ≤ C.size
  ownApart : ∀ b ∈ C.bases, Apart 0 C.own b.pos b.len
  apart : C.bases.Pairwise (fun a b => Apart a.pos a.len b.pos b.len)
  cover : ∀ k < C.size, k < C.own ∨ ∃ b ∈ C.bases, b.pos ≤ k ∧ k < b.pos + b.len

/-- The reference points into an object of the effective self that starts at
`start` in a storage of `n` bits: the same, for the places in the storage. -/
structure Placed (C : Cls) (r : Ref) (start n : Nat) : Prop where
  pos : r.pos = start + r.postoeff
  own : r.pos + C.own ≤ n
  base : ∀ b ∈ C.bases, start + r.relPos b.id + b.len ≤ n
  ownApart : ∀ b ∈ C.bases, Apart r.pos C.own (start + r.relPos b.id) b.len
  apart : C.bases.Pairwise fun a b =>
    Apart (start + r.relPos a.id) a.len (start + r.relPos b.id) b.len
  small : n < 2 ^ 32
  same : C.id = r.eff → r.postoeff = 0 ∧ ∀ b ∈ C.bases, r.relPos b.id = b.pos

end Ulam.BaseCopy
