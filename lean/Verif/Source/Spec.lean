import Verif.Source.Model
/-
What a stream with loading is for: one list of bytes still to come. A load puts a whole
file in front, a read takes one byte off, an unread puts the byte just read back.
-/
namespace Ulam.Source

/-- The bytes still to come, the byte the last call read, the names loaded so far. -/
structure Flat where
  rest : List Nat
  last : Option Nat
  names : List Nat

/-- Splicing: what each call shows and leaves. -/
def Flat.step (disk : Disk) (f : Flat) : Op → Out × Flat
  | .read =>
    match f.rest with
    | [] => (.byte (some (-1)), { f with last := none })
    | b :: r => (.byte (some (b : Int)), { f with rest := r, last := some b })
  | .unread =>
    match f.last with
    | none => (.unit, f)
    | some b => (.unit, { f with rest := b :: f.rest, last := none })
  | .load n once =>
    if once ∧ n ∈ f.names then (.loaded (some true), f)
    else match disk n with
      | none => (.loaded (some false), f)
      | some (_, c) =>
        (.loaded (some true), { rest := c ++ f.rest, last := none, names := n :: f.names })
  | .probe n => (.known (decide (n ∈ f.names) || (disk n).isSome), f)

def Flat.outs (disk : Disk) (f : Flat) : List Op → List Out
  | [] => []
  | o :: os => (f.step disk o).1 :: Flat.outs disk (f.step disk o).2 os

/-- A file being read: its name, the bytes read so far (latest first), the bytes left. -/
structure Frame where
  name : Nat
  done : List Nat
  rest : List Nat
deriving DecidableEq

/-- Taking the next byte of the innermost file that has one; files that have none are left. -/
def takeByte : List Frame → Option Nat × List Frame
  | [] => (none, [])
  | f :: fs =>
    match f.rest with
    | [] => takeByte fs
    | b :: r => (some b, { f with done := b :: f.done, rest := r } :: fs)

/-- Putting back the byte last taken. -/
def putBack : List Frame → List Frame
  | [] => []
  | f :: fs =>
    match f.done with
    | [] => f :: fs
    | b :: d => { f with done := d, rest := b :: f.rest } :: fs

/-- The files being read, the names loaded so far, and whether nothing but refused loads
happened since the last read. -/
structure Files where
  frames : List Frame
  names : List Nat
  just : Bool

def Files.init : Files := ⟨[], [], false⟩

def Files.step (disk : Disk) (w : Files) : Op → Files
  | .read => { w with frames := (takeByte w.frames).2, just := true }
  | .unread => { w with frames := putBack w.frames, just := false }
  | .load n once =>
    if once ∧ n ∈ w.names then w
    else match disk n with
      | none => w
      | some (_, c) => ⟨⟨n, [], c⟩ :: w.frames, n :: w.names, false⟩
  | .probe _ => w

def Files.run (disk : Disk) (w : Files) : List Op → Files
  | [] => w
  | o :: os => Files.run disk (w.step disk o) os

/-- The calls that make sense: an unread directly after a read, and no reloading of a file that
is still being read. -/
def Files.ok (w : Files) : Op → Prop
  | .unread => w.just = true
  | .load n once => once = true ∨ ∀ f ∈ w.frames, f.name ≠ n
  | _ => True

def Legal (disk : Disk) (w : Files) : List Op → Prop
  | [] => True
  | o :: os => w.ok o ∧ Legal disk (w.step disk o) os

/-- Schedules in which a pushed-back byte is read again before the next load. -/
def Calm : Bool → List Op → Prop
  | _, [] => True
  | _, .unread :: os => Calm true os
  | _, .read :: os => Calm false os
  | pend, .load _ _ :: os => pend = false ∧ Calm pend os
  | pend, .probe _ :: os => Calm pend os

/-- Line number after the bytes `p` (in any order): one more than the newlines. -/
def lineAfter (p : List Nat) : Nat := 1 + p.count 10

/-- Column after the bytes `p`, latest first: how many there are before the last newline. -/
def columnAfter (p : List Nat) : Nat := (p.takeWhile (· ≠ 10)).length

end Ulam.Source
